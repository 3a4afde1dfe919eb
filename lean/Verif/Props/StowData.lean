/-
Property C62: a stow job stores what is missing, in order, and then metadata which tells what was stored instead of files that have changed.
-/
import Verif.Proofs.StowDataRun

namespace Verif.Props
open Verif Stow StowData
open _root_.Verif.Rsilo (cstr)

/-- These, with a comma and a newline between them. -/
def commaNl : List Bytes → Bytes
  | [] => []
  | [a] => a
  | a :: l => a ++ b!",\n" ++ commaNl l

/-- The line of the metadata for a file whose contents have another ID than mtree said. -/
def changedLine (g : Cfg) (p : Item × Bytes) : Bytes := b!"\t    \"sha256:" ++ p.1.digest ++ b!"\": \"id:" ++ (g.sha p.2).take g.n ++ b!"\""

/-- The metadata of a job in which these files had changed. -/
def record (g : Cfg) (ch : List (Item × Bytes)) : Bytes :=
  b!"[\n    \"STOW3.0\",\n    {\n" ++
  (if ch = [] then [] else b!"\t\"changed\": {\n" ++ commaNl (ch.map (changedLine g)) ++ b!"\n\t},\n") ++
  (b!"\t\"mtree\": \"sha256:" ++ g.sha g.text ++ b!"\",\n\t\"target\": \"" ++ g.job ++ b!"\",\n\t\"time\": " ++ g.time ++ b!"\n    }\n]\n")

/-- The first digits of the digest of the contents are not those that mtree said. -/
def Changed (g : Cfg) (p : Item × Bytes) : Prop := (g.sha p.2).take g.n ≠ p.1.digest.take g.n

instance (g : Cfg) (p : Item × Bytes) : Decidable (Changed g p) := inferInstanceAs (Decidable (_ ≠ _))

theorem entries_join (g : Cfg) : ∀ (a : Item × Bytes) (l : List (Item × Bytes)),
    ((a :: l).flatMap (fun p => changedEntry p.1.digest (g.ident p.2))).drop 2 = commaNl ((a :: l).map (changedLine g))
  | a, [] => by
    simp only [List.flatMap_cons, List.flatMap_nil, List.append_nil, List.map_cons, List.map_nil, commaNl]
    rfl
  | a, b :: l => by
    rw [List.flatMap_cons, List.map_cons, List.map_cons, commaNl, ← List.map_cons, ← entries_join g b l]
    · simp only [changedEntry, changedLine, Cfg.ident, List.flatMap_cons, List.append_assoc]
      rfl
    · intro h; cases h

theorem entry_changed {g : Cfg} {files : List Item} (hg : CfgOk g files) {p : Item × Bytes} (hp : p.1.digest.length = 64) :
    entry g p = if Changed g p then changedEntry p.1.digest (g.ident p.2) else [] := by
  have h1 := hg.n2
  have h2 := (hg.sha p.2).1
  have key : (g.ident p.2).isPrefixOf p.1.digest = true ↔ ¬Changed g p := by
    rw [List.isPrefixOf_iff_prefix, List.prefix_iff_eq_take, Changed, Cfg.ident]
    rw [show ((g.sha p.2).take g.n).length = g.n by rw [List.length_take]; omega]
    constructor
    · intro h k; exact k h
    · intro h
      by_cases k : (g.sha p.2).take g.n = p.1.digest.take g.n
      · exact k
      · exact absurd k h
  unfold entry
  by_cases h : Changed g p
  · rw [if_pos h, if_neg (fun k => key.1 k h)]
  · rw [if_neg h, if_pos (key.2 h)]

theorem entries_filter {g : Cfg} {files : List Item} (hg : CfgOk g files) : ∀ {l : List (Item × Bytes)}, (∀ p ∈ l, p.1.digest.length = 64) →
    l.flatMap (entry g) = (l.filter (fun p => Changed g p)).flatMap (fun p => changedEntry p.1.digest (g.ident p.2))
  | [], _ => rfl
  | p :: l, h => by
    rw [List.flatMap_cons, entry_changed hg (h p (by simp)), List.filter_cons, entries_filter hg (fun q hq => h q (by simp [hq]))]
    by_cases hc : Changed g p
    · simp [hc]
    · simp [hc]

theorem record_text {g : Cfg} {files : List Item} (hg : CfgOk g files) {l : List (Item × Bytes)} (h : ∀ p ∈ l, p.1.digest.length = 64) :
    metaText g (g.sha g.text) (l.flatMap (entry g)) = record g (l.filter (fun p => Changed g p)) := by
  rw [entries_filter hg h]
  unfold metaText record
  cases l.filter (fun p => Changed g p) with
  | nil => rfl
  | cons a m =>
    rw [entries_join, if_neg, if_neg (by simp)]
    simp [changedEntry]

/-- C62: no check fails in any run of a job in which no file is empty when it is opened, the list of files is not found in the archive while one of the
files is not, and the filter jobs end before the metadata job. -/
theorem C62_safe_partial {g : Cfg} {files : List Item} (hg : CfgOk g files) {known : Bytes → Bool} {es : List StowData.Ev} {r : Res StowData.Sys}
    (ho : RunOk g (StowData.start g files [] known) es) (hr : StowData.run g (StowData.start g files [] known) es = some r) : ∃ s, r = .ok s := by
  obtain ⟨s, h, -⟩ := run_inv hg es (dinv_start files known) ho hr
  exact ⟨s, h⟩

/-- C62: when the job is done, all that the server's verdicts called missing has been read and stored, in order, and nothing else.
One record of metadata was stored, which refers to the list of files, and lists exactly the files whose contents were not those that mtree had seen.
All the verdicts are right. -/
theorem C62_done_partial {g : Cfg} {files : List Item} (hg : CfgOk g files) {known : Bytes → Bool} {es : List StowData.Ev} {s : StowData.Sys}
    (ho : RunOk g (StowData.start g files [] known) es) (hr : StowData.run g (StowData.start g files [] known) es = some (.ok s)) (hd : s.gone = true) :
    ∃ V : List (Item × Bool), V.map (·.1) = asked files (g.sha g.text) ∧
      s.sent.map (·.1) = (V.filter (·.2)).map (·.1) ∧ s.stored = s.sent.map (·.2) ∧
      s.metas = [((g.sha g.text).take g.n, record g (s.sent.filter (fun p => Changed g p)))] ∧
      (∀ v ∈ V, (v.2 = true → known (v.1.digest.take g.n) = false) ∧ (v.2 = false → s.known (v.1.digest.take g.n) = true)) ∧
      (∀ p ∈ s.sent, s.known ((g.sha p.2).take g.n) = true) ∧ (∀ p ∈ s.sent, p.1.isFile = false → p.2 = g.text) := by
  obtain ⟨s', e, h⟩ := run_inv hg es (dinv_start files known) ho hr
  cases e
  rcases h.rest with he | hl
  · rw [he.gone] at hd; cases hd
  cases hl.phase with
  | due a1 a2 a3 => rw [a3] at hd; cases hd
  | way fs is a1 a2 a3 => rw [a3] at hd; cases hd
  | answer fs u a1 a2 a3 => rw [a3] at hd; cases hd
  | done a1 a2 a3 a4 a5 a6 a7 a8 a9 a10 a11 a12 =>
    obtain ⟨⟨R, A, B, hi⟩, hlog⟩ := h.base
    obtain ⟨V, h1, h2, h3, h4, h5⟩ := quiet_verdicts (asked_len hg) hi ⟨a9, by simp [filt, a8], by simp [filt, a12], a10, a11⟩
    have hsent : s.sent.map (·.1) = (V.filter (·.2)).map (·.1) := by
      rw [h.snt, hl.taken, List.take_length]; exact h3
    have hlen : ∀ p ∈ s.sent, p.1.digest.length = 64 := by
      intro p hp
      have : p.1 ∈ (V.filter (·.2)).map (·.1) := by rw [← hsent]; exact List.mem_map.2 ⟨p, hp, rfl⟩
      obtain ⟨v, hv, e⟩ := List.mem_map.1 this
      rw [← e]
      exact asked_len hg _ (by rw [← h1]; exact List.mem_map.2 ⟨v, (List.mem_filter.1 hv).1, rfl⟩)
    refine ⟨V, h1, hsent, hl.stored, ?_, ?_, ?_, fun p hp => (h.cont p hp).2⟩
    · rw [a7, metaOf, hl.changed, record_text hg hlen]
    · intro v hv
      exact hlog.2 (v.1.digest.take g.n, v.2) (by rw [h2]; exact List.mem_map.2 ⟨v, hv, rfl⟩)
    · intro p hp
      exact h.kn p.2 (by rw [hl.stored]; exact List.mem_map.2 ⟨p, hp, rfl⟩)

/-- C62, what this means for the archive: when the job is done, every file that mtree listed is in the archive, under the ID that its digest gives, or the metadata
names it as changed and the ID under which the other contents are in the archive. -/
theorem C62_kept_partial {g : Cfg} {files : List Item} (hg : CfgOk g files) {known : Bytes → Bool} {es : List StowData.Ev} {s : StowData.Sys}
    (ho : RunOk g (StowData.start g files [] known) es) (hr : StowData.run g (StowData.start g files [] known) es = some (.ok s)) (hd : s.gone = true) :
    ∃ ch, s.metas = [((g.sha g.text).take g.n, record g ch)] ∧ s.known ((g.sha g.text).take g.n) = true ∧
      ∀ x ∈ files, s.known (x.digest.take g.n) = true ∨ ∃ c, (x, c) ∈ ch ∧ s.known ((g.sha c).take g.n) = true := by
  obtain ⟨V, h1, h2, h3, h4, h5, h6, h7⟩ := C62_done_partial hg ho hr hd
  have key : ∀ x ∈ asked files (g.sha g.text), s.known (x.digest.take g.n) = true ∨
      ∃ c, (x, c) ∈ s.sent.filter (fun p => Changed g p) ∧ s.known ((g.sha c).take g.n) = true := by
    intro x hx
    rw [← h1] at hx
    obtain ⟨v, hv, rfl⟩ := List.mem_map.1 hx
    cases hv2 : v.2 with
    | false => exact .inl ((h5 v hv).2 hv2)
    | true =>
      have : v.1 ∈ s.sent.map (·.1) := by rw [h2]; exact List.mem_map.2 ⟨v, List.mem_filter.2 ⟨hv, hv2⟩, rfl⟩
      obtain ⟨p, hp, e⟩ := List.mem_map.1 this
      by_cases hc : Changed g p
      · exact .inr ⟨p.2, List.mem_filter.2 ⟨by rw [← e]; exact hp, by rw [← e]; simpa using hc⟩, h6 p hp⟩
      · left
        have hc' : (g.sha p.2).take g.n = p.1.digest.take g.n := by
          unfold Changed at hc
          exact Decidable.not_not.1 hc
        rw [← e, ← hc']
        exact h6 p hp
  refine ⟨_, h4, ?_, fun x hx => key x (List.mem_append_left _ hx)⟩
  rcases key ⟨false, [], g.sha g.text⟩ (by simp [asked]) with h | ⟨c, hc, hk⟩
  · exact h
  · have hm := (List.mem_filter.1 hc).1
    rw [show c = g.text from h7 _ hm rfl] at hk
    exact hk

end Verif.Props
