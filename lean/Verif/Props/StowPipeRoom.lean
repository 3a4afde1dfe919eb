/-
Property C71, the part that holds: with enough room for the responses, the server does not wait.
-/
import Verif.Props.StowPipe
import Verif.Props.StowDataLive

namespace Verif.Props
open Verif Stow StowData StowPipe StowExample

/-- The step of Model/StowData.lean that this is. -/
def plain : PEv → StowData.Ev
  | .out c => .round bufLen c true false
  | .inn => .round bufLen [0] false true
  | .other e => e

/-- The result without what belongs to the pipes. -/
def plainRes : Res PSys → Res StowData.Sys
  | .ok p => .ok p.s
  | .fail => .fail
  | .ub => .ub

theorem lift_plain {mid : Bool} {o : Option (Res StowData.Sys)} {r : Res PSys} (h : lift mid o = some r) : o = some (plainRes r) := by
  cases o with
  | none => cases h
  | some x => cases x <;> cases h <;> rfl

theorem step_plain {g : Cfg} {q : Pipes} {p : PSys} {e : PEv} {r : Res PSys} (h : StowPipe.step g q p e = some r) : StowData.step g p.s (plain e) = some (plainRes r) := by
  cases e with
  | out c =>
    rw [StowPipe.step] at h
    split at h
    · exact lift_plain h
    · cases h
  | inn =>
    rw [StowPipe.step] at h
    split at h
    · exact lift_plain h
    · cases h
  | other e =>
    cases e with
    | round _ _ _ _ => cases h
    | run => exact lift_plain h
    | other _ => exact lift_plain h
    | _ =>
      simp only [StowPipe.step] at h
      split at h
      · exact lift_plain h
      · cases h

/-- C71: every run over pipes is a run of the machine without: what C62 says of its states holds here too. -/
theorem C71_refines {g : Cfg} {q : Pipes} : ∀ (es : List PEv) {p : PSys} {r : Res PSys}, StowPipe.run g q p es = some r →
    StowData.run g p.s (es.map plain) = some (plainRes r)
  | [], p, r, h => by cases h; rfl
  | e :: es, p, r, h => by
    rw [StowPipe.run] at h
    rw [List.map_cons, StowData.run]
    cases hs : StowPipe.step g q p e with
    | none => rw [hs] at h; cases h
    | some r1 =>
      rw [hs] at h
      rw [step_plain hs]
      cases r1 with
      | ok p1 => exact C71_refines es h
      | fail => cases h; rfl
      | ub => cases h; rfl

theorem wireLen_le (p : Bytes) : wireLen p ≤ 5 + p.length := by
  unfold wireLen
  repeat' split
  all_goals omega

theorem wireLen_short {p : Bytes} (h : p.length ≤ 64) : wireLen p ≤ 66 := by
  unfold wireLen
  repeat' split
  all_goals omega

theorem load_le : ∀ l : List Msg, (∀ p ∈ fMsgs l, p.length ≤ 64) → (∀ p ∈ dMsgs l, p.length ≤ 1024) → (∀ p ∈ iMsgs l, p.length ≤ 1024) →
    load l ≤ 66 * (fMsgs l).length + 1029 * (dMsgs l).length + 1029 * (iMsgs l).length
  | [], _, _, _ => by simp [load]
  | .filter p :: l, hf, hd, hi => by
    have h1 := load_le l (fun x hx => hf x (by simp [hx])) hd hi
    have h2 := wireLen_short (hf p (by simp))
    simp only [load, payload, fMsgs_f, dMsgs_f, iMsgs_f, List.length_cons]
    omega
  | .data p :: l, hf, hd, hi => by
    have h1 := load_le l hf (fun x hx => hd x (by simp [hx])) hi
    have h2 := wireLen_le p
    have h3 := hd p (by simp)
    simp only [load, payload, fMsgs_d, dMsgs_d, iMsgs_d, List.length_cons]
    omega
  | .info p :: l, hf, hd, hi => by
    have h1 := load_le l hf hd (fun x hx => hi x (by simp [hx]))
    have h2 := wireLen_le p
    have h3 := hi p (by simp)
    simp only [load, payload, fMsgs_i, dMsgs_i, iMsgs_i, List.length_cons]
    omega

theorem explains_len {n : Nat} (hn : n ≤ 64) {A : List (Item × Bool)} {ms : List Bytes} (h : Explains n A ms) : ∀ p ∈ ms, p.length ≤ 64 := by
  induction h with
  | nil => intro p hp; cases hp
  | line ps x A ms hp hx h ih =>
    intro p hp
    rcases List.mem_cons.1 hp with rfl | hp
    · rw [List.length_take]; omega
    · exact ih p hp
  | skip ps A ms hp hl h ih =>
    intro p hp
    rcases List.mem_cons.1 hp with rfl | hp
    · simp [beEnc]
    · exact ih p hp
  | fin A h e he =>
    intro p hp
    rw [List.mem_singleton.1 hp]
    decide

/-- What the server has written and the client not read, as long as there are at most `w` filter responses. -/
theorem down_load {g : Cfg} {files : List Item} (hg : CfgOk g files) {k0 : Bytes → Bool} {s : StowData.Sys} (h : DInv g files k0 s) {w : Nat}
    (hw : (fMsgs s.down).length ≤ w) : load s.down ≤ 66 * w + 1029 * (files.length + 2) := by
  obtain ⟨⟨R, A, B, hi⟩, -⟩ := h.base
  have hf : ∀ p ∈ fMsgs s.down, p.length ≤ 64 := fun p hp => explains_len hg.n2 hi.expl p (List.mem_append_left _ hp)
  have hget : s.cl.get.length ≤ files.length + 2 := by
    have h1 : s.cl.get = _ := hi.get
    have h2 := congrArg List.length (show items g files = _ from hi.all)
    simp only [items, List.length_append, List.length_map, List.length_cons, List.length_nil] at h2
    rw [h1, List.length_map]
    have := List.length_filter_le (fun a : Item × Bool => a.2) R
    omega
  have hp := hg.len
  rcases h.rest with he | hl
  · obtain ⟨D, r1, r2, r3, f1, f2, f3, f4, f5, f6, f7, f8⟩ := he.flow
    have hd : ∀ p ∈ dMsgs s.down, p.length ≤ 1024 := by
      rw [f3]
      intro p hp
      obtain ⟨x, -, rfl⟩ := List.mem_map.1 hp
      have : (g.ident x.2).length ≤ 64 := by
        unfold Cfg.ident
        rw [List.length_take, (hg.sha x.2).1]
        omega
      rw [List.length_append]
      omega
    have hdl : (dMsgs s.down).length ≤ files.length + 2 := by
      rw [f3, List.length_map]
      have h1 := congrArg List.length h.snt
      rw [List.length_map, f1, List.length_take] at h1
      simp only [List.length_append] at h1
      omega
    have h1 := load_le s.down hf hd (by rw [he.idown]; intro p hp; cases hp)
    rw [he.idown, List.length_nil] at h1
    omega
  · have hi : (∀ p ∈ iMsgs s.down, p.length ≤ 1024) ∧ (iMsgs s.down).length ≤ 1 := by
      cases hl.phase with
      | due a1 a2 a3 a4 a5 a6 a7 a8 => rw [a8]; exact ⟨fun p hp => (by cases hp), by simp⟩
      | way fs is a1 a2 a3 a4 a5 => rw [a5]; exact ⟨fun p hp => (by cases hp), by simp⟩
      | answer fs u a1 a2 a3 a4 a5 a6 a7 a8 a9 a10 a11 a12 =>
        rw [a11]
        simp only [iMsgs_append, iMsgs_filter, iMsgs_i, iMsgs_nil, List.nil_append]
        refine ⟨fun p hp => ?_, by simp⟩
        rw [List.mem_singleton.1 hp]
        omega
      | done a1 a2 a3 a4 a5 a6 a7 a8 a9 a10 a11 a12 => rw [a12]; exact ⟨fun p hp => (by cases hp), by simp⟩
    have h1 := load_le s.down hf (by rw [hl.ddown]; intro p hp; cases hp) hi.1
    rw [hl.ddown, List.length_nil] at h1
    have := hi.2
    omega

/-- There is a bound for the lengths of the files in a run. -/
theorem fits_exists : ∀ es : List StowData.Ev, ∃ l, ∀ l', l ≤ l' → ∀ e ∈ es, Fits l' e
  | [] => ⟨0, fun _ _ e he => by cases he⟩
  | e :: es => by
    obtain ⟨l, hl⟩ := fits_exists es
    obtain ⟨k, hk⟩ : ∃ k, ∀ l', k ≤ l' → Fits l' e := by
      cases e with
      | round sz c a b => exact ⟨c.length, fun _ h => h⟩
      | _ => exact ⟨0, fun _ _ => trivial⟩
    refine ⟨k + l, fun l' h x hx => ?_⟩
    rcases List.mem_cons.1 hx with rfl | hx
    · exact hk l' (by omega)
    · exact hl l' (by omega) x hx

theorem filter_count {g : Cfg} {files : List Item} (hg : CfgOk g files) {known : Bytes → Bool} {es : List StowData.Ev} {s : StowData.Sys}
    (ho : RunOk g (StowData.start g files [] known) es) (hr : StowData.run g (StowData.start g files [] known) es = some (.ok s)) :
    (fMsgs s.down).length ≤ 7 * (files.length + 2) := by
  obtain ⟨l, hl⟩ := fits_exists es
  have h := useful_le ⟨800 * (files.length + 2) + 16, l + g.text.length⟩ hg (by simp) (Nat.le_refl _) es (dinv_start files known) ho (hl _ (by simp)) hr
  generalize hz : (⟨800 * (files.length + 2) + 16, l + g.text.length⟩ : Size) = z at h
  have h2 : W z (StowData.start g files [] known) = z.k * (7 * (files.length + 2)) + 2 * (files.length + 2) := by
    simp only [W, StowData.start, filt, work, fMsgs_nil, jobWork_none, sendW, upW, downW, optW, List.length_append, List.length_cons, List.length_nil, Bool.false_eq_true, if_false]
    simp
  have h3 : z.k * work (filt s) ≤ W z s := by unfold W; omega
  have h4 : 2 * (files.length + 2) < z.k := by
    rw [← hz]
    simp only [Size.k]
    omega
  have h5 : z.k * work (filt s) < z.k * (7 * (files.length + 2) + 1) := by rw [Nat.mul_add, Nat.mul_one]; omega
  have h6 := Nat.lt_of_mul_lt_mul_left h5
  have h7 : (fMsgs s.down).length ≤ work (filt s) := by unfold work filt; simp only; omega
  omega

/-- C71, in part: if the pipe towards the client has room for 1500 bytes for each file and two more, the server never waits in write(2), and so it does not happen that
client and server wait for each other. -/
theorem C71_room_partial {g : Cfg} {files : List Item} (hg : CfgOk g files) {known : Bytes → Bool} {q : Pipes} {es : List PEv} {r : Res PSys}
    (hq : 1500 * (files.length + 2) ≤ q.down) (ho : RunOk g (StowData.start g files [] known) (es.map plain))
    (hr : StowPipe.run g q ⟨StowData.start g files [] known, false⟩ es = some r) : ∃ p, r = .ok p ∧ ¬serverWaits q p.s := by
  have h1 := C71_refines es hr
  obtain ⟨s, e, h⟩ := run_inv hg _ (dinv_start files known) ho h1
  cases r with
  | fail => cases e
  | ub => cases e
  | ok p =>
    refine ⟨p, rfl, ?_⟩
    cases e
    have h2 := down_load hg h (filter_count hg ho h1)
    show ¬(q.down < load p.s.down)
    omega

/-- C71, in part: then the server can go on whenever the client waits. -/
theorem C71_goes_on_partial {g : Cfg} {files : List Item} (hg : CfgOk g files) {known : Bytes → Bool} {q : Pipes} {es : List PEv} {p : PSys}
    (hq : 1500 * (files.length + 2) ≤ q.down) (ho : RunOk g (StowData.start g files [] known) (es.map plain))
    (hr : StowPipe.run g q ⟨StowData.start g files [] known, false⟩ es = some (.ok p)) (hw : clientWaits q p.s) :
    ∃ e p', (e = .recv ∨ e = .stored) ∧ StowPipe.step g q p (.other e) = some (.ok p') := by
  obtain ⟨p1, e1, hs⟩ := C71_room_partial hg hq ho hr
  cases e1
  obtain ⟨s, e, h⟩ := run_inv hg _ (dinv_start files known) ho (C71_refines es hr)
  cases e
  have hup : p.s.up ≠ [] := by
    intro k
    unfold clientWaits at hw
    rw [k, load] at hw
    omega
  cases hp : p.s.pend with
  | some d =>
    refine ⟨.stored, ?_⟩
    cases hst : StowData.step g p.s .stored with
    | none => simp [StowData.step, hp] at hst
    | some r1 =>
      obtain ⟨s', rfl, -⟩ := step_inv hg h (show EvOk p.s .stored from trivial) hst
      exact ⟨⟨s', p.mid⟩, .inr rfl, by simp only [StowPipe.step, hs, not_false_eq_true, if_true, hst, lift]⟩
  | none =>
    refine ⟨.recv, ?_⟩
    cases hst : StowData.step g p.s .recv with
    | none => simp [StowData.step, hp, hup] at hst
    | some r1 =>
      obtain ⟨s', rfl, -⟩ := step_inv hg h (show EvOk p.s .recv from trivial) hst
      exact ⟨⟨s', p.mid⟩, .inl rfl, by simp only [StowPipe.step, hs, not_false_eq_true, if_true, hst, lift]⟩

namespace PipeExample

/-- A run of the job with the three files, over pipes with room for 4096 and 7500 bytes. -/
def pevs : List PEv := [.other .mtree, .other .mtree, .other .mtree, .other .mtree, .out b!"alpha", .other .recv, .other .recv,
  .other .recv, .other .recv, .other .recv, .other .run, .other .line, .inn, .out b!"alpha",
  .other .eof, .other .run, .other .line, .inn, .out b!"gamma", .out b!"gamma", .other .recv,
  .other .recv, .other .line, .inn, .out b!"gamma", .out b!"gamma", .out b!"alpha",
  .out b!"alpha", .other .eof, .inn, .out b!"alpha", .other .stored, .inn, .out b!"alpha",
  .other .recv, .other .recv, .other .stored, .inn, .out b!"alpha", .other .recv, .other .recv,
  .other .stored, .inn, .out b!"alpha", .other .recv, .other .recv, .other .recv, .other .metaStored,
  .inn]

set_option maxRecDepth 1000000 in
/-- C71: with room enough the job gets to its end. -/
example : (match StowPipe.run cfg ⟨4096, 7500, 512⟩ ⟨StowData.start cfg [fileA, fileB, fileC] [] knownB, false⟩ pevs with
    | some (.ok p) => p.s.gone && (p.s.stored == [b!"alpha", b!"gamma", b!"tree"]) && p.s.metas.length == 1
    | _ => false) = true := by decide +kernel

set_option maxRecDepth 1000000 in
/-- C71: in a pipe with room for 10 bytes towards the client, the server waits after the first response, and cannot write the second. -/
example : (match StowPipe.run cfg ⟨4096, 10, 512⟩ ⟨StowData.start cfg [fileA, fileB, fileC] [] knownB, false⟩ (pevs.take 12) with
    | some (.ok p) => decide (serverWaits ⟨4096, 10, 512⟩ p.s) && decide ((StowPipe.step cfg ⟨4096, 10, 512⟩ p (.other .eof)).isNone) && (StowPipe.step cfg ⟨4096, 10, 512⟩ p .inn).isSome
    | _ => false) = true := by decide +kernel

end PipeExample

end Verif.Props
