/-
Property C72: a stow job whose jobs are the programs `filter` and `store`.
-/
import Verif.Proofs.StowArchSim

namespace Verif.Props
open Verif Header Ident Index Wsilo Segjob Getjob Spec StowArch Filter
open _root_.Verif.StowData (Cfg Sys Ev CfgOk EvOk DInv RunOk run_inv step_inv dinv_start)

/-- Jobs that write to the archive. -/
def writes : JEv → Bool
  | .stored _ _ | .metaStored _ _ => true
  | _ => false

theorem sim_start {σ : Type} {x : Ctx σ} {g : Cfg} {files : List Stow.Item} (hs : Setting x g files) {w0 w : World} (hw0 : w0.dir = {})
    (h0 : Session x.env x.D x.conf w0 w) {es : List JEv} {p : JSys} (ho : JRunOk x g (jstart g files w) es) (hr : jrun x g (jstart g files w) es = some (.ok p)) :
    Session x.env x.D x.conf w p.w ∧ ∃ ops A, ArchInv x.env p.w ops A ∧ (A.length < 2 ^ 31 →
        ∃ fs, RunOk g (StowData.start g files [] (knownOf w)) fs ∧ StowData.run g (StowData.start g files [] (knownOf w)) fs = some (.ok p.s) ∧
          p.s.known = knownOf p.w ∧ (∀ c ∈ p.s.stored, Present A (g.ident c)) ∧ (∀ m ∈ p.s.metas, Present A (g.mid m.1 m.2))) := by
  have hinv0 : ArchInv x.env w0 [] [] := ⟨by rw [hw0]; rfl, fun o ho => (by cases ho), rfl, fun x hx => (by cases hx), fun x hx => (by cases hx)⟩
  obtain ⟨is, X, ha, -⟩ := later_inv hs.zlib hs.env (stores_later (C59_history hs.env hs.conf h0)) hinv0
  obtain ⟨h1, is2, X2, h2, h3⟩ := jrun_sim hs es (p := jstart g files w) ha ho hr
  refine ⟨h1, _, _, h2, ?_⟩
  intro hf
  obtain ⟨fs, k1, k2, k3, k4, k5⟩ := h3 hf _ (dinv_start files (knownOf w)) rfl
  refine ⟨fs, k1, k2, k3, fun c hc => ?_, fun m hm => ?_⟩
  · rcases k4 c hc with h | h
    · cases h
    · exact h
  · rcases k5 m hm with h | h
    · cases h
    · exact h

/-- C72: every run of stow with the programs `filter` and `store` as its jobs, on an archive that others may use at the same time, is a run of the machine of C62,
in which what the server's filter knows is what the index of the archive has. -/
theorem C72_refines {σ : Type} {x : Ctx σ} {g : Cfg} {files : List Stow.Item} (hs : Setting x g files) {w0 w : World} (hw0 : w0.dir = {})
    (h0 : Session x.env x.D x.conf w0 w) {es : List JEv} {p : JSys} (ho : JRunOk x g (jstart g files w) es) (hr : jrun x g (jstart g files w) es = some (.ok p)) :
    Session x.env x.D x.conf w p.w ∧ ∃ ops A, ArchInv x.env p.w ops A ∧ (A.length < 2 ^ 31 →
        (∀ id, p.s.known id = true ↔ ∃ y ∈ A, y.entry.key = id.take 24) ∧
        ∃ fs, RunOk g (StowData.start g files [] (knownOf w)) fs ∧ StowData.run g (StowData.start g files [] (knownOf w)) fs = some (.ok p.s)) := by
  obtain ⟨h1, ops, A, h2, h3⟩ := sim_start hs hw0 h0 ho hr
  refine ⟨h1, ops, A, h2, fun hf => ?_⟩
  obtain ⟨fs, k1, k2, k3, -⟩ := h3 hf
  exact ⟨fun id => by rw [k3]; exact knownOf_iff h2 hf id, fs, k1, k2⟩

/-- C72: no step of such a run fails, unless a store job does. -/
theorem C72_safe_partial {σ : Type} {x : Ctx σ} {g : Cfg} {files : List Stow.Item} (hs : Setting x g files) {w0 w : World} (hw0 : w0.dir = {})
    (h0 : Session x.env x.D x.conf w0 w) {es : List JEv} {p : JSys} (ho : JRunOk x g (jstart g files w) es) (hr : jrun x g (jstart g files w) es = some (.ok p)) :
    ∃ ops A, ArchInv x.env p.w ops A ∧ (A.length < 2 ^ 31 → ∀ e r, writes e = false → JOk x g p e → jstep x g p e = some r → ∃ p', r = .ok p') := by
  obtain ⟨-, ops, A, h2, h3⟩ := sim_start hs hw0 h0 ho hr
  refine ⟨ops, A, h2, fun hf e r he hj hst => ?_⟩
  obtain ⟨fs, k1, k2, k3, -⟩ := h3 hf
  obtain ⟨s, e1, hd⟩ := run_inv hs.cfg fs (dinv_start files (knownOf w)) k1 k2
  cases e1
  cases e with
  | stored => cases he
  | metaStored => cases he
  | other w' => exact ⟨_, (Option.some.inj hst).symm⟩
  | plain e =>
    simp only [jstep] at hst
    split at hst
    · obtain ⟨q, g1, g2⟩ := Option.map_eq_some_iff.1 hst
      obtain ⟨s', rfl, -⟩ := step_inv hs.cfg hd hj g1
      exact ⟨_, g2.symm⟩
    · cases hst
  | run =>
    simp only [jstep] at hst
    split at hst
    · rename_i inp skip hjob
      have hin := job_lines hs hd hjob
      rw [hs.n] at hin
      rw [filterJob_ok hs.env hs.qsort hs.buf h2 hf hin] at hst
      exact ⟨_, (Option.some.inj hst).symm⟩
    · cases hst

/-- C72: when the job is done, the metadata is there for `get`, and it names the files that had changed.  For each file that mtree listed, the index
has a record whose ID begins like its digest; or contents are there for `get` which have that ID, or which the metadata gives for the file. -/
theorem C72_kept_partial {σ : Type} {x : Ctx σ} {g : Cfg} {files : List Stow.Item} (hs : Setting x g files) {w0 w : World} (hw0 : w0.dir = {})
    (h0 : Session x.env x.D x.conf w0 w) {es : List JEv} {p : JSys} (ho : JRunOk x g (jstart g files w) es) (hr : jrun x g (jstart g files w) es = some (.ok p))
    (hd : p.s.gone = true) :
    ∃ ops A, ArchInv x.env p.w ops A ∧ (A.length < 2 ^ 31 →
      ∃ ch, p.s.metas = [((x.env.sha g.text).take x.env.idSize, record g ch)] ∧ Present A (metaId x.env ((x.env.sha g.text).take x.env.idSize) (record g ch)) ∧
        ((∃ y ∈ A, y.entry.key = (x.env.sha g.text).take 24) ∨ Present A ((x.env.sha g.text).take x.env.idSize)) ∧
        ∀ f ∈ files, (∃ y ∈ A, y.entry.key = f.digest.take 24) ∨
          ∃ c, Present A ((x.env.sha c).take x.env.idSize) ∧ ((x.env.sha c).take x.env.idSize = f.digest.take x.env.idSize ∨ (f, c) ∈ ch)) := by
  obtain ⟨-, ops, A, h2, h3⟩ := sim_start hs hw0 h0 ho hr
  refine ⟨ops, A, h2, fun hf => ?_⟩
  obtain ⟨fs, k1, k2, k3, k4, k5⟩ := h3 hf
  obtain ⟨V, v1, v2, v3, v4, v5, v6, v7⟩ := C62_done_partial hs.cfg k1 k2 hd
  have hid : ∀ c, g.ident c = (x.env.sha c).take x.env.idSize := fun c => by unfold StowData.Cfg.ident; rw [hs.sha, hs.n]
  have key : ∀ f ∈ asked files (g.sha g.text), (∃ y ∈ A, y.entry.key = f.digest.take 24) ∨
      ∃ c, Present A ((x.env.sha c).take x.env.idSize) ∧ (f, c) ∈ p.s.sent := by
    intro f hfm
    rw [← v1] at hfm
    obtain ⟨v, hv, rfl⟩ := List.mem_map.1 hfm
    cases hv2 : v.2 with
    | false =>
      have := (v5 v hv).2 hv2
      rw [k3, knownOf_iff h2 hf, List.take_take, hs.n, Nat.min_eq_left hs.long] at this
      exact .inl this
    | true =>
      right
      have : v.1 ∈ p.s.sent.map (·.1) := by rw [v2]; exact List.mem_map.2 ⟨v, List.mem_filter.2 ⟨hv, hv2⟩, rfl⟩
      obtain ⟨q, hq, e⟩ := List.mem_map.1 this
      refine ⟨q.2, ?_, by rw [← e]; exact hq⟩
      rw [← hid]
      exact k4 _ (by rw [v3]; exact List.mem_map.2 ⟨q, hq, rfl⟩)
  refine ⟨_, by rw [v4, hs.sha, hs.n], ?_, ?_, ?_⟩
  · have := k5 _ (by rw [v4]; exact List.mem_singleton.2 rfl)
    rw [hs.mid] at this
    simp only [hs.sha, hs.n] at this
    exact this
  · rcases key ⟨false, [], g.sha g.text⟩ (by simp [asked]) with h | ⟨c, h1, h2⟩
    · left; rw [hs.sha] at h; exact h
    · right
      rw [show c = g.text from v7 _ h2 rfl] at h1
      exact h1
  · intro f hfm
    rcases key f (List.mem_append_left _ hfm) with h | ⟨c, h1, h2⟩
    · exact .inl h
    · refine .inr ⟨c, h1, ?_⟩
      by_cases hc : Changed g (f, c)
      · exact .inr (List.mem_filter.2 ⟨h2, by simpa using hc⟩)
      · left
        unfold Changed at hc
        rw [← hs.n, ← hs.sha]
        exact Decidable.not_not.1 hc

end Verif.Props
