/-
Property C62: the job comes to its end.
-/
import Verif.Proofs.StowDataWork
import Verif.Props.StowDataExample

namespace Verif.Props
open Verif Stow StowData

theorem live_run {g : Cfg} {files : List Item} (hg : CfgOk g files) {k0 : Bytes → Bool} : ∀ (es : List StowData.Ev) {s s' : StowData.Sys}, DInv g files k0 s → LInv g s →
    RunOk g s es → (∀ e ∈ es, StowData.Ready e) → StowData.run g s es = some (.ok s') → DInv g files k0 s' ∧ LInv g s'
  | [], s, s', h, hl, _, _, hr => by cases hr; exact ⟨h, hl⟩
  | e :: es, s, s', h, hl, ho, hy, hr => by
    rw [StowData.run] at hr
    cases hs : StowData.step g s e with
    | none => rw [hs] at hr; cases hr
    | some r1 =>
      obtain ⟨s1, rfl, h1⟩ := step_inv hg h ho.1 hs
      rw [hs] at hr
      obtain ⟨o1, o2⟩ := ho.2 s1 hs
      exact live_run hg es (h1 o1) (step_live hg h hl ho.1 (hy e (by simp)) hs o1) o2 (fun x hx => hy x (by simp [hx])) hr

theorem linv_start (g : Cfg) (files : List Item) (known : Bytes → Bool) : LInv g (StowData.start g files [] known) := by
  refine ⟨fun _ => rfl, fun _ _ => ⟨.inr rfl, rfl⟩, fun _ k => absurd rfl k, ?_⟩
  intro _ k
  first
    | exact absurd k (by decide)
    | (intro _; simp [StowData.start] at *)

/-- C62: if the connection can be written to whenever the client looks, then, as long as the job is not done, something can be done for it. -/
theorem C62_live_partial {g : Cfg} {files : List Item} (hg : CfgOk g files) {known : Bytes → Bool} {es : List StowData.Ev} {s : StowData.Sys}
    (ho : RunOk g (StowData.start g files [] known) es) (hy : ∀ e ∈ es, StowData.Ready e)
    (hr : StowData.run g (StowData.start g files [] known) es = some (.ok s)) (hd : s.gone = false) :
    ∃ e s', ¬Idle s e ∧ StowData.Ready e ∧ EvOk s e ∧ StowData.step g s e = some (.ok s') := by
  obtain ⟨h, hl⟩ := live_run hg es (dinv_start files known) (linv_start g files known) ho hy hr
  exact live_step hg h hl hd

/-- How many steps of a run do something for the job. -/
def useful (g : Cfg) (s : StowData.Sys) : List StowData.Ev → Nat
  | [] => 0
  | e :: es =>
    (if Idle s e then 0 else 1) +
    match StowData.step g s e with
    | some (.ok s') => useful g s' es
    | _ => 0

theorem useful_le (z : Size) {g : Cfg} {files : List Item} (hg : CfgOk g files) {k0 : Bytes → Bool} (ht : g.text.length ≤ z.l)
    (hz : 800 * (files.length + 2) + 16 ≤ z.m) : ∀ (es : List StowData.Ev) {s s' : StowData.Sys}, DInv g files k0 s → RunOk g s es →
    (∀ e ∈ es, Fits z.l e) → StowData.run g s es = some (.ok s') → useful g s es + W z s' ≤ W z s
  | [], s, s', h, _, _, hr => by cases hr; simp [useful]
  | e :: es, s, s', h, ho, hf, hr => by
    rw [StowData.run] at hr
    rw [useful]
    cases hs : StowData.step g s e with
    | none => rw [hs] at hr; cases hr
    | some r1 =>
      obtain ⟨s1, rfl, h1⟩ := step_inv hg h ho.1 hs
      rw [hs] at hr
      obtain ⟨o1, o2⟩ := ho.2 s1 hs
      have h2 := useful_le z hg ht hz es (h1 o1) o2 (fun x hx => hf x (by simp [hx])) hr
      obtain ⟨w1, w2⟩ := step_work z hg h ht hz ho.1 (hf e (by simp)) hs
      simp only
      split
      · omega
      · rename_i hi
        have := w2 hi
        omega

/-- C62: there is a bound for the number of steps in which something is done for the job, by the number of the files and the length of the longest. -/
theorem C62_bounded_partial {g : Cfg} {files : List Item} (hg : CfgOk g files) {known : Bytes → Bool} {es : List StowData.Ev} {s : StowData.Sys} {l : Nat}
    (ho : RunOk g (StowData.start g files [] known) es) (hr : StowData.run g (StowData.start g files [] known) es = some (.ok s))
    (ht : g.text.length ≤ l) (hf : ∀ e ∈ es, Fits l e) :
    useful g (StowData.start g files [] known) es ≤ (2 * l + 1600 * (files.length + 2) + 40) * (7 * (files.length + 2)) + 2 * (files.length + 2) := by
  have h := useful_le ⟨800 * (files.length + 2) + 16, l⟩ hg ht (Nat.le_refl _) es (dinv_start files known) ho hf hr
  have h2 : W ⟨800 * (files.length + 2) + 16, l⟩ (StowData.start g files [] known) =
      (2 * l + 1600 * (files.length + 2) + 40) * (7 * (files.length + 2)) + 2 * (files.length + 2) := by
    simp only [W, StowData.start, filt, work, Size.k, fMsgs_nil, jobWork_none, sendW, upW, downW, optW, List.length_append, List.length_cons, List.length_nil, Bool.false_eq_true, if_false]
    have : 2 * l + 2 * (800 * (files.length + 2) + 16) + 8 = 2 * l + 1600 * (files.length + 2) + 40 := by omega
    rw [this]
    simp
  omega

namespace StowExample

set_option maxRecDepth 1000000 in
/-- C62, the run of the example: every step does something for the job. -/
example : useful cfg (StowData.start cfg [fileA, fileB, fileC] [] knownB) evs = evs.length := by decide +kernel

end StowExample

end Verif.Props
