/-
Property C81: archives in which stores were killed, where reindexing repairs the index, and one where it aborts.
-/
import Verif.Props.Recover
import Verif.Props.CrashExample
import Verif.Props.ReindexAgain

namespace Verif.Props
open Verif Header Gzip Ident Index Wsilo Segjob Getjob Spec Inflate Crash
open _root_.Verif.Reindex (reindexMain)

/-- An object of three segments. -/
def longObject : List Bytes := [b!"hello and welcome", b!" world, hello and goodbye, and so on and so forth"]

/-- The silos that there are among the first ten. -/
def sitesOf (w : World) : List Nat := (List.range 10).filter fun n => (w.silos n).isSome

/-- Kill a store of `cs1`, store `cs2`, throw the index away, reindex, and get the object: what it is, and the number of segments that
are left over. -/
def killReindexGet (max : Nat) (cs1 : List Bytes) (k : Nat) (a : At) (cs2 : List Bytes) : Res (Bytes × Nat) := do
  let env := Example.env max
  let w ← storeCut env Example.stored 10 emptyWorld Example.hdr none cs1 k a
  let r ← storeObj env Example.stored 10 w Example.hdr none cs2
  let x ← reindexMain env.ps env.pfx env.idSize 32 2000 r.1.silos (sitesOf r.1) {}
  let g ← getjobNew env.ps env.pfx env.idSize 10 { r.1 with dir := x.1 } r.2
  match g with
  | .job j => do
    let y ← getjobIterate env.ps (fun b => [b]) j collect [] false
    return (y, x.2.length)
  | _ => .fail

set_option maxRecDepth 1000000 in
/-- The store of an object of three segments is killed when the first or when the second one is in a silo.  Another object is
stored, and reindexing leaves one segment over: in the second case the second one, with which the first one has got its entry. -/
example : killReindexGet 1120 longObject 0 .linked [b!"tiny"] = .ok (b!"tiny", 1) ∧
    killReindexGet 1120 longObject 1 .linked [b!"tiny"] = .ok (b!"tiny", 1) := by decide +kernel

set_option maxRecDepth 1000000 in
/-- The same object is stored again after only its first segment was in a silo: this segment gets the entry in the second pass. -/
example : killReindexGet 1120 longObject 0 .linked longObject = .ok (longObject.flatten, 0) := by decide +kernel

/-- Kill the store of "goodbye" between the index entry and the silo, so that storing it fails from then on (C73); reindex, and store it. -/
def killReindexStore : Res (Bool × Bool) := do
  let env := Example.env 5000
  let r1 ← storeObj env Example.stored 10 emptyWorld Example.hdr none [b!"hello"]
  let w ← storeCut env Example.stored 10 r1.1 Example.hdr none [b!"goodbye"] 0 .entry
  let x ← reindexMain env.ps env.pfx env.idSize 32 2000 w.silos (sitesOf w) {}
  let r2 ← storeObj env Example.stored 10 { w with dir := x.1 } Example.hdr none [b!"goodbye"]
  let g ← getjobNew env.ps env.pfx env.idSize 10 r2.1 r2.2
  match g with
  | .job j => do
    let y ← getjobIterate env.ps (fun b => [b]) j collect [] false
    return (failed (storeObj env Example.stored 10 w Example.hdr none [b!"goodbye"]), y = b!"goodbye")
  | _ => .fail

set_option maxRecDepth 1000000 in
example : killReindexStore = .ok (true, true) := by decide +kernel

/-- Kill the store when the second segment is in a silo, and store the same object again. -/
def killRetry : Res (Bool × List Nat) := do
  let env := Example.env 1120
  let w ← storeCut env Example.stored 10 emptyWorld Example.hdr none longObject 1 .linked
  let r ← storeObj env Example.stored 10 w Example.hdr none longObject
  return (failed (reindexMain env.ps env.pfx env.idSize 32 2000 r.1.silos [0, 1, 3, 4, 5] {}), (List.range 7).filter fun n => (r.1.silos n).isSome)

set_option maxRecDepth 1000000 in
theorem killRetry_eq : killRetry = .ok (true, [0, 1, 3, 4, 5]) := by decide +kernel

/-- Without the condition of C81 reindexing may abort: the store of an object of three segments is killed when the second segment is in
a silo, and then repeated.  The second segment of the first attempt is still at the head of the list, already used, when the first
one of the second attempt is found, and an assertion fails. -/
theorem C81_counterexample_retry : ∃ w0 w1 w2 uri, w0.dir = {} ∧ (∀ n, w0.silos n = none) ∧
    storeCut (Example.env 1120) Example.stored 10 w0 Example.hdr none longObject 1 .linked = .ok w1 ∧
    storeObj (Example.env 1120) Example.stored 10 w1 Example.hdr none longObject = .ok (w2, uri) ∧ Killed (Example.env 1120) Example.stored w0 w2 ∧
    (∀ n < 7, n ∈ [0, 1, 3, 4, 5] ↔ w2.silos n ≠ none) ∧
    reindexMain (Example.env 1120).ps (Example.env 1120).pfx (Example.env 1120).idSize 32 2000 w2.silos [0, 1, 3, 4, 5] {} = .fail := by
  have h := killRetry_eq
  unfold killRetry at h
  simp only [Res.bind_eq_ok, Res.pure_eq, Res.ok.injEq, Prod.mk.injEq] at h
  obtain ⟨w1, e1, ⟨w2, uri⟩, e2, e3, e4⟩ := h
  have hin : GoodInput (Example.env 1120) longObject := ⟨by decide, by simp [longObject], by simp [longObject, Example.env]⟩
  have hty : UserType Example.hdr := by unfold UserType; decide
  have hu : Untorn (Example.env 1120) .linked := trivial
  refine ⟨emptyWorld, w1, w2, uri, rfl, fun _ => rfl, e1, e2,
    .store (.cut (.refl _) (example_goodJob 1120) hty hin hu e1) (example_goodJob 1120) hty hin e2, ?_, ?_⟩
  · intro n hn
    rw [← e4, List.mem_filter, List.mem_range]
    cases w2.silos n <;> simp [hn]
  · revert e3
    generalize reindexMain _ _ _ _ _ _ _ _ = z
    intro e3
    cases z with
    | fail => rfl
    | ok _ => cases e3
    | ub => cases e3

end Verif.Props
