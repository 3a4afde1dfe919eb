/-
Stores that are cut off: where repeating the store works, and where the object can not be stored any more.
-/
import Verif.Props.Crash
import Verif.Props.StoreExample

namespace Verif.Props
open Verif Header Gzip Ident Index Wsilo Segjob Getjob Spec Inflate Crash

/-- Store "hello", cut the store of other chunks off at some point, store these again, and get both objects. -/
def cutStoreGet (max : Nat) (cs : List Bytes) (k : Nat) (a : At) : Res (Bytes × Bytes) := do
  let env := Example.env max
  let r1 ← storeObj env Example.stored 10 emptyWorld Example.hdr none [b!"hello"]
  let w ← storeCut env Example.stored 10 r1.1 Example.hdr none cs k a
  let r2 ← storeObj env Example.stored 10 w Example.hdr none cs
  let g1 ← getjobNew env.ps env.pfx env.idSize 10 r2.1 r1.2
  let g2 ← getjobNew env.ps env.pfx env.idSize 10 r2.1 r2.2
  match g1, g2 with
  | .job a, .job b => do
    let x ← getjobIterate env.ps (fun b => [b]) a collect [] false
    let y ← getjobIterate env.ps (fun b => [b]) b collect [] false
    return (x, y)
  | _, _ => .fail

set_option maxRecDepth 1000000 in
/-- A store that is cut off while it appends to a silo, in the middle of the record. -/
example : cutStoreGet 5000 [b!"goodbye"] 0 (.writing 0 100) = .ok (b!"hello", b!"goodbye") := by decide +kernel

set_option maxRecDepth 1000000 in
/-- A store that is cut off before a hold file is removed. -/
example : cutStoreGet 5000 [b!"goodbye"] 0 (.appended 0) = .ok (b!"hello", b!"goodbye") := by decide +kernel

set_option maxRecDepth 1000000 in
example : cutStoreGet 5000 [b!"goodbye"] 0 .linked = .ok (b!"hello", b!"goodbye") := by decide +kernel

/-- Store "hello", cut the store of "goodbye" off between writing the index entry and linking the silo.  The first object can
be got; getting and storing the second one fails. -/
def cutAtEntry : Res (Bytes × Bool × Bool) := do
  let env := Example.env 5000
  let r1 ← storeObj env Example.stored 10 emptyWorld Example.hdr none [b!"hello"]
  let r2 ← storeObj env Example.stored 10 emptyWorld Example.hdr none [b!"goodbye"]
  let w ← storeCut env Example.stored 10 r1.1 Example.hdr none [b!"goodbye"] 0 .entry
  let g1 ← getjobNew env.ps env.pfx env.idSize 10 w r1.2
  match g1 with
  | .job a => do
    let x ← getjobIterate env.ps (fun b => [b]) a collect [] false
    return (x, (match getjobNew env.ps env.pfx env.idSize 10 w r2.2 with
        | .fail => true
        | _ => false),
      (match storeObj env Example.stored 10 w Example.hdr none [b!"goodbye"] with
        | .fail => true
        | _ => false))
  | _ => .fail

set_option maxRecDepth 1000000 in
theorem cutAtEntry_eq : cutAtEntry = .ok (b!"hello", true, true) := by decide +kernel

/-- C73: a store that is killed between writing the index entry and linking the silo makes its object impossible to store: when
the command is repeated it finds the index entry, and an assertion fails because the silo is not there. -/
theorem C73_counterexample_dangling : ∃ w1 w2 uri, storeObj (Example.env 5000) Example.stored 10 emptyWorld Example.hdr none [b!"hello"] = .ok (w1, uri) ∧
    storeCut (Example.env 5000) Example.stored 10 w1 Example.hdr none [b!"goodbye"] 0 .entry = .ok w2 ∧
    storeObj (Example.env 5000) Example.stored 10 w2 Example.hdr none [b!"goodbye"] = .fail := by
  have h := cutAtEntry_eq
  unfold cutAtEntry at h
  rw [Res.bind_eq_ok] at h
  obtain ⟨⟨w1, uri⟩, h1, h⟩ := h
  rw [Res.bind_eq_ok] at h
  obtain ⟨r2, -, h⟩ := h
  rw [Res.bind_eq_ok] at h
  obtain ⟨w2, h2, h⟩ := h
  rw [Res.bind_eq_ok] at h
  obtain ⟨g, -, h⟩ := h
  refine ⟨w1, w2, uri, h1, h2, ?_⟩
  split at h
  · simp only [Res.bind_eq_ok, Res.pure_eq, Res.ok.injEq, Prod.mk.injEq] at h
    obtain ⟨x, -, -, -, h⟩ := h
    split at h
    · assumption
    · cases h
  · cases h

end Verif.Props
