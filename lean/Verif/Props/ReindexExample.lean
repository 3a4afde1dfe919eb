/-
Property C40, a concrete archive, and one where reindexing aborts.
-/
import Verif.Props.StoreExample
import Verif.Props.ReindexArch

namespace Verif.Props
open Verif Header Gzip Ident Index Wsilo Segjob Getjob Spec Inflate
open _root_.Verif.Reindex (reindexSilos)

/-- Store objects, reindex the silos `ns`, and compare the two listings: the number of entries, whether both have the same ones, and the
number of segments left over. -/
def storeReindex (max : Nat) (objs : List (List Bytes)) (ns : List Nat) : Res (Nat × Bool × Nat) := do
  let env := Example.env max
  let w ← objs.foldlM (fun w cs => do let r ← storeObj env Example.stored 10 w Example.hdr none cs; return r.1) emptyWorld
  let y ← reindexSilos env.ps env.pfx env.idSize 32 2000 w.silos ns {} []
  let a ← listing w.dir
  let b ← listing y.1
  return (a.1.length, a.1.length = b.1.length ∧ (a.1.all fun e => e ∈ b.1) ∧ (b.1.all fun e => e ∈ a.1), y.2.length)

set_option maxRecDepth 1000000 in
/-- An object in three segments, and a small one behind it; three silos, or the same three in another order. -/
example : storeReindex 1120 [[b!"hello and welcome", b!" world, hello and goodbye, and so on and so forth"], [b!"tiny"]] [0, 1, 2, 3] = .ok (8, true, 0) ∧
    storeReindex 1120 [[b!"hello and welcome", b!" world, hello and goodbye, and so on and so forth"], [b!"tiny"]] [2, 3, 0, 1] = .ok (8, true, 0) := by
  decide +kernel

/-- The object of the counterexample: its second and third segment are equal, so that it cannot be retrieved and is stored each time. -/
def twinObject : List Bytes := [List.replicate 133 97]

/-- Another process holds silo number 2 while the object is stored for the first time. -/
def heldWorld : World := { emptyWorld with holds := fun n => n == 2 }

/-- The two stores, with the hold file removed in between. -/
def twinStores : Res (World × World) := do
  let env := Example.env 1120
  let r1 ← storeObj env Example.stored 10 heldWorld Example.hdr none twinObject
  let w1 := { r1.1 with holds := fun _ => false, cacheFile := none, cache := ⟨0, 0⟩ }
  let r2 ← storeObj env Example.stored 10 w1 Example.hdr none twinObject
  return (r1.1, r2.1)

def failed {α : Type} : Res α → Bool
  | .fail => true
  | _ => false

def twinReindex : Res (Bool × Bool × List Bool) := do
  let env := Example.env 1120
  let r ← twinStores
  let x ← reindexSilos env.ps env.pfx env.idSize 32 2000 r.1.silos [0, 1, 3] {} []
  return (x.2.isEmpty, failed (reindexSilos env.ps env.pfx env.idSize 32 2000 r.2.silos [0, 1, 2, 3, 4, 5] {} []),
    [0, 1, 2, 3, 4, 5, 6].map fun n => (r.2.silos n).isSome)

set_option maxRecDepth 1000000 in
theorem twinReindex_eq : twinReindex = .ok (true, true, [true, true, true, true, true, true, false]) := by decide +kernel

/-- Without the condition of C40 reindexing may abort: a segmented object is stored twice, and the first segment of the second copy is in a silo
before the last one of the first copy.  Reindexing works after the first store and fails an assertion after the second. -/
theorem C40_counterexample_twice : ∃ w0 w1 w2 d, w0.dir = {} ∧ (∀ n, w0.silos n = none) ∧ Stores (Example.env 1120) Example.stored false w0 w1 ∧
    Stores (Example.env 1120) Example.stored false w1 w2 ∧
    reindexSilos (Example.env 1120).ps (Example.env 1120).pfx (Example.env 1120).idSize 32 2000 w1.silos [0, 1, 3] {} [] = .ok (d, []) ∧
    (∀ n ∈ [0, 1, 2, 3, 4, 5], w2.silos n ≠ none) ∧ w2.silos 6 = none ∧
    reindexSilos (Example.env 1120).ps (Example.env 1120).pfx (Example.env 1120).idSize 32 2000 w2.silos [0, 1, 2, 3, 4, 5] {} [] = .fail := by
  have h := twinReindex_eq
  unfold twinReindex twinStores at h
  simp only [Res.bind_eq_ok, Res.pure_eq, Res.ok.injEq] at h
  obtain ⟨-, ⟨⟨w1, u1⟩, e1, ⟨w2, u2⟩, e2, rfl⟩, ⟨d, left⟩, e3, e4⟩ := h
  simp only [Prod.mk.injEq] at e4
  obtain ⟨e5, e6, e7⟩ := e4
  have hin : GoodInput (Example.env 1120) twinObject := ⟨by decide, by simp [twinObject], by simp [twinObject, Example.env]⟩
  have hty : headerGet Example.hdr b!"WARC-Type" = some b!"resource" := by decide
  have hleft : left = [] := by
    cases left with
    | nil => rfl
    | cons a b => cases e5
  subst hleft
  have hother : Stores (Example.env 1120) Example.stored false w1 { w1 with holds := fun _ => false, cacheFile := none, cache := ⟨0, 0⟩ } :=
    .other (.refl w1) rfl fun _ => rfl
  refine ⟨heldWorld, w1, w2, d, rfl, fun _ => rfl, .store (.refl _) (example_goodJob 1120) (Or.inl hty) hin (fun h => absurd rfl h) e1,
    .store hother (example_goodJob 1120) (Or.inl hty) hin (fun h => absurd rfl h) e2, e3, ?_, ?_, ?_⟩
  · simp only [List.map_cons, List.map_nil, List.cons.injEq] at e7
    intro n hn he
    simp only [List.mem_cons, List.not_mem_nil, or_false] at hn
    rcases hn with rfl | rfl | rfl | rfl | rfl | rfl <;> rw [he] at e7 <;> simp at e7
  · simp only [List.map_cons, List.map_nil, List.cons.injEq] at e7
    cases hs : w2.silos 6 with
    | none => rfl
    | some x => rw [hs] at e7; simp at e7
  · revert e6
    generalize reindexSilos _ _ _ _ _ _ _ _ _ = z
    intro e6
    cases z with
    | fail => rfl
    | ok _ => cases e6
    | ub => cases e6

end Verif.Props
