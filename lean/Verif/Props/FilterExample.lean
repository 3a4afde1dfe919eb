/-
Examples for the filter, and the case in which `-s` misses a record.
-/
import Verif.Props.Filter
import Verif.Props.StoreExample

namespace Verif.Props
open Verif Header Index Wsilo Segjob Getjob Spec Filter

/-- A sorting function. -/
def insElem (x : Elem) : List Elem → List Elem
  | [] => [x]
  | y :: l => if strcmp x.2 y.2 = .gt then y :: insElem x l else x :: y :: l

def sortElems : List Elem → List Elem
  | [] => []
  | x :: l => insElem x (sortElems l)

theorem insElem_perm (x : Elem) (l : List Elem) : (insElem x l).Perm (x :: l) := by
  induction l with
  | nil => exact .refl _
  | cons y l ih =>
    unfold insElem
    split
    · exact (ih.cons y).trans (.swap x y l)
    · exact .refl _

theorem insElem_sorted (x : Elem) {l : List Elem} (h : Filter.Sorted l) : Filter.Sorted (insElem x l) := by
  induction l with
  | nil => exact List.pairwise_singleton _ _
  | cons y l ih =>
    have h' := List.pairwise_cons.1 h
    unfold insElem
    split
    · rename_i hg
      refine List.pairwise_cons.2 ⟨?_, ih h'.2⟩
      intro z hz
      rcases List.mem_cons.1 ((insElem_perm x l).mem_iff.1 hz) with rfl | hz
      · exact (le_iff _ _).2 (.inl (strcmp_gt.1 hg))
      · exact h'.1 z hz
    · rename_i hg
      refine List.pairwise_cons.2 ⟨?_, h⟩
      intro z hz
      rcases List.mem_cons.1 hz with rfl | hz
      · exact hg
      · exact Le.trans hg (h'.1 z hz)

/-- There is a sorting function as the theorems ask for. -/
theorem sortElems_ok (l : List Elem) : (sortElems l).Perm l ∧ Filter.Sorted (sortElems l) := by
  induction l with
  | nil => exact ⟨.refl _, List.Pairwise.nil⟩
  | cons x l ih => exact ⟨(insElem_perm x _).trans (ih.1.cons x), insElem_sorted x ih.2⟩

/-- The list used in the examples: three IDs, out of order, one with the prefix, and an empty line. -/
def exLines : List Bytes :=
  [b!"800000000000000000000000 eighty", b!"", b!"X/400000000000000000000000", b!"100000000000000000000000ff"]

/-- Non-vacuity: the index has two of three IDs on the list. -/
example : mainFilter 1024 4096 b!"x/" 24 sortElems { emptyWorld with dir := histDir [b!"00", b!"10", b!"80"] } false false false [textOf exLines] =
    .ok (some b!"X/400000000000000000000000\n") := by decide +kernel

example : mainFilter 1024 4096 b!"x/" 24 sortElems { emptyWorld with dir := histDir [b!"00", b!"10", b!"80"] } false false true [textOf exLines] =
    .ok (some b!"1 800000000000000000000000 eighty\n0 X/400000000000000000000000\n1 100000000000000000000000ff\n") := by decide +kernel

example : ∀ l ∈ ([exLines] : List (List Bytes)).flatten, LineOk 1024 l ∧
    (l ≠ [] → IdLine b!"x/" 24 l (((lineId b!"x/" 24 l)).getD [])) := by
  intro l hl
  simp only [exLines, List.flatten_cons, List.flatten_nil, List.append_nil, List.mem_cons, List.not_mem_nil, or_false] at hl
  rcases hl with rfl | rfl | rfl | rfl
  · exact ⟨by unfold LineOk; decide, fun _ => (C41_line _ _ _ _).1 (by decide)⟩
  · exact ⟨by unfold LineOk; decide, fun h => absurd rfl h⟩
  · exact ⟨by unfold LineOk; decide, fun _ => (C41_line _ _ _ _).1 (by decide)⟩
  · exact ⟨by unfold LineOk; decide, fun _ => (C41_line _ _ _ _).1 (by decide)⟩

/-- An ID of 16 digits that is in the index is printed as missing. -/
example : mainFilter 1024 4096 b!"x/" 16 sortElems { emptyWorld with dir := histDir [b!"8000000000000000"] } false false false
    [textOf [b!"8000000000000000"]] = .ok (some b!"8000000000000000\n") := by decide +kernel

/-- An upper-case ID that is in the index is printed as missing. -/
example : mainFilter 1024 4096 b!"x/" 24 sortElems { emptyWorld with dir := histDir [b!"ab"] } false false false
    [textOf [b!"AB0000000000000000000000", b!"ab0000000000000000000000"]] = .ok (some b!"AB0000000000000000000000\n") := by decide +kernel

/-- Store two objects under given IDs of 32 digits, housekeep, and filter a list with `-s`. -/
def storeFilter (i1 i2 : Bytes) (lines : List Bytes) : Res (Option Bytes) := do
  let env := { Example.env 5000 with idSize := 32 }
  let h : Hdr := ⟨List.replicate 32 48, Example.hdr.fields⟩
  let r1 ← storeObj env Example.stored 10 emptyWorld h (some i1) [b!"hello"]
  let r2 ← storeObj env Example.stored 10 r1.1 h (some i2) [b!"goodbye"]
  let d ← idxResort 1024 r2.1.dir
  mainFilter 1024 env.ps env.pfx 32 sortElems { r2.1 with dir := d } true false false [textOf lines]

set_option maxRecDepth 1000000 in
/-- With `-s`, the record must have the ID. -/
example : storeFilter b!"11112222333344445555666677770000" b!"22222222333344445555666677770000"
    [b!"11112222333344445555666677770000", b!"22222222333344445555666677770001"] = .ok (some b!"22222222333344445555666677770001\n") := by decide +kernel

set_option maxRecDepth 1000000 in
/-- C41 does not hold with `-s` for IDs that have the first 24 digits in common: the second record is in the archive, but as the
first one with this key is another one, the candidate is passed over if others follow it. -/
theorem C41_counterexample_silos :
    storeFilter b!"11112222333344445555666677770000" b!"11112222333344445555666677770001"
      [b!"11112222333344445555666677770001", b!"ffff2222333344445555666677770000"] =
    .ok (some b!"11112222333344445555666677770001\nffff2222333344445555666677770000\n") := by decide +kernel

end Verif.Props
