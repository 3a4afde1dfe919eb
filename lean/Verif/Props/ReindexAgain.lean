/-
Property C83: reindexing an archive that has its index.
-/
import Verif.Props.ReindexExample

namespace Verif.Props
open Verif Header Gzip Ident Index Wsilo Segjob Getjob Spec Inflate
open _root_.Verif.Reindex (reindexSilos)

theorem onlyChain_less {pfx : Bytes} {k : Nat} {A B : List Item} (h : ∀ x ∈ B, x ∈ A) {id : Bytes} : ∀ (ys : List Item) (x : Item), OnlyChain pfx k A id x ys → OnlyChain pfx k B id x ys := by
  intro ys
  induction ys with
  | nil => intro _ _; trivial
  | cons y ys ih => exact fun x hc => ⟨fun z hz => hc.1 z (h z hz), ih y hc.2⟩

/-- C83: after any history of stores and housekeeping runs that started with an empty archive, reindexing all silos into the index that
is there, in whatever order, succeeds and leaves no segment over; the index has the same entries as before, and every object is got
as before (if no record clashes with it, and the index search is safe in the new file).  The condition is that no two segmented
objects have the same ID. -/
theorem C83_again_partial {σ : Type} {env : Env} {D : Deflater σ} (hz : Zlib D) (he : EnvOk env) {g : Bool} {w0 w : World} (hw0 : w0.dir = {}) (hs0 : ∀ n, w0.silos n = none)
    (hl : Stores env D g w0 w) {ns : List Nat} (hnd : ns.Nodup) (hns : ∀ n, n ∈ ns ↔ w.silos n ≠ none) {sort fuel : Nat} (hsort : sort % 32 = 0 ∧ 0 < sort)
    (hfuel : ∀ n f, w.silos n = some f → f.data.length < fuel) :
    ∃ ops A, ArchInv env w ops A ∧ (FirstsDiffer A → A.length < 2 ^ 30 →
      ∃ d es r es' r' ops' A', reindexSilos env.ps env.pfx env.idSize sort fuel w.silos ns w.dir [] = .ok (d, []) ∧
        listing w.dir = .ok (es, r) ∧ listing d = .ok (es', r') ∧ (∀ e, e ∈ es' ↔ e ∈ es) ∧ ArchInv env { w with dir := d } ops' A' ∧ (∀ x, x ∈ A' ↔ x ∈ A) ∧
        ∀ id payload x ys, Holds env A id payload x ys → Clear env { w with dir := d } A id x ys → ∀ q, idxValidId env.pfx env.idSize q = .ok id →
          ∀ fuel2, ys.length < fuel2 → ∃ gj, getjobNew env.ps env.pfx env.idSize fuel2 { w with dir := d } q = .ok (.job gj) ∧
            ∀ cut : Bytes → List Bytes, (∀ b, (cut b).flatten = b) → getjobIterate env.ps cut gj collect [] false = .ok payload) := by
  obtain ⟨ops, A, P, objs, I, h1, h2, h3⟩ := stores_inv hz he hl hw0 hs0
  refine ⟨ops, A, h1, fun hf hfew => ?_⟩
  have n1 := congrArg List.length h1.entries
  simp only [List.length_map] at n1
  obtain ⟨d, ops', A', r1, r2, r3, r4, r5⟩ := reindex_over he h1 h2 h3 hf h1.valid h1.dir (by omega) hnd hns hsort hfuel
  have n2 := congrArg List.length r5
  have n3 := r2.length_eq
  simp only [List.length_map] at n2
  have hmem : ∀ x, x ∈ A ++ A' ↔ x ∈ A := by
    intro x
    rw [List.mem_append, r2.mem_iff, or_self]
  have hv : ∀ o ∈ ops ++ ops', o.Valid := fun o ho => (List.mem_append.1 ho).elim (h1.valid o) (r4 o)
  have hinv : ArchInv env { w with dir := d } (ops ++ ops') (A ++ A') := by
    refine ⟨r3, hv, ?_, fun x hx => h1.there x ((hmem x).1 hx), fun x hx => h1.text x ((hmem x).1 hx)⟩
    rw [inserts_append, List.map_append, List.map_append, h1.entries, r5]
  obtain ⟨d1, es, r, a1, a2, a3, -⟩ := C04_listing_complete ops h1.valid (by omega)
  obtain ⟨d2, es', r', b1, b2, b3, -⟩ := C04_listing_complete (ops ++ ops') hv (by rw [inserts_append, List.length_append]; omega)
  have := h1.dir
  rw [a1] at this
  cases this
  have := r3
  rw [b1] at this
  cases this
  refine ⟨d, es, r, es', r', ops ++ ops', A ++ A', r1, a2, b2, ?_, hinv, hmem, ?_⟩
  · intro e
    rw [a3, b3]
    have k1 : (∃ i ∈ inserts ops, i.entry = e) ↔ e ∈ A.map (·.entry) := by rw [← h1.entries, List.mem_map]
    have k2 : (∃ i ∈ inserts (ops ++ ops'), i.entry = e) ↔ e ∈ (A ++ A').map (·.entry) := by rw [← hinv.entries, List.mem_map]
    rw [k1, k2, List.map_append, List.mem_append, (r2.map _).mem_iff, or_self]
  · intro id payload x ys hho hcl q hq fuel2 hf2
    have hcl' : Clear env { w with dir := d } (A ++ A') id x ys :=
      ⟨fun y hy => hcl.first y ((hmem y).1 hy), onlyChain_less (fun y hy => (hmem y).1 hy) _ _ hcl.chain, by rw [List.length_append]; omega, hcl.seek⟩
    obtain ⟨-, u6, u7⟩ := (C11_valid_id _ _ _ _).1 hq
    obtain ⟨gj, g1, -, g2, -⟩ := C33_get_partial (gettable_of he hinv u6 u7 (holds_mono (fun y hy => (hmem y).2 hy) hho).1 hcl') hq hf2
    refine ⟨gj, g1, fun cut hc => ?_⟩
    rw [g2 cut hc, hho.2.1]

/-- Store objects, and reindex the silos `ns` into the index that is there, twice: whether the entries are the same, their number before
and after each time. -/
def reindexTwice (max : Nat) (objs : List (List Bytes)) (ns : List Nat) : Res (Bool × Nat × Nat × Nat) := do
  let env := Example.env max
  let w ← objs.foldlM (fun w cs => do let r ← storeObj env Example.stored 10 w Example.hdr none cs; return r.1) emptyWorld
  let y ← reindexSilos env.ps env.pfx env.idSize 320 2000 w.silos ns w.dir []
  let z ← reindexSilos env.ps env.pfx env.idSize 320 2000 w.silos ns y.1 []
  let a ← listing w.dir
  let b ← listing y.1
  let c ← listing z.1
  return ((a.1.all fun e => e ∈ b.1 ∧ e ∈ c.1) ∧ (b.1.all fun e => e ∈ a.1) ∧ (c.1.all fun e => e ∈ a.1), a.1.length, b.1.length, c.1.length)

set_option maxRecDepth 1000000 in
/-- A segmented object in three silos, reindexed in place: the entries are the same, but two of them are there twice. -/
example : reindexTwice 1120 [[b!"hello and welcome", b!" world, hello and goodbye, and so on and so forth"]] [2, 1, 0] = .ok (true, 6, 8, 8) := by decide +kernel

end Verif.Props
