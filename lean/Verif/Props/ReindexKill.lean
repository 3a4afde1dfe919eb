/-
Property C97: reindexing that is killed can be done again.
-/
import Verif.Props.ReindexAgain
import Verif.Props.RecoverExample

namespace Verif.Props
open Verif Header Gzip Ident Index Wsilo Segjob Getjob Spec Inflate
open _root_.Verif.Reindex (reindexMain reindexSilos reindexKilled silosActs acts)

/-- The list `ns` has all the silos, each of them once. -/
def AllSilos (silos : Nat → Option _root_.Verif.Commit.Silo) (ns : List Nat) : Prop := ns.Nodup ∧ ∀ n, n ∈ ns ↔ silos n ≠ none

/-- `d1` is what is left of the index `d0` after `n` attempts to reindex all the silos, which are killed, each at any time. -/
inductive Attempts (env : Env) (sort fuel : Nat) (silos : Nat → Option _root_.Verif.Commit.Silo) (d0 : Dir) : Nat → Dir → Prop where
  | none : Attempts env sort fuel silos d0 0 d0
  | killed {n : Nat} {d d1 : Dir} (ns : List Nat) (k : Nat) : Attempts env sort fuel silos d0 n d → AllSilos silos ns →
      reindexKilled env.ps env.pfx env.idSize sort fuel silos ns k d = .ok d1 → Attempts env sort fuel silos d0 (n + 1) d1

theorem inserts_take (ops : List IdxOp) (k : Nat) : (inserts (ops.take k)).length ≤ (inserts ops).length ∧ ∀ i ∈ inserts (ops.take k), i ∈ inserts ops := by
  have h := inserts_append (ops.take k) (ops.drop k)
  rw [List.take_append_drop] at h
  rw [h]
  exact ⟨by rw [List.length_append]; omega, fun i hi => List.mem_append_left _ hi⟩

theorem attempts_inv {env : Env} (he : EnvOk env) {g : Bool} {w : World} {ops : List IdxOp} {A P : List Item} {objs : List (Item × List Item)} {I : List Item}
    (ha : ArchInv env w ops A) (hl : Layout w.silos A) (hp : Parts env g A P objs I) (hf : FirstsDiffer A) (hfew : A.length < 2 ^ 31)
    {sort fuel : Nat} (hsort : sort % 32 = 0 ∧ 0 < sort) (hfuel : ∀ n f, w.silos n = some f → f.data.length < fuel)
    {ops0 : List IdxOp} {d0 : Dir} (hd0 : runOps {} ops0 = .ok d0) {n : Nat} {d : Dir} (h : Attempts env sort fuel w.silos d0 n d) :
    ∃ ops1, (∀ o ∈ ops1, o.Valid) ∧ runOps {} (ops0 ++ ops1) = .ok d ∧ (inserts ops1).length ≤ n * A.length ∧ ∀ i ∈ inserts ops1, i.entry ∈ A.map (·.entry) := by
  induction h with
  | none => exact ⟨[], fun o ho => (by cases ho), by rw [List.append_nil]; exact hd0, by simp [inserts], fun i hi => (by cases hi)⟩
  | @killed n d d1 ns k _ hns hk ih =>
    obtain ⟨ops1, i1, i2, i3, i4⟩ := ih
    obtain ⟨ops', A', a1, a2, a3, ⟨as, a4, rfl⟩, -⟩ := reindex_acts he ha hl hp hf hfew hns.1 hns.2 hsort hfuel
    unfold reindexKilled at hk
    rw [a4, Res.ok_bind, acts_runOps, List.map_take] at hk
    obtain ⟨t1, t2⟩ := inserts_take (as.map (toOp sort)) k
    refine ⟨ops1 ++ (as.map (toOp sort)).take k, ?_, ?_, ?_, ?_⟩
    · intro o ho
      rcases List.mem_append.1 ho with ho | ho
      · exact i1 o ho
      · exact a2 o (List.mem_of_mem_take ho)
    · rw [← List.append_assoc, runOps_append, i2, Res.ok_bind]
      exact hk
    · rw [inserts_append, List.length_append, Nat.succ_mul]
      have h1 := congrArg List.length a3
      rw [List.length_map, List.length_map, a1.length_eq] at h1
      omega
    · intro i hi
      rw [inserts_append] at hi
      rcases List.mem_append.1 hi with hi | hi
      · exact i4 i hi
      · have : i.entry ∈ A'.map (·.entry) := by
          rw [← a3]
          exact List.mem_map.2 ⟨i, t2 i hi, rfl⟩
        obtain ⟨x, hx, e⟩ := List.mem_map.1 this
        exact List.mem_map.2 ⟨x, a1.mem_iff.1 hx, e⟩

theorem items_of_entries {A : List Item} (l : List Entry) (h : ∀ e ∈ l, e ∈ A.map (·.entry)) : ∃ B : List Item, l = B.map (·.entry) ∧ ∀ x ∈ B, x ∈ A := by
  induction l with
  | nil => exact ⟨[], rfl, fun x hx => (by cases hx)⟩
  | cons e l ih =>
    obtain ⟨B, k1, k2⟩ := ih fun e he => h e (by simp [he])
    obtain ⟨x, hx, rfl⟩ := List.mem_map.1 (h e (by simp))
    refine ⟨x :: B, by rw [k1]; rfl, fun y hy => ?_⟩
    rcases List.mem_cons.1 hy with hy | hy
    · rw [hy]; exact hx
    · exact k2 y hy

theorem attempts_again {env : Env} (he : EnvOk env) {g : Bool} {w : World} {ops : List IdxOp} {A P : List Item} {objs : List (Item × List Item)} {I : List Item}
    (ha : ArchInv env w ops A) (hl : Layout w.silos A) (hp : Parts env g A P objs I) (hf : FirstsDiffer A)
    {sort fuel : Nat} (hsort : sort % 32 = 0 ∧ 0 < sort) (hfuel : ∀ n f, w.silos n = some f → f.data.length < fuel)
    {ops0 : List IdxOp} (hv0 : ∀ o ∈ ops0, o.Valid) {d0 : Dir} (hd0 : runOps {} ops0 = .ok d0) (hsub : ∀ i ∈ inserts ops0, i.entry ∈ A.map (·.entry))
    {n : Nat} (hfew : (inserts ops0).length + (n + 1) * A.length < 2 ^ 31) {d1 : Dir} (h : Attempts env sort fuel w.silos d0 n d1)
    {ns : List Nat} (hns : AllSilos w.silos ns) :
    ∃ (d : Dir) (ops2 : List IdxOp) (B : List Item), reindexMain env.ps env.pfx env.idSize sort fuel w.silos ns d1 = .ok (d, []) ∧ (∀ o ∈ ops2, o.Valid) ∧ runOps {} ops2 = .ok d ∧
      (inserts ops2).length ≤ (inserts ops0).length + (n + 1) * A.length ∧ (inserts ops2).map Ins.entry = B.map (·.entry) ∧ ∀ x, x ∈ B ↔ x ∈ A := by
  rw [Nat.succ_mul] at hfew
  obtain ⟨ops1, i1, i2, i3, i4⟩ := attempts_inv he ha hl hp hf (by omega) hsort hfuel hd0 h
  have hv : ∀ o ∈ ops0 ++ ops1, o.Valid := fun o ho => (List.mem_append.1 ho).elim (hv0 o) (i1 o)
  obtain ⟨d, ops', A', r1, r2, r3, r4, r5⟩ := reindex_over he ha hl hp hf hv i2 (by rw [inserts_append, List.length_append]; omega) hns.1 hns.2 hsort hfuel
  have hlen := congrArg List.length r5
  rw [List.length_map, List.length_map, r2.length_eq] at hlen
  obtain ⟨B, b1, b2⟩ := items_of_entries (A := A) ((inserts (ops0 ++ ops1)).map Ins.entry) (by
    intro e he
    obtain ⟨i, hi, rfl⟩ := List.mem_map.1 he
    rw [inserts_append] at hi
    exact (List.mem_append.1 hi).elim (hsub i) (i4 i))
  refine ⟨d, (ops0 ++ ops1) ++ ops', B ++ A', ?_, fun o ho => (List.mem_append.1 ho).elim (hv o) (r4 o), r3, ?_, ?_, ?_⟩
  · unfold reindexMain
    rw [r1, Res.ok_bind, if_pos rfl]
    rfl
  · rw [inserts_append, inserts_append, List.length_append, List.length_append, Nat.succ_mul]
    omega
  · rw [inserts_append, List.map_append, List.map_append, b1, r5]
  · intro x
    rw [List.mem_append, r2.mem_iff]
    exact ⟨fun h => h.elim (b2 x) id, Or.inr⟩

/-- C97: after any history of stores and housekeeping runs that started with an empty archive, whether the index is lost or not (`lost`), and however
often `reindex` is killed, each time when it has done whatever part of its work: a run that is not killed succeeds and leaves no
segment over; the index then has the same entries as it had before all this, and every object is got as before (if no record clashes
with it, and the index search is safe in the new file).  The conditions are that no two segmented objects have the same ID, and that
`reindex` is not killed within `IDX_Resort`. -/
theorem C97_killed_partial {σ : Type} {env : Env} {D : Deflater σ} (hz : Zlib D) (he : EnvOk env) {g : Bool} {w0 w : World} (hw0 : w0.dir = {}) (hs0 : ∀ n, w0.silos n = none)
    (hl : Stores env D g w0 w) {sort fuel : Nat} (hsort : sort % 32 = 0 ∧ 0 < sort) (hfuel : ∀ n f, w.silos n = some f → f.data.length < fuel) (lost : Bool)
    {n : Nat} {d1 : Dir} (ht : Attempts env sort fuel w.silos (if lost then {} else w.dir) n d1) {ns : List Nat} (hns : AllSilos w.silos ns) :
    ∃ ops A, ArchInv env w ops A ∧ (FirstsDiffer A → (n + 2) * A.length < 2 ^ 31 →
      ∃ d es r es' r', reindexMain env.ps env.pfx env.idSize sort fuel w.silos ns d1 = .ok (d, []) ∧
        listing w.dir = .ok (es, r) ∧ listing d = .ok (es', r') ∧ (∀ e, e ∈ es' ↔ e ∈ es) ∧
        ∀ id payload x ys, Holds env A id payload x ys → Clear env { w with dir := d } A id x ys → ∀ q, idxValidId env.pfx env.idSize q = .ok id →
          ∀ fuel2, ys.length < fuel2 → ∃ gj, getjobNew env.ps env.pfx env.idSize fuel2 { w with dir := d } q = .ok (.job gj) ∧
            ∀ cut : Bytes → List Bytes, (∀ b, (cut b).flatten = b) → getjobIterate env.ps cut gj collect [] false = .ok payload) := by
  obtain ⟨ops, A, P, objs, I, h1, h2, h3⟩ := stores_inv hz he hl hw0 hs0
  refine ⟨ops, A, h1, fun hf hfew => ?_⟩
  have hent : (inserts ops).map Ins.entry = A.map (·.entry) := h1.entries
  have n1 := congrArg List.length hent
  simp only [List.length_map] at n1
  have hfew' : A.length + (n + 1) * A.length < 2 ^ 31 := by
    have : (n + 2) * A.length = A.length + (n + 1) * A.length := by rw [Nat.succ_mul, Nat.add_comm]
    omega
  have hbase : ∃ ops0, (∀ o ∈ ops0, o.Valid) ∧ runOps {} ops0 = .ok (if lost then {} else w.dir) ∧ (∀ i ∈ inserts ops0, i.entry ∈ A.map (·.entry)) ∧
      (inserts ops0).length ≤ A.length := by
    cases lost with
    | true => exact ⟨[], fun o ho => (by cases ho), rfl, fun i hi => (by cases hi), by simp [inserts]⟩
    | false =>
      refine ⟨ops, h1.valid, h1.dir, fun i hi => ?_, by omega⟩
      rw [← hent]
      exact List.mem_map.2 ⟨i, hi, rfl⟩
  obtain ⟨ops0, b1, b2, b3, b4⟩ := hbase
  obtain ⟨d, ops2, B, r1, r2, r3, r4, r5, hmem⟩ := attempts_again he h1 h2 h3 hf hsort hfuel b1 b2 b3 (by omega) ht hns
  obtain ⟨d1', es, r, a1, a2, a3, -⟩ := C04_listing_complete ops h1.valid (by omega)
  obtain ⟨d2', es', r', c1, c2, c3, -⟩ := C04_listing_complete ops2 r2 (by omega)
  have := h1.dir
  rw [a1] at this
  cases this
  have := r3
  rw [c1] at this
  cases this
  have hinv : ArchInv env { w with dir := d } ops2 B := ⟨r3, r2, r5, fun x hx => h1.there x ((hmem x).1 hx), fun x hx => h1.text x ((hmem x).1 hx)⟩
  have hnum := congrArg List.length r5
  simp only [List.length_map] at hnum
  refine ⟨d, es, r, es', r', r1, a2, c2, ?_, ?_⟩
  · intro e
    rw [a3, c3]
    have k1 : (∃ i ∈ inserts ops, i.entry = e) ↔ e ∈ A.map (·.entry) := by rw [← hent, List.mem_map]
    have k2 : (∃ i ∈ inserts ops2, i.entry = e) ↔ e ∈ (inserts ops2).map Ins.entry := by rw [List.mem_map]
    rw [k1, k2, r5]
    simp only [List.mem_map, hmem]
  · intro id payload x ys hho hcl q hq fuel2 hf2
    have hcl' : Clear env { w with dir := d } B id x ys :=
      ⟨fun y hy => hcl.first y ((hmem y).1 hy), onlyChain_less (fun y hy => (hmem y).1 hy) _ _ hcl.chain, by omega, hcl.seek⟩
    obtain ⟨-, u6, u7⟩ := (C11_valid_id _ _ _ _).1 hq
    obtain ⟨gj, g1, -, g2, -⟩ := C33_get_partial (gettable_of he hinv u6 u7 (holds_mono (fun y hy => (hmem y).2 hy) hho).1 hcl') hq hf2
    refine ⟨gj, g1, fun cut hc => ?_⟩
    rw [g2 cut hc, hho.2.1]

/-- Store an object of three segments and a small one, lose the index or not, kill the attempts to reindex `[0, 1, 2, 3]` after as many
steps as `ks` says, reindex in the end, and get the first object. -/
def killedGet (lost : Bool) (ks : List Nat) : Res (Nat × Nat × Bool) := do
  let env := Example.env 1120
  let r ← storeObj env Example.stored 10 emptyWorld Example.hdr none longObject
  let r2 ← storeObj env Example.stored 10 r.1 Example.hdr none [b!"tiny"]
  let w := r2.1
  let d ← ks.foldlM (fun d k => reindexKilled env.ps env.pfx env.idSize 320 2000 w.silos [0, 1, 2, 3] k d) (if lost then {} else w.dir)
  let x ← reindexMain env.ps env.pfx env.idSize 320 2000 w.silos [0, 1, 2, 3] d
  let a ← listing d
  let b ← listing x.1
  let g ← getjobNew env.ps env.pfx env.idSize 10 { w with dir := x.1 } r.2
  match g with
  | .job j => do
    let y ← getjobIterate env.ps (fun b => [b]) j collect [] false
    return (a.1.length, b.1.length, y = longObject.flatten)
  | .error _ => return (a.1.length, b.1.length, false)

set_option maxRecDepth 1000000 in
/-- With an index that was lost, killed twice; there are four entries then, and eight in the end, as there were at first.  With the
index that was there, one entry is there twice in the end. -/
example : killedGet true [3, 6] = .ok (4, 8, true) ∧ killedGet false [4] = .ok (11, 9, true) := by decide +kernel

end Verif.Props
