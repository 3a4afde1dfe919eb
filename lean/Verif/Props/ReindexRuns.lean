/-
Property C96: a lost index, and reindexing in several runs.
-/
import Verif.Props.ReindexArgs
import Verif.Props.ReindexKill

namespace Verif.Props
open Verif Header Gzip Ident Index Wsilo Segjob Getjob Spec Inflate
open _root_.Verif.Reindex (reindexMain reindexSilos reindexSilo)

theorem inserts_mapped (l : List Ins) : inserts (l.map IdxOp.insert) = l := by
  induction l with
  | nil => rfl
  | cons a l ih => simp only [List.map_cons, inserts, ih]

/-- The objects of which the segments are in the silos `ns`: all of the segments are, or none. -/
def Together (objs : List (Item × List Item)) (ns : List Nat) : Prop :=
  ∀ o ∈ objs, ∀ x ∈ o.1 :: o.2, ∀ y ∈ o.1 :: o.2, x.entry.silo ∈ ns → y.entry.silo ∈ ns

theorem together_filter {ns : List Nat} (objs : List (Item × List Item)) (h : Together objs ns) :
    (objs.flatMap fun o => o.1 :: o.2).filter (fun x => decide (x.entry.silo ∈ ns)) = (objs.filter fun o => decide (o.1.entry.silo ∈ ns)).flatMap fun o => o.1 :: o.2 := by
  induction objs with
  | nil => rfl
  | cons o objs ih =>
    have ho := h o (by simp)
    rw [List.flatMap_cons, List.filter_append, ih fun o ho => h o (by simp [ho])]
    by_cases hn : o.1.entry.silo ∈ ns
    · rw [List.filter_cons_of_pos (by simpa using hn) (l := objs), List.flatMap_cons]
      congr 1
      rw [List.filter_eq_self]
      exact fun y hy => decide_eq_true (ho o.1 (by simp) y hy hn)
    · rw [List.filter_cons_of_neg (by simpa using hn) (l := objs)]
      have : (o.1 :: o.2).filter (fun x => decide (x.entry.silo ∈ ns)) = [] := by
        rw [List.filter_eq_nil_iff]
        intro y hy hd
        exact hn (ho y hy o.1 (by simp) (of_decide_eq_true hd))
      rw [this, List.nil_append]

/-- Some of the silos of an archive are an archive, if no object is in these and in others. -/
theorem restrict {env : Env} {g : Bool} {w : World} {ops : List IdxOp} {A P : List Item} {objs : List (Item × List Item)} {I : List Item}
    (ha : ArchInv env w ops A) (hl : Layout w.silos A) (hp : Parts env g A P objs I) (hf : FirstsDiffer A) (hfew : A.length < 2 ^ 31)
    {ns : List Nat} (ht : Together objs ns) :
    ∃ (w' : World) (ops' : List IdxOp) (P' : List Item) (objs' : List (Item × List Item)) (I' : List Item),
      w'.silos = (fun n => if n ∈ ns then w.silos n else none) ∧ ArchInv env w' ops' (A.filter fun x => decide (x.entry.silo ∈ ns)) ∧
      Layout w'.silos (A.filter fun x => decide (x.entry.silo ∈ ns)) ∧ Parts env g (A.filter fun x => decide (x.entry.silo ∈ ns)) P' objs' I' ∧
      FirstsDiffer (A.filter fun x => decide (x.entry.silo ∈ ns)) := by
  have hsub : (A.filter fun x => decide (x.entry.silo ∈ ns)).Sublist A := List.filter_sublist
  have hent : (((inserts ops).filter fun i => decide (i.entry.silo ∈ ns)).map Ins.entry) = (A.filter fun x => decide (x.entry.silo ∈ ns)).map (·.entry) := by
    have h1 : ((inserts ops).map Ins.entry).filter (fun e => decide (e.silo ∈ ns)) = (A.map (·.entry)).filter fun e => decide (e.silo ∈ ns) := by rw [ha.entries]
    rw [List.filter_map, List.filter_map] at h1
    exact h1
  have hv : ∀ o ∈ ((inserts ops).filter fun i => decide (i.entry.silo ∈ ns)).map IdxOp.insert, o.Valid := by
    intro o ho
    obtain ⟨i, hi, rfl⟩ := List.mem_map.1 ho
    exact inserts_valid ops ha.valid i (List.mem_filter.1 hi).1
  have hnum := congrArg List.length hent
  simp only [List.length_map] at hnum
  have hlen := hsub.length_le
  obtain ⟨d, -, -, r1, -⟩ := C04_listing_complete (((inserts ops).filter fun i => decide (i.entry.silo ∈ ns)).map IdxOp.insert) hv (by rw [inserts_mapped]; omega)
  refine ⟨{ w with dir := d, silos := fun n => if n ∈ ns then w.silos n else none }, _, P.filter fun x => decide (x.entry.silo ∈ ns),
    objs.filter fun o => decide (o.1.entry.silo ∈ ns), I.filter fun x => decide (x.entry.silo ∈ ns), rfl, ⟨r1, hv, ?_, ?_, ?_⟩, ?_, ⟨?_, ?_, ?_, ?_⟩, hf.sublist hsub⟩
  · rw [inserts_mapped]
    exact hent
  · intro x hx
    obtain ⟨x1, x2⟩ := List.mem_filter.1 hx
    obtain ⟨⟨f, a, b, e1, e2⟩, h2⟩ := ha.there x x1
    refine ⟨⟨f, a, b, ?_, e2⟩, h2⟩
    show (if x.entry.silo ∈ ns then w.silos x.entry.silo else none) = some f
    rw [if_pos (of_decide_eq_true x2)]
    exact e1
  · exact fun x hx => ha.text x (hsub.subset hx)
  · intro n f hn
    have hn' : (if n ∈ ns then w.silos n else none) = some f := hn
    by_cases hm : n ∈ ns
    · rw [if_pos hm] at hn'
      obtain ⟨X, x1, x2, x3⟩ := hl n f hn'
      refine ⟨X, x1.trans ?_, x2, x3⟩
      rw [List.filter_filter]
      refine List.Perm.of_eq (List.filter_congr fun x _ => ?_)
      by_cases e : x.entry.silo = n
      · simp [e, hm]
      · simp [e]
    · rw [if_neg hm] at hn'
      cases hn'
  · have := hp.perm.filter fun x => decide (x.entry.silo ∈ ns)
    rw [List.filter_append, List.filter_append, together_filter objs ht] at this
    exact this
  · exact fun x hx => hp.plain x (List.mem_filter.1 hx).1
  · exact fun o ho => hp.several o (List.mem_filter.1 ho).1
  · exact fun x hx => hp.info x (List.mem_filter.1 hx).1

theorem reindexSilos_congr {ps : Nat} {pfx : Bytes} {k sort fuel : Nat} {s s' : Nat → Option _root_.Verif.Commit.Silo} (ns : List Nat) (h : ∀ n ∈ ns, s n = s' n) :
    ∀ d segs, reindexSilos ps pfx k sort fuel s ns d segs = reindexSilos ps pfx k sort fuel s' ns d segs := by
  induction ns with
  | nil => exact fun _ _ => rfl
  | cons n ns ih =>
    intro d segs
    rw [reindexSilos, reindexSilos, h n (by simp)]
    cases s' n with
    | none => rfl
    | some f =>
      simp only
      cases reindexSilo ps pfx k sort n fuel f.data d segs with
      | ok r => exact ih (fun n hn => h n (by simp [hn])) _ _
      | fail => rfl
      | ub => rfl

/-- One run, with some of the silos, on top of any index. -/
theorem reindex_run {env : Env} (he : EnvOk env) {g : Bool} {w : World} {ops : List IdxOp} {A P : List Item} {objs : List (Item × List Item)} {I : List Item}
    (ha : ArchInv env w ops A) (hl : Layout w.silos A) (hp : Parts env g A P objs I) (hf : FirstsDiffer A) {ops0 : List IdxOp} (hv0 : ∀ o ∈ ops0, o.Valid) {d0 : Dir}
    (hd0 : runOps {} ops0 = .ok d0) (hfew : (inserts ops0).length + A.length < 2 ^ 31)
    {ns : List Nat} (hnd : ns.Nodup) (hns : ∀ n ∈ ns, w.silos n ≠ none) (ht : Together objs ns) {sort fuel : Nat} (hsort : sort % 32 = 0 ∧ 0 < sort)
    (hfuel : ∀ n f, w.silos n = some f → f.data.length < fuel) :
    ∃ (d : Dir) (ops' : List IdxOp) (A' : List Item), reindexMain env.ps env.pfx env.idSize sort fuel w.silos ns d0 = .ok (d, []) ∧
      A'.Perm (A.filter fun x => decide (x.entry.silo ∈ ns)) ∧ runOps {} (ops0 ++ ops') = .ok d ∧
      (∀ o ∈ ops', o.Valid) ∧ (inserts ops').map Ins.entry = A'.map (·.entry) := by
  obtain ⟨w', ops1, P', objs', I', w1, w2, w3, w4, w5⟩ := restrict ha hl hp hf (by omega) ht
  have hlen : (A.filter fun x => decide (x.entry.silo ∈ ns)).length ≤ A.length := List.filter_sublist.length_le
  obtain ⟨d, ops', A', r1, r2, r3, r4, r5⟩ := reindex_over he w2 w3 w4 w5 hv0 hd0 (by omega) hnd (by
    intro n
    rw [w1]
    constructor
    · intro hn
      simp only [if_pos hn]
      exact hns n hn
    · intro hn
      by_cases h : n ∈ ns
      · exact h
      · simp only [if_neg h] at hn
        exact absurd rfl hn) hsort (by
    intro n f hn
    rw [w1] at hn
    by_cases h : n ∈ ns
    · simp only [if_pos h] at hn
      exact hfuel n f hn
    · simp only [if_neg h] at hn
      cases hn)
  refine ⟨d, ops', A', ?_, r2, r3, r4, r5⟩
  rw [w1, reindexSilos_congr (s' := w.silos) ns fun n hn => by simp only [if_pos hn]] at r1
  unfold reindexMain
  rw [r1, Res.ok_bind, if_pos rfl]
  rfl

/-- Reindexing in several runs, one after the other; in each of them no segment is left over. -/
inductive Runs (env : Env) (sort fuel : Nat) (silos : Nat → Option _root_.Verif.Commit.Silo) : Dir → List (List Nat) → Dir → Prop where
  | nil (d : Dir) : Runs env sort fuel silos d [] d
  | cons {d d1 d2 : Dir} {ns : List Nat} {runs : List (List Nat)} : reindexMain env.ps env.pfx env.idSize sort fuel silos ns d = .ok (d1, []) →
      Runs env sort fuel silos d1 runs d2 → Runs env sort fuel silos d (ns :: runs) d2

theorem reindex_runs {env : Env} (he : EnvOk env) {g : Bool} {w : World} {ops : List IdxOp} {A P : List Item} {objs : List (Item × List Item)} {I : List Item}
    (ha : ArchInv env w ops A) (hl : Layout w.silos A) (hp : Parts env g A P objs I) (hf : FirstsDiffer A) {sort fuel : Nat} (hsort : sort % 32 = 0 ∧ 0 < sort)
    (hfuel : ∀ n f, w.silos n = some f → f.data.length < fuel) (runs : List (List Nat)) : ∀ {ops0 : List IdxOp} {d0 : Dir}, (∀ o ∈ ops0, o.Valid) →
    runOps {} ops0 = .ok d0 → (inserts ops0).length + runs.length * A.length < 2 ^ 31 →
    (∀ ns ∈ runs, ns.Nodup ∧ (∀ n ∈ ns, w.silos n ≠ none) ∧ Together objs ns) →
    ∃ (d : Dir) (ops' : List IdxOp) (A' : List Item), Runs env sort fuel w.silos d0 runs d ∧ runOps {} (ops0 ++ ops') = .ok d ∧ (∀ o ∈ ops', o.Valid) ∧
      (inserts ops').map Ins.entry = A'.map (·.entry) ∧ A'.length ≤ runs.length * A.length ∧ ∀ x, x ∈ A' ↔ x ∈ A ∧ x.entry.silo ∈ runs.flatten := by
  induction runs with
  | nil =>
    intro ops0 d0 hv0 hd0 _ _
    refine ⟨d0, [], [], .nil _, by rw [List.append_nil]; exact hd0, fun o ho => (by cases ho), rfl, Nat.zero_le _, fun x => ⟨fun h => (by cases h), fun h => ?_⟩⟩
    rw [List.flatten_nil] at h
    cases h.2
  | cons ns runs ih =>
    intro ops0 d0 hv0 hd0 hfew hruns
    rw [List.length_cons, Nat.succ_mul] at hfew
    obtain ⟨h1, h2, h3⟩ := hruns ns (by simp)
    obtain ⟨d1, ops1, A1, r1, r2, r3, r4, r5⟩ := reindex_run he ha hl hp hf hv0 hd0 (by omega) h1 h2 h3 hsort hfuel
    have hlen : (A.filter fun x => decide (x.entry.silo ∈ ns)).length ≤ A.length := List.filter_sublist.length_le
    have hnum := congrArg List.length r5
    simp only [List.length_map] at hnum
    have hA1 := r2.length_eq
    obtain ⟨d, ops2, A2, s1, s2, s3, s4, s5, s6⟩ := ih (ops0 := ops0 ++ ops1) (fun o ho => (List.mem_append.1 ho).elim (hv0 o) (r4 o)) r3
      (by rw [inserts_append, List.length_append]; omega) fun ns hns => hruns ns (by simp [hns])
    refine ⟨d, ops1 ++ ops2, A1 ++ A2, .cons r1 s1, by rw [← List.append_assoc]; exact s2, fun o ho => (List.mem_append.1 ho).elim (r4 o) (s3 o), ?_, ?_, ?_⟩
    · rw [inserts_append, List.map_append, List.map_append, r5, s4]
    · rw [List.length_append, List.length_cons, Nat.succ_mul]
      omega
    · intro x
      rw [List.mem_append, r2.mem_iff, s6, List.mem_filter, List.flatten_cons, List.mem_append, decide_eq_true_eq]
      constructor
      · rintro (h | h)
        · exact ⟨h.1, .inl h.2⟩
        · exact ⟨h.1, .inr h.2⟩
      · rintro ⟨h, k | k⟩
        · exact .inl ⟨h, k⟩
        · exact .inr ⟨h, k⟩

/-- C96: after any history of stores and housekeeping runs that started with an empty archive, a lost index can be made again by reindexing
the silos in several runs, if each silo is in one of them (or in more) and no object has segments in the silos of a run and in others:
each run leaves no segment over, the index has the same entries as before, and every object is got as before (if no record clashes with
it, and the index search is safe in the new file).  No two segmented objects have the same ID. -/
theorem C96_runs_partial {σ : Type} {env : Env} {D : Deflater σ} (hz : Zlib D) (he : EnvOk env) {g : Bool} {w0 w : World} (hw0 : w0.dir = {}) (hs0 : ∀ n, w0.silos n = none)
    (hl : Stores env D g w0 w) {sort fuel : Nat} (hsort : sort % 32 = 0 ∧ 0 < sort) (hfuel : ∀ n f, w.silos n = some f → f.data.length < fuel) {runs : List (List Nat)}
    (hruns : ∀ ns ∈ runs, ns.Nodup) (hall : ∀ n, n ∈ runs.flatten ↔ w.silos n ≠ none) :
    ∃ ops A P objs I, ArchInv env w ops A ∧ Parts env g A P objs I ∧ (FirstsDiffer A → (runs.length + 1) * A.length < 2 ^ 31 → (∀ ns ∈ runs, Together objs ns) →
      ∃ d es r es' r', Runs env sort fuel w.silos {} runs d ∧ listing w.dir = .ok (es, r) ∧ listing d = .ok (es', r') ∧ (∀ e, e ∈ es' ↔ e ∈ es) ∧
        ∀ id payload x ys, Holds env A id payload x ys → Clear env { w with dir := d } A id x ys → ∀ q, idxValidId env.pfx env.idSize q = .ok id →
          ∀ fuel2, ys.length < fuel2 → ∃ gj, getjobNew env.ps env.pfx env.idSize fuel2 { w with dir := d } q = .ok (.job gj) ∧
            ∀ cut : Bytes → List Bytes, (∀ b, (cut b).flatten = b) → getjobIterate env.ps cut gj collect [] false = .ok payload) := by
  obtain ⟨ops, A, P, objs, I, h1, h2, h3⟩ := stores_inv hz he hl hw0 hs0
  refine ⟨ops, A, P, objs, I, h1, h3, fun hf hfew ht => ?_⟩
  have hent : (inserts ops).map Ins.entry = A.map (·.entry) := h1.entries
  have n1 := congrArg List.length hent
  simp only [List.length_map] at n1
  rw [Nat.succ_mul] at hfew
  obtain ⟨d, ops2, B, r1, r2, r3, r4, r5, r6⟩ := reindex_runs he h1 h2 h3 hf hsort hfuel runs (ops0 := []) (d0 := {}) (fun o ho => (by cases ho)) rfl
    (by rw [show inserts ([] : List IdxOp) = [] from rfl, List.length_nil]; omega)
    fun ns hns => ⟨hruns ns hns, fun n hn => (hall n).1 (List.mem_flatten.2 ⟨ns, hns, hn⟩), ht ns hns⟩
  rw [List.nil_append] at r2
  have hmem : ∀ x, x ∈ B ↔ x ∈ A := by
    intro x
    rw [r6]
    refine ⟨fun h => h.1, fun h => ⟨h, (hall _).2 ?_⟩⟩
    obtain ⟨⟨f, _, _, e, -⟩, -⟩ := h1.there x h
    rw [e]
    simp
  have hnum := congrArg List.length r4
  simp only [List.length_map] at hnum
  have hinv : ArchInv env { w with dir := d } ops2 B := ⟨r2, r3, r4, fun x hx => h1.there x ((hmem x).1 hx), fun x hx => h1.text x ((hmem x).1 hx)⟩
  obtain ⟨d1', es, r, a1, a2, a3, -⟩ := C04_listing_complete ops h1.valid (by omega)
  obtain ⟨d2', es', r', c1, c2, c3, -⟩ := C04_listing_complete ops2 r3 (by omega)
  have := h1.dir
  rw [a1] at this
  cases this
  have := r2
  rw [c1] at this
  cases this
  refine ⟨d, es, r, es', r', r1, a2, c2, ?_, ?_⟩
  · intro e
    rw [a3, c3]
    have k1 : (∃ i ∈ inserts ops, i.entry = e) ↔ e ∈ A.map (·.entry) := by rw [← hent, List.mem_map]
    have k2 : (∃ i ∈ inserts ops2, i.entry = e) ↔ e ∈ (inserts ops2).map Ins.entry := by rw [List.mem_map]
    rw [k1, k2, r4]
    simp only [List.mem_map, hmem]
  · intro id payload x ys hho hcl q hq fuel2 hf2
    have hcl' : Clear env { w with dir := d } B id x ys :=
      ⟨fun y hy => hcl.first y ((hmem y).1 hy), onlyChain_less (fun y hy => (hmem y).1 hy) _ _ hcl.chain, by omega, hcl.seek⟩
    obtain ⟨-, u6, u7⟩ := (C11_valid_id _ _ _ _).1 hq
    obtain ⟨gj, g1, -, g2, -⟩ := C33_get_partial (gettable_of he hinv u6 u7 (holds_mono (fun y hy => (hmem y).2 hy) hho).1 hcl') hq hf2
    refine ⟨gj, g1, fun cut hc => ?_⟩
    rw [g2 cut hc, hho.2.1]

/-- Store an object of three segments and a small one, which has a silo of its own; reindex the silos in several runs into an empty index,
and get both: the number of entries before and after, and whether the objects are got. -/
def runsTwo (runs : List (List Nat)) : Res (Nat × Nat × Bool × Bool) := do
  let env := Example.env 1120
  let r ← storeObj env Example.stored 10 emptyWorld Example.hdr none longObject
  let r2 ← storeObj env Example.stored 10 r.1 Example.hdr none [b!"tiny"]
  let d ← runs.foldlM (fun d ns => do
    let x ← reindexMain env.ps env.pfx env.idSize 320 2000 r2.1.silos ns d
    return x.1) ({} : Dir)
  let a ← listing r2.1.dir
  let b ← listing d
  let got := fun (uri : Bytes) => do
    let g ← getjobNew env.ps env.pfx env.idSize 10 { r2.1 with dir := d } uri
    match g with
    | .job j => getjobIterate env.ps (fun b => [b]) j collect [] false
    | .error _ => .ok b!"not found"
  let x ← got r.2
  let y ← got r2.2
  return (a.1.length, b.1.length, x = longObject.flatten, y = b!"tiny")

set_option maxRecDepth 1000000 in
/-- In two runs of which one has all segments of the object; and in two that share them. -/
example : runsTwo [[3], [2, 0, 1]] = .ok (8, 8, true, true) ∧ runsTwo [[0, 3], [2, 1]] = .ok (8, 8, false, true) := by decide +kernel

end Verif.Props
