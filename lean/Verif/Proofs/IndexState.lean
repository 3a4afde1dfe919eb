import Verif.Proofs.IndexExact
import Mathlib.Tactic.Tauto

namespace Verif.Index
open Verif Spec

/-- Content of a possibly missing file of records. -/
def IsApp (o : Option Bytes) (rs : List Bytes) : Prop :=
  (o = none ∧ rs = []) ∨ o = some rs.flatten

/-- Content of a possibly missing sorted file. -/
def IsSorted (B : Nat) (o : Option Bytes) (rs : List Bytes) : Prop :=
  match o with
  | none => rs = []
  | some F => ∃ bp0, IsIndex F bp0 rs ∧ bp0.nrec ≤ B

structure Good (B : Nat) (d : Dir) (rs as hs : List Bytes) : Prop where
  sorted : IsSorted B d.sorted rs
  app : IsApp d.appendix as
  hk : IsApp d.housekeep hs
  good : ∀ r, r ∈ rs ∨ r ∈ as ∨ r ∈ hs → GoodRec r

theorem Good.empty (B : Nat) : Good B {} [] [] [] :=
  ⟨rfl, .inl ⟨rfl, rfl⟩, .inl ⟨rfl, rfl⟩, by simp⟩

/-- Reading a file of records in larger reads, each a whole number of records. -/
theorem chunks_groups (m : Nat) (hm : 0 < m) (fuel : Nat) (hs : List Bytes) (hl : Len32 hs)
    (hf : hs.flatten.length ≤ fuel) :
    ∃ gs : List (List Bytes), chunksAux (32 * m) fuel hs.flatten = gs.map List.flatten ∧
      gs.flatten = hs ∧ ∀ g ∈ gs, g ≠ [] := by
  induction fuel generalizing hs with
  | zero =>
    cases hs with
    | nil => exact ⟨[], rfl, rfl, by simp⟩
    | cons r rs =>
      have := hl r (by simp)
      simp only [List.flatten_cons, List.length_append] at hf
      omega
  | succ fuel ih =>
    cases hs with
    | nil => exact ⟨[], by simp [chunksAux], rfl, by simp⟩
    | cons r rs =>
      have hr := hl r (by simp)
      have hne : (r :: rs).flatten ≠ [] := by
        intro h
        have := congrArg List.length h
        simp only [List.flatten_cons, List.length_append, List.length_nil] at this
        omega
      have hsplit := List.take_append_drop m (r :: rs)
      have hd : ((r :: rs).flatten).drop (32 * m) = ((r :: rs).drop m).flatten :=
        flatten_drop (k := 32) (r :: rs) hl m
      have htk : ((r :: rs).flatten).take (32 * m) = ((r :: rs).take m).flatten := by
        have h1 : (r :: rs).flatten = ((r :: rs).take m).flatten ++ ((r :: rs).drop m).flatten := by
          rw [← List.flatten_append, hsplit]
        have h2 := List.take_append_drop (32 * m) (r :: rs).flatten
        rw [hd] at h2
        rw [h1] at h2
        have := List.append_cancel_right h2
        rw [← h1] at this
        exact this
      obtain ⟨gs, g1, g2, g3⟩ := ih ((r :: rs).drop m)
        (fun x hx => hl x (List.mem_of_mem_drop hx)) (by
          rw [← hd, List.length_drop]
          simp only [List.flatten_cons, List.length_append] at hf ⊢
          omega)
      refine ⟨(r :: rs).take m :: gs, ?_, ?_, ?_⟩
      · rw [chunksAux, if_neg hne, htk, hd, g1]
        rfl
      · rw [List.flatten_cons, g2, hsplit]
      · intro g hg
        rcases List.mem_cons.1 hg with h | h
        · subst h
          intro h
          have := congrArg List.length h
          simp at this
          omega
        · exact g3 g h

theorem flatten_len32 (g : List Bytes) (hl : Len32 g) : g.flatten.length = 32 * g.length := by
  induction g with
  | nil => rfl
  | cons r rs ih =>
    simp only [List.flatten_cons, List.length_append, List.length_cons]
    rw [hl r (by simp), ih (fun x hx => hl x (by simp [hx]))]
    omega

theorem estimate_le {B : Nat} {old : Option Bytes} {ors : List Bytes} (h : IsSorted B old ors) (ptr : List Bytes) :
    mergeEstimate old ptr ≤ ptr.length + ors.length + 2 ^ 26 := by
  unfold mergeEstimate
  cases old with
  | none => simp; omega
  | some F =>
    obtain ⟨bp0, hi, -⟩ := h
    obtain ⟨h1, h2, -, -, -, -⟩ := hi.facts
    have hH : 2 ^ (bp0.bb - 2) ≤ 2 ^ 26 := Nat.pow_le_pow_right (by omega) (by omega)
    simp only [index_len hi]
    omega

theorem mergeChunks_spec {B : Nat} (hB : B < 2 ^ 40) (gs : List (List Bytes)) (hl : ∀ g ∈ gs, Len32 g) (hne : ∀ g ∈ gs, g ≠ [])
    (old : Option Bytes) (ors : List Bytes) (ho : IsSorted B old ors)
    (hb : ors.length + gs.flatten.length + 2 ^ 26 ≤ B) :
    ∃ new rs, mergeChunks (gs.map List.flatten) old = .ok new ∧ IsSorted B new rs ∧
      (∀ r, r ∈ rs ↔ r ∈ ors ∨ r ∈ gs.flatten) ∧ rs.length ≤ ors.length + gs.flatten.length := by
  induction gs generalizing old ors with
  | nil => exact ⟨old, ors, rfl, ho, by simp, by simp⟩
  | cons g gs ih =>
    have hg := hl g (by simp)
    have hgl := flatten_len32 g hg
    obtain ⟨q3, q1, -, q4⟩ := qsortRecs_spec g hg
    have q2 : Len32 (qsortRecs g) := fun r hr => hg r ((q1 r).1 hr)
    have hchunk : chunksOf 32 g.flatten = g := chunksOf_flatten (by omega) g hg
    have hest := estimate_le ho (qsortRecs g)
    simp only [List.flatten_cons, List.length_append] at hb
    have hne' : qsortRecs g ≠ [] := by
      intro h
      have := congrArg List.length h
      rw [q4] at this
      exact hne g (by simp) (List.length_eq_zero_iff.1 this)
    obtain ⟨F, bp0, rs, m1, m2, m3, m4, m5⟩ := idxMerge_spec old ors
      (by cases old with
        | none => exact ho
        | some F => obtain ⟨bp0, h, -⟩ := ho; exact ⟨bp0, h⟩) (qsortRecs g) hne' q2 q3 (by rw [q4] at hest; omega)
    rw [q4] at m5
    obtain ⟨new, rs', n1, n2, n3, n4⟩ := ih (fun x hx => hl x (by simp [hx]))
      (fun x hx => hne x (by simp [hx])) (some F) rs ⟨bp0, m2, by rw [m3]; rw [q4] at hest; omega⟩ (by omega)
    refine ⟨new, rs', ?_, n2, ?_, ?_⟩
    · simp only [List.map_cons, mergeChunks, hgl]
      rw [show decide (32 * g.length % 32 = 0) = true by simp]
      simp only [Res.check_true, Res.ok_bind, hchunk, m1]
      exact n1
    · intro r
      rw [n3, m4, q1]
      simp [or_assoc]
    · simp only [List.flatten_cons, List.length_append]
      omega

theorem mergeFile_all {B : Nat} (hB : B < 2 ^ 40) (n : Nat) (hn : n % 32 = 0) (hn0 : 0 < n) (hs : List Bytes) (hl : Len32 hs)
    (old : Option Bytes) (ors : List Bytes) (ho : IsSorted B old ors)
    (hb : ors.length + hs.length + 2 ^ 26 ≤ B) :
    ∃ new rs, mergeChunks (chunksOf n hs.flatten) old = .ok new ∧ IsSorted B new rs ∧
      (∀ r, r ∈ rs ↔ r ∈ ors ∨ r ∈ hs) ∧ rs.length ≤ ors.length + hs.length := by
  obtain ⟨m, rfl⟩ : ∃ m, n = 32 * m := ⟨n / 32, by omega⟩
  obtain ⟨gs, g1, g2, g3⟩ := chunks_groups m (by omega) hs.flatten.length hs hl (Nat.le_refl _)
  have hl' : ∀ g ∈ gs, Len32 g := by
    intro g hg r hr
    exact hl r (by rw [← g2]; exact List.mem_flatten.2 ⟨g, hg, hr⟩)
  unfold chunksOf
  rw [g1]
  obtain ⟨new, rs, h1, h2, h3, h4⟩ := mergeChunks_spec hB gs hl' g3 old ors ho (by rw [g2]; exact hb)
  rw [g2] at h3 h4
  exact ⟨new, rs, h1, h2, h3, h4⟩

theorem GoodRec.len {r : Bytes} (h : GoodRec r) : r.length = 32 := h.1

/-- One call of `idx_attempt_merge` on any state. -/
theorem attemptMerge_spec {B : Nat} (hB : B < 2 ^ 40) (n : Nat) (hn : n % 32 = 0) (hn0 : 0 < n) (d : Dir) (rs as hs : List Bytes)
    (h : Good B d rs as hs) (hb : rs.length + as.length + hs.length + 2 ^ 26 ≤ B) :
    ∃ d' r rs' as' hs', attemptMerge n d = .ok (d', r) ∧ Good B d' rs' as' hs' ∧ d'.hold = d.hold ∧
      (∀ x, (x ∈ rs' ∨ x ∈ as' ∨ x ∈ hs') ↔ (x ∈ rs ∨ x ∈ as ∨ x ∈ hs)) ∧
      rs'.length + as'.length + hs'.length ≤ rs.length + as.length + hs.length ∧
      ((d.appendix = none ∧ r = 0 ∧ d' = d) ∨
       (d.appendix ≠ none ∧ d.housekeep = none ∧ r = 0 ∧ d'.appendix = none ∧ d'.housekeep = none) ∨
       (d.appendix ≠ none ∧ d.housekeep ≠ none ∧ r = 1 ∧ d'.appendix = d.appendix ∧ d'.housekeep = none)) := by
  obtain ⟨h1, h2, h3, h4⟩ := h
  rcases d with ⟨ds, da, dh, hold⟩
  simp only at h1 h2 h3 ⊢
  rcases h2 with ⟨rfl, rfl⟩ | rfl
  · exact ⟨⟨ds, none, dh, hold⟩, 0, rs, [], hs, rfl, ⟨h1, .inl ⟨rfl, rfl⟩, h3, h4⟩, rfl, by simp, by simp, by simp⟩
  · rcases h3 with ⟨rfl, rfl⟩ | rfl
    · obtain ⟨new, rs', m1, m2, m3, m4⟩ := mergeFile_all hB n hn hn0 as
        (fun r hr => (h4 r (.inr (.inl hr))).len) ds rs h1 (by omega)
      refine ⟨⟨new, none, none, hold⟩, 0, rs', [], [], ?_, ⟨m2, .inl ⟨rfl, rfl⟩, .inl ⟨rfl, rfl⟩, ?_⟩, rfl, ?_, ?_, ?_⟩
      · simp [attemptMerge, m1]
      · intro r hr
        simp only [List.not_mem_nil, or_false, m3] at hr
        exact h4 r (by tauto)
      · intro x; simp [m3]
      · simp; omega
      · simp
    · obtain ⟨new, rs', m1, m2, m3, m4⟩ := mergeFile_all hB n hn hn0 hs
        (fun r hr => (h4 r (.inr (.inr hr))).len) ds rs h1 (by omega)
      refine ⟨⟨new, some as.flatten, none, hold⟩, 1, rs', as, [], ?_, ⟨m2, .inr rfl, .inl ⟨rfl, rfl⟩, ?_⟩, rfl, ?_, ?_, ?_⟩
      · simp [attemptMerge, m1]
      · intro r hr
        simp only [List.not_mem_nil, or_false, m3] at hr
        exact h4 r (by tauto)
      · intro x; simp only [List.not_mem_nil, or_false, m3]; tauto
      · simp; omega
      · simp

theorem idxResort_spec {B : Nat} (hB : B < 2 ^ 40) (n : Nat) (hn : n % 32 = 0) (hn0 : 0 < n) (d : Dir) (rs as hs : List Bytes)
    (h : Good B d rs as hs) (hb : rs.length + as.length + hs.length + 2 ^ 26 ≤ B) :
    ∃ d' rs' as' hs', idxResort n d = .ok d' ∧ Good B d' rs' as' hs' ∧ d'.hold = d.hold ∧
      (∀ x, (x ∈ rs' ∨ x ∈ as' ∨ x ∈ hs') ↔ (x ∈ rs ∨ x ∈ as ∨ x ∈ hs)) ∧
      rs'.length + as'.length + hs'.length ≤ rs.length + as.length + hs.length ∧
      (d.hold = true → d' = d) ∧
      (d.hold = false → d.appendix = none → d' = d) ∧
      (d.hold = false → d.appendix ≠ none → d'.appendix = none ∧ d'.housekeep = none) := by
  unfold idxResort
  cases hh : d.hold with
  | true => exact ⟨d, rs, as, hs, by simp, h, by simp [hh], by simp, by simp, by simp, by simp, by simp⟩
  | false =>
    have hG : Good B { d with hold := true } rs as hs := ⟨h.1, h.2, h.3, h.4⟩
    obtain ⟨d1, r1, rs1, as1, hs1, a1, a2, a3, a4, a5, a6⟩ :=
      attemptMerge_spec hB n hn hn0 _ rs as hs hG hb
    simp only at a3 a6
    simp only [Bool.false_eq_true, if_false, resortLoop, a1, Res.ok_bind]
    rcases a6 with ⟨b1, rfl, b2⟩ | ⟨b1, b2, rfl, b3, b4⟩ | ⟨b1, b2, rfl, b3, b4⟩
    · refine ⟨{ d1 with hold := false }, rs1, as1, hs1, by simp, ⟨a2.1, a2.2, a2.3, a2.4⟩, rfl, a4, a5, by simp, ?_, ?_⟩
      · intro _ _
        rw [b2]
        cases d; simp_all
      · intro _ hc
        exact absurd b1 hc
    · refine ⟨{ d1 with hold := false }, rs1, as1, hs1, by simp, ⟨a2.1, a2.2, a2.3, a2.4⟩, rfl, a4, a5, by simp, ?_, ?_⟩
      · intro _ hc
        exact absurd hc b1
      · intro _ _
        exact ⟨b3, b4⟩
    · obtain ⟨d2, r2, rs2, as2, hs2, c1, c2, c3, c4, c5, c6⟩ :=
        attemptMerge_spec hB n hn hn0 _ rs1 as1 hs1 a2 (by omega)
      rcases c6 with ⟨e1, _, _⟩ | ⟨e1, e2, rfl, e3, e4⟩ | ⟨e1, e2, _⟩
      · exact absurd (b3 ▸ e1) b1
      · simp only [show (1 : Int) > 0 by decide, if_true, c1, Res.ok_bind]
        refine ⟨{ d2 with hold := false }, rs2, as2, hs2, by simp, ⟨c2.1, c2.2, c2.3, c2.4⟩, rfl, ?_, by omega, by simp, ?_, ?_⟩
        · intro x; rw [c4, a4]
        · intro _ hc
          exact absurd hc b1
        · intro _ _
          exact ⟨e3, e4⟩
      · exact absurd b4 e2

theorem idxInsert_spec {B : Nat} (d : Dir) (rs as hs : List Bytes) (h : Good B d rs as hs) (i : Ins) (hi : i.Valid) :
    ∃ d' r, idxInsert d i.id i.flags i.silo i.off i.cont = .ok d' ∧ Good B d' rs (as ++ [r]) hs ∧
      GoodRec r ∧ entryOf r = i.entry ∧ d' = { d with appendix := some (as ++ [r]).flatten } := by
  obtain ⟨r, r1, r2, r3⟩ := idxRecord_spec hi
  refine ⟨{ d with appendix := some (as ++ [r]).flatten }, r, ?_, ⟨h.1, .inr rfl, h.3, ?_⟩, r2, r3, rfl⟩
  · unfold idxInsert
    rw [r1]
    rcases h.2 with ⟨e, rfl⟩ | e
    · simp [e]
    · simp [e]
  · intro x hx
    rcases hx with hx | hx | hx
    · exact h.4 x (.inl hx)
    · rcases List.mem_append.1 hx with hx | hx
      · exact h.4 x (.inr (.inl hx))
      · simp only [List.mem_singleton] at hx
        rw [hx]; exact r2
    · exact h.4 x (.inr (.inr hx))

/-- Invariant of every history of inserts and housekeeping runs. -/
theorem runOps_spec {B : Nat} (hB : B < 2 ^ 40) (ops : List IdxOp) (hv : ∀ o ∈ ops, o.Valid) (d : Dir) (rs as hs : List Bytes)
    (h : Good B d rs as hs)
    (hb : rs.length + as.length + hs.length + (inserts ops).length + 2 ^ 26 ≤ B) :
    ∃ d' rs' as' hs', runOps d ops = .ok d' ∧ Good B d' rs' as' hs' ∧ d'.hold = d.hold ∧
      (∀ e, (∃ r, (r ∈ rs' ∨ r ∈ as' ∨ r ∈ hs') ∧ entryOf r = e) ↔
        (∃ r, (r ∈ rs ∨ r ∈ as ∨ r ∈ hs) ∧ entryOf r = e) ∨ ∃ i ∈ inserts ops, i.entry = e) ∧
      rs'.length + as'.length + hs'.length ≤
        rs.length + as.length + hs.length + (inserts ops).length := by
  induction ops generalizing d rs as hs with
  | nil => exact ⟨d, rs, as, hs, rfl, h, rfl, by simp [inserts], by simp [inserts]⟩
  | cons o os ih =>
    cases o with
    | insert i =>
      obtain ⟨d1, r, i1, i2, i3, i4, i5⟩ := idxInsert_spec d rs as hs h i (hv (.insert i) (by simp))
      simp only [inserts, List.length_cons] at hb
      obtain ⟨d', rs', as', hs', r1, r2, r3, r4, r5⟩ := ih (fun o ho => hv o (by simp [ho])) d1 rs (as ++ [r]) hs i2
        (by simp only [List.length_append, List.length_cons, List.length_nil]; omega)
      refine ⟨d', rs', as', hs', by simp [runOps, i1, r1], r2, by rw [r3, i5], ?_, ?_⟩
      · intro e
        rw [r4]
        simp only [inserts, List.mem_append, List.mem_cons, List.not_mem_nil, or_false]
        constructor
        · rintro (⟨x, (hx | (hx | rfl) | hx), rfl⟩ | ⟨j, hj, rfl⟩)
          · exact .inl ⟨x, .inl hx, rfl⟩
          · exact .inl ⟨x, .inr (.inl hx), rfl⟩
          · exact .inr ⟨i, .inl rfl, i4.symm⟩
          · exact .inl ⟨x, .inr (.inr hx), rfl⟩
          · exact .inr ⟨j, .inr hj, rfl⟩
        · rintro (⟨x, (hx | hx | hx), rfl⟩ | ⟨j, (rfl | hj), rfl⟩)
          · exact .inl ⟨x, .inl hx, rfl⟩
          · exact .inl ⟨x, .inr (.inl (.inl hx)), rfl⟩
          · exact .inl ⟨x, .inr (.inr hx), rfl⟩
          · exact .inl ⟨r, .inr (.inl (.inr rfl)), i4⟩
          · exact .inr ⟨j, hj, rfl⟩
      · simp only [List.length_append, List.length_cons, List.length_nil] at r5
        simp only [inserts, List.length_cons]
        omega
    | housekeep n =>
      obtain ⟨hn, hn0⟩ : n % 32 = 0 ∧ 0 < n := hv (.housekeep n) (by simp)
      simp only [inserts] at hb
      obtain ⟨d1, rs1, as1, hs1, s1, s2, s3, s4, s5, -⟩ := idxResort_spec hB n hn hn0 d rs as hs h (by omega)
      obtain ⟨d', rs', as', hs', r1, r2, r3, r4, r5⟩ := ih (fun o ho => hv o (by simp [ho])) d1 rs1 as1 hs1 s2
        (by omega)
      refine ⟨d', rs', as', hs', by simp [runOps, s1, r1], r2, by rw [r3, s3], ?_, ?_⟩
      · intro e
        rw [r4]
        simp only [inserts, s4]
      · simp only [inserts]; omega

/-- The loop over the files when the scan of each of them is known. -/
theorem idxFiles_deliver {σ : Type} (cl : Nat) (keyP : Bytes) (kp : Option Bytes)
    (f : σ → Entry → σ × Int) (fs : List ((Option Bytes × Bool) × List Entry))
    (h : ∀ x ∈ fs, (x.1.1 = none → x.2 = []) ∧ ∀ rest i s, idxFiles cl keyP kp f (x.1 :: rest) i s =
      (if x.1.1 = none then idxFiles cl keyP kp f rest i s else
        if (deliver f x.2 s).2 ≠ 0 then .ok (deliver f x.2 s)
        else idxFiles cl keyP kp f rest (deliver f x.2 s).2 (deliver f x.2 s).1)) (i : Int) (s : σ) :
    idxFiles cl keyP kp f (fs.map (·.1)) i s =
      .ok (if ∀ x ∈ fs, x.1.1 = none then (s, i) else deliver f (fs.map (·.2)).flatten s) := by
  induction fs generalizing i s with
  | nil => simp [idxFiles]
  | cons x fs ih =>
    obtain ⟨h1, h2⟩ := h x (by simp)
    rw [List.map_cons, h2]
    have ih' := ih (fun y hy => h y (by simp [hy]))
    by_cases hx : x.1.1 = none
    · rw [if_pos hx, ih', List.map_cons, List.flatten_cons, h1 hx, List.nil_append]
      have : (∀ y ∈ x :: fs, y.1.1 = none) ↔ ∀ y ∈ fs, y.1.1 = none := by simp [hx]
      simp only [this]
    · rw [if_neg hx, List.map_cons, List.flatten_cons, deliver_append]
      have : ¬ (∀ y ∈ x :: fs, y.1.1 = none) := fun hc => hx (hc x (by simp))
      rw [if_neg this]
      by_cases hr : (deliver f x.2 s).2 = 0
      · rw [if_neg (by simp [hr]), if_pos hr, ih']
        split
        · rename_i hnone
          have : (fs.map (·.2)).flatten = [] := by
            rw [List.flatten_eq_nil_iff]
            intro l hl
            obtain ⟨y, hy, rfl⟩ := List.mem_map.1 hl
            exact (h y (by simp [hy])).1 (hnone y hy)
          rw [this]
          simp [deliver, hr]
        · rfl
      · rw [if_pos hr, if_neg hr]

/-- What a lookup reports on any state, provided the seek in the sorted file is safe. -/
theorem idxIter_exact {B : Nat} {σ : Type} (d : Dir) (rs as hs : List Bytes) (h : Good B d rs as hs)
    (hb : rs.length ≤ 2 ^ 40) (kp : Option Bytes) (hhex : ∀ c ∈ kp.getD [], isHex c)
    (hn : ∀ F, d.sorted = some F → tblNrec F < 2 ^ 32)
    (hsafe : ∀ F, d.sorted = some F → SeekSafe F (kp.getD []) ∧
      (idKey (kp.getD []) / 2 ^ (64 - tblBits F) = 0 ∨ tblBits F ≤ 8 * (min (kp.getD []).length 24 / 2)))
    (f : σ → Entry → σ × Int) (s : σ) :
    ∃ r, idxIter d kp f s = .ok r ∧
      r.1 = (deliver f (((rs ++ as ++ hs).map entryOf).filter (Matches (kp.getD []))) s).1 ∧
      (r.2 = (deliver f (((rs ++ as ++ hs).map entryOf).filter (Matches (kp.getD []))) s).2 ∨
       (r.2 = -1 ∧ d.sorted = none ∧ d.appendix = none ∧ d.housekeep = none)) := by
  obtain ⟨keyP, k1, k2, k3⟩ := idxKeyBin_spec 12 (kp.getD []) hhex
  have hall : ((kp.getD []).all fun c => isHex c) = true := by
    rw [List.all_eq_true]; exact hhex
  unfold idxIter
  simp only [hall, decide_true, Res.check_true, Res.ok_bind, k1]
  -- scanning an unsorted file
  have happ : ∀ (o : Option Bytes) (xs : List Bytes), IsApp o xs → (∀ r ∈ xs, GoodRec r) →
      ∀ rest i s, idxFiles (min (kp.getD []).length 24) keyP kp f ((o, false) :: rest) i s =
        (if o = none then idxFiles (min (kp.getD []).length 24) keyP kp f rest i s else
          let r := deliver f ((xs.map entryOf).filter (Matches (kp.getD []))) s
          if r.2 ≠ 0 then .ok r else idxFiles (min (kp.getD []).length 24) keyP kp f rest r.2 r.1) := by
    intro o xs ho hg rest i s
    rcases ho with ⟨rfl, rfl⟩ | rfl
    · simp [idxFiles]
    · simp only [idxFiles, Bool.false_eq_true, if_false, Res.ok_bind, List.drop_zero]
      rw [chunksOf_flatten (by omega) xs (fun r hr => (hg r hr).len)]
      rw [idxScan_unsorted f kp keyP k3 xs hg s]
      simp
  have hsrt : ∀ rest i s, idxFiles (min (kp.getD []).length 24) keyP kp f ((d.sorted, true) :: rest) i s =
        (if d.sorted = none then idxFiles (min (kp.getD []).length 24) keyP kp f rest i s else
          let r := deliver f ((rs.map entryOf).filter (Matches (kp.getD []))) s
          if r.2 ≠ 0 then .ok r else idxFiles (min (kp.getD []).length 24) keyP kp f rest r.2 r.1) := by
    intro rest i s
    have hs' := h.sorted
    cases hd : d.sorted with
    | none => simp [idxFiles]
    | some F =>
      rw [hd] at hs'
      obtain ⟨bp0, hi, -⟩ := hs'
      obtain ⟨t1, t2⟩ := hi.tbl
      have hn' := hn F hd
      rw [t2] at hn'
      obtain ⟨s1, s2⟩ := hsafe F hd
      rw [t1, idKey_eq k3] at s2
      obtain ⟨pos, p1, p2⟩ := sortedFile_exact hi (by omega) hn' (fun r hr => h.4 r (.inl hr)) kp keyP hhex k1
        s1 s2 f s
      simp only [idxFiles, if_true, p1, Res.ok_bind, p2]
      simp
  have hrs : d.sorted = none → rs = [] := by
    intro hd
    have := h.sorted
    rw [hd] at this
    exact this
  have has : d.appendix = none → as = [] := by
    intro hd
    have := h.app
    rw [hd] at this
    simpa [IsApp] using this
  have hhs : d.housekeep = none → hs = [] := by
    intro hd
    have := h.hk
    rw [hd] at this
    simpa [IsApp] using this
  have key := idxFiles_deliver (min (kp.getD []).length 24) keyP kp f
    [((d.sorted, true), (rs.map entryOf).filter (Matches (kp.getD []))),
     ((d.appendix, false), (as.map entryOf).filter (Matches (kp.getD []))),
     ((d.housekeep, false), (hs.map entryOf).filter (Matches (kp.getD [])))]
    (by
      intro x hx
      simp only [List.mem_cons, List.not_mem_nil, or_false] at hx
      rcases hx with rfl | rfl | rfl
      · exact ⟨fun hd => by rw [hrs hd]; rfl, fun rest i s => hsrt rest i s⟩
      · exact ⟨fun hd => by rw [has hd]; rfl,
          fun rest i s => happ d.appendix as h.app (fun r hr => h.4 r (.inr (.inl hr))) rest i s⟩
      · exact ⟨fun hd => by rw [hhs hd]; rfl,
          fun rest i s => happ d.housekeep hs h.hk (fun r hr => h.4 r (.inr (.inr hr))) rest i s⟩)
    (-1) s
  simp only [List.map_cons, List.map_nil] at key
  rw [key]
  refine ⟨_, rfl, ?_⟩
  have hflat : ([(rs.map entryOf).filter (Matches (kp.getD [])), (as.map entryOf).filter (Matches (kp.getD [])),
      (hs.map entryOf).filter (Matches (kp.getD []))] : List (List Entry)).flatten =
      ((rs ++ as ++ hs).map entryOf).filter (Matches (kp.getD [])) := by
    simp [List.append_assoc]
  rw [hflat]
  split
  · rename_i hnone
    simp only [List.mem_cons, List.not_mem_nil, or_false, forall_eq_or_imp, forall_eq] at hnone
    obtain ⟨n1, n2, n3⟩ := hnone
    rw [hrs n1, has n2, hhs n3]
    simp [deliver, n1, n2, n3]
  · simp

end Verif.Index
