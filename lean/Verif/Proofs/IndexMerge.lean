import Verif.Proofs.IndexScan

namespace Verif.Index
open Verif Spec

abbrev Sorted (rs : List Bytes) : Prop := rs.Pairwise fun a b => beDec a ≤ beDec b

def Len32 (rs : List Bytes) : Prop := ∀ r ∈ rs, r.length = 32

theorem Len32.append {a b : List Bytes} : Len32 (a ++ b) ↔ Len32 a ∧ Len32 b := by
  simp only [Len32, List.mem_append]
  constructor
  · intro h; exact ⟨fun r hr => h r (.inl hr), fun r hr => h r (.inr hr)⟩
  · rintro ⟨h1, h2⟩ r (hr | hr)
    · exact h1 r hr
    · exact h2 r hr

/-- The table after the records `out` have been written in this order. -/
def build (bp0 : Bucket) (out : List Bytes) : Bucket :=
  out.zipIdx.foldl (fun bp p => bucketUpdate bp p.2 p.1) bp0

theorem build_snoc (bp0 : Bucket) (out : List Bytes) (r : Bytes) :
    build bp0 (out ++ [r]) = bucketUpdate (build bp0 out) out.length r := by
  simp [build, List.zipIdx_append]

structure StOk (bp0 : Bucket) (st : MergeSt) : Prop where
  n : st.n = st.out.length
  bp : st.bp = build bp0 st.out

theorem StOk.emit {bp0 : Bucket} {st : MergeSt} (h : StOk bp0 st) (r : Bytes) :
    StOk bp0 (mergeEmit st r) := by
  constructor
  · simp [mergeEmit, h.n]
  · simp [mergeEmit, build_snoc, h.bp, h.n]

theorem foldl_emit {bp0 : Bucket} (ptr : List Bytes) {st : MergeSt} (h : StOk bp0 st) :
    StOk bp0 (ptr.foldl mergeEmit st) ∧ (ptr.foldl mergeEmit st).out = st.out ++ ptr := by
  induction ptr generalizing st with
  | nil => simp [h]
  | cons p ps ih =>
    have := ih (h.emit p)
    simp only [List.foldl_cons]
    refine ⟨this.1, ?_⟩
    rw [this.2]
    simp [mergeEmit]

theorem mergeBelow_spec {bp0 : Bucket} {rec : Bytes} (hrec : rec.length = 32) (ptr : List Bytes)
    (hl : Len32 ptr) (hs : Sorted ptr) {st : MergeSt} (h : StOk bp0 st) :
    ∃ taken ptr' st', mergeBelow rec ptr st = (ptr', st') ∧ ptr = taken ++ ptr' ∧
      st'.out = st.out ++ taken ∧ StOk bp0 st' ∧ (∀ x ∈ taken, beDec x < beDec rec) ∧
      (∀ x ∈ ptr', beDec rec ≤ beDec x) := by
  induction ptr generalizing st with
  | nil => exact ⟨[], [], st, rfl, rfl, by simp, h, by simp, by simp⟩
  | cons p ps ih =>
    have hp : p.length = 32 := hl p (by simp)
    have hs' := List.pairwise_cons.1 hs
    unfold mergeBelow
    by_cases hgt : memcmp rec p = .gt
    · rw [if_pos hgt]
      obtain ⟨taken, ptr', st', h1, h2, h3, h4, h5, h6⟩ :=
        ih (fun x hx => hl x (by simp [hx])) hs'.2 (h.emit p)
      refine ⟨p :: taken, ptr', st', h1, by simp [h2], ?_, h4, ?_, h6⟩
      · rw [h3]; simp [mergeEmit]
      · intro x hx
        rcases List.mem_cons.1 hx with rfl | hx
        · exact (memcmp_eq_gt (by omega)).1 hgt
        · exact h5 x hx
    · rw [if_neg hgt]
      refine ⟨[], p :: ps, st, rfl, rfl, by simp, h, by simp, ?_⟩
      have h1 : beDec rec ≤ beDec p := by
        have := mt (memcmp_eq_gt (a := rec) (b := p) (by omega)).2 hgt
        omega
      intro x hx
      rcases List.mem_cons.1 hx with rfl | hx
      · exact h1
      · exact Nat.le_trans h1 (hs'.1 x hx)

theorem mergeSkip_spec {rec : Bytes} (hrec : rec.length = 32) (ptr : List Bytes) (hl : Len32 ptr) :
    ∃ sk, ptr = sk ++ mergeSkip rec ptr ∧ (∀ x ∈ sk, x = rec) := by
  induction ptr with
  | nil => exact ⟨[], rfl, by simp⟩
  | cons p ps ih =>
    obtain ⟨sk, h1, h2⟩ := ih (fun x hx => hl x (by simp [hx]))
    have hp : p.length = 32 := hl p (by simp)
    unfold mergeSkip
    by_cases heq : memcmp rec p = .eq
    · rw [if_pos heq]
      refine ⟨p :: sk, ?_, ?_⟩
      · rw [List.cons_append, ← h1]
      · intro x hx
        rcases List.mem_cons.1 hx with rfl | hx
        · exact ((memcmp_eq_eq (by omega)).1 heq).symm
        · exact h2 x hx
    · rw [if_neg heq]
      exact ⟨[], rfl, by simp⟩

theorem mergeOld_spec {bp0 : Bucket} (old : List Bytes) (hol : Len32 old) (hos : Sorted old)
    (recl : Bytes) (hrl : recl.length = 32) (hrecl : ∀ r ∈ old, beDec recl ≤ beDec r)
    (ptr : List Bytes) (hl : Len32 ptr) (hs : Sorted ptr) {st : MergeSt} (h : StOk bp0 st)
    (hso : Sorted st.out) (hle : ∀ x ∈ st.out, ∀ y ∈ old ++ ptr, beDec x ≤ beDec y) :
    ∃ ptr' st', mergeOld old recl ptr st = .ok (ptr', st') ∧ StOk bp0 st' ∧ Sorted (st'.out ++ ptr') ∧
      (∀ r, r ∈ st'.out ++ ptr' ↔ r ∈ st.out ∨ r ∈ old ∨ r ∈ ptr) ∧
      (st'.out ++ ptr').length ≤ st.out.length + old.length + ptr.length := by
  induction old generalizing recl ptr st with
  | nil =>
    refine ⟨ptr, st, rfl, h, ?_, by simp, by simp⟩
    rw [Sorted, List.pairwise_append]
    exact ⟨hso, hs, fun x hx y hy => hle x hx y (by simpa using hy)⟩
  | cons rec old ih =>
    have hrec : rec.length = 32 := hol rec (by simp)
    have hos' := List.pairwise_cons.1 hos
    unfold mergeOld
    have hnl : memcmp rec recl ≠ .lt := by
      intro hc
      have := (memcmp_eq_lt (by omega)).1 hc
      have := hrecl rec (by simp)
      omega
    rw [if_neg hnl]
    obtain ⟨taken, ptr1, st1, e1, e2, e3, e4, e5, e6⟩ := mergeBelow_spec hrec ptr hl hs h
    rw [e1]
    simp only
    have hl1 : Len32 ptr1 := by rw [e2, Len32.append] at hl; exact hl.2
    have hs1 : Sorted ptr1 := by rw [e2, Sorted, List.pairwise_append] at hs; exact hs.2.1
    have hst : Sorted taken := by rw [e2, Sorted, List.pairwise_append] at hs; exact hs.1
    obtain ⟨sk, k1, k2⟩ := mergeSkip_spec hrec ptr1 hl1
    have hl2 : Len32 (mergeSkip rec ptr1) := by rw [k1, Len32.append] at hl1; exact hl1.2
    have hs2 : Sorted (mergeSkip rec ptr1) := by
      rw [k1, Sorted, List.pairwise_append] at hs1; exact hs1.2.1
    have hsub : ∀ x ∈ mergeSkip rec ptr1, x ∈ ptr1 := by
      intro x hx; rw [k1]; simp [hx]
    have hsub1 : ∀ x ∈ ptr1, x ∈ ptr := by intro x hx; rw [e2]; simp [hx]
    have hsubt : ∀ x ∈ taken, x ∈ ptr := by intro x hx; rw [e2]; simp [hx]
    have hout : (mergeEmit st1 rec).out = st.out ++ (taken ++ [rec]) := by
      simp [mergeEmit, e3]
    have hso' : Sorted (mergeEmit st1 rec).out := by
      rw [hout, Sorted, List.pairwise_append]
      refine ⟨hso, ?_, ?_⟩
      · rw [List.pairwise_append]
        refine ⟨hst, by simp, ?_⟩
        intro x hx y hy
        simp at hy; subst hy
        exact Nat.le_of_lt (e5 x hx)
      · intro x hx y hy
        rcases List.mem_append.1 hy with hy | hy
        · exact hle x hx y (by simp [hsubt y hy])
        · simp at hy; subst hy; exact hle x hx _ (by simp)
    have hle' : ∀ x ∈ (mergeEmit st1 rec).out, ∀ y ∈ old ++ mergeSkip rec ptr1,
        beDec x ≤ beDec y := by
      intro x hx y hy
      rw [hout] at hx
      have hy2 : beDec rec ≤ beDec y := by
        rcases List.mem_append.1 hy with hy | hy
        · exact hos'.1 y hy
        · exact e6 y (hsub y hy)
      have hx2 : beDec x ≤ beDec rec := by
        rcases List.mem_append.1 hx with hx | hx
        · exact hle x hx rec (by simp)
        · rcases List.mem_append.1 hx with hx | hx
          · exact Nat.le_of_lt (e5 x hx)
          · simp at hx; subst hx; exact Nat.le_refl _
      omega
    obtain ⟨ptr', st', g1, g2, g3, g4, g5⟩ :=
      ih (fun x hx => hol x (by simp [hx])) hos'.2 rec hrec hos'.1 (mergeSkip rec ptr1) hl2 hs2
        (e4.emit rec) hso' hle'
    refine ⟨ptr', st', g1, g2, g3, ?_, ?_⟩
    · intro r
      rw [g4 r, hout]
      simp only [List.mem_append, List.mem_cons, List.not_mem_nil, or_false, e2]
      constructor
      · rintro ((h | h | h) | h | h)
        · exact .inl h
        · exact .inr (.inr (.inl h))
        · exact .inr (.inl (.inl h))
        · exact .inr (.inl (.inr h))
        · exact .inr (.inr (.inr (hsub r h)))
      · rintro (h | (h | h) | h | h)
        · exact .inl (.inl h)
        · exact .inl (.inr (.inr h))
        · exact .inr (.inl h)
        · exact .inl (.inr (.inl h))
        · rw [k1] at h
          rcases List.mem_append.1 h with h | h
          · exact .inl (.inr (.inr (k2 r h)))
          · exact .inr (.inr h)
    · have a1 := congrArg List.length e2
      have a2 := congrArg List.length k1
      rw [hout] at g5
      simp only [List.length_append, List.length_cons, List.length_nil] at *
      omega

/-! ### The bucket table -/

theorem bbLoop_bounds (nrec fuel b : Nat) : b ≤ bbLoop nrec fuel b ∧ bbLoop nrec fuel b ≤ b + fuel := by
  induction fuel generalizing b with
  | zero => simp [bbLoop]
  | succ fuel ih =>
    unfold bbLoop
    split
    · have := ih (b + 1); omega
    · omega

/-- The loop has enough fuel: the result is a power of two that is not below `nrec`. -/
theorem bbLoop_enough (nrec fuel b : Nat) (h : nrec ≤ 2 ^ (b + fuel)) : nrec ≤ 2 ^ bbLoop nrec fuel b := by
  induction fuel generalizing b with
  | zero => simpa [bbLoop] using h
  | succ fuel ih =>
    unfold bbLoop
    split
    · exact ih (b + 1) (by rw [show b + 1 + fuel = b + (fuel + 1) by omega]; exact h)
    · omega

theorem bucketNew_ok {nrec : Nat} (h : nrec < 2 ^ 40) :
    ∃ bp, bucketNew nrec = .ok bp ∧ bp.nrec = nrec ∧ 2 ≤ bp.bb ∧ bp.bb ≤ 28 ∧
      bp.buckets = List.replicate (2 ^ bp.bb) (2 ^ 31) := by
  have hb := bbLoop_bounds nrec 26 14
  refine ⟨{ bb := bbLoop nrec 26 14 - 12, nrec := nrec,
            buckets := List.replicate (2 ^ (bbLoop nrec 26 14 - 12)) (2 ^ 31) }, ?_, rfl, ?_, ?_, rfl⟩
  · unfold bucketNew
    simp [h]
  · simp only; omega
  · simp only; omega

theorem bucketNew_fail {nrec : Nat} (h : ¬ nrec < 2 ^ 40) : bucketNew nrec = .fail := by
  unfold bucketNew
  simp [h]

theorem bucketUpdate_bb (bp : Bucket) (n : Nat) (r : Bytes) : (bucketUpdate bp n r).bb = bp.bb := by
  unfold bucketUpdate; simp only; split <;> rfl

theorem bucketUpdate_nrec (bp : Bucket) (n : Nat) (r : Bytes) : (bucketUpdate bp n r).nrec = bp.nrec := by
  unfold bucketUpdate; simp only; split <;> rfl

theorem bucketUpdate_len (bp : Bucket) (n : Nat) (r : Bytes) :
    (bucketUpdate bp n r).buckets.length = bp.buckets.length := by
  unfold bucketUpdate; simp only; split <;> simp

theorem build_shape (bp0 : Bucket) (out : List Bytes) :
    (build bp0 out).bb = bp0.bb ∧ (build bp0 out).nrec = bp0.nrec ∧
    (build bp0 out).buckets.length = bp0.buckets.length := by
  unfold build
  generalize out.zipIdx = l
  induction l generalizing bp0 with
  | nil => simp
  | cons p ps ih =>
    simp only [List.foldl_cons]
    have := ih (bucketUpdate bp0 p.2 p.1)
    rw [bucketUpdate_bb, bucketUpdate_nrec, bucketUpdate_len] at this
    exact this

/-- What a sorted index file looks like: a table built from the records, then the records. -/
structure IsIndex (F : Bytes) (bp0 : Bucket) (rs : List Bytes) : Prop where
  file : F = bucketBytes (build bp0 rs) ++ rs.flatten
  new : bucketNew bp0.nrec = .ok bp0
  len : Len32 rs
  sorted : Sorted rs

theorem bucketBytes_length (bp : Bucket) : (bucketBytes bp).length = 8 * bp.buckets.length := by
  unfold bucketBytes
  rw [length_le_flatten (k := 8) (by omega)]
  · simp
  · intro r hr
    rw [List.mem_map] at hr
    obtain ⟨w, _, rfl⟩ := hr
    simp

theorem IsIndex.facts {F : Bytes} {bp0 : Bucket} {rs : List Bytes} (h : IsIndex F bp0 rs) :
    2 ≤ bp0.bb ∧ bp0.bb ≤ 28 ∧ bp0.nrec < 2 ^ 40 ∧ bp0.buckets = List.replicate (2 ^ bp0.bb) (2 ^ 31) ∧
    (bucketBytes (build bp0 rs)).length = 2 ^ (bp0.bb + 3) ∧ F.length = 2 ^ (bp0.bb + 3) + 32 * rs.length := by
  have hn : bp0.nrec < 2 ^ 40 := by
    apply Decidable.byContradiction
    intro hc
    have := bucketNew_fail hc
    rw [h.new] at this
    cases this
  obtain ⟨bp, h1, h2, h3, h4, h5⟩ := bucketNew_ok hn
  have : bp0 = bp := by
    have := h.new.symm.trans h1
    cases this; rfl
  subst this
  have hb : (bucketBytes (build bp0 rs)).length = 2 ^ (bp0.bb + 3) := by
    rw [bucketBytes_length, (build_shape bp0 rs).2.2, h5]
    simp [Nat.pow_add]; omega
  refine ⟨h3, h4, hn, h5, hb, ?_⟩
  rw [h.file, List.length_append, hb, length_le_flatten (k := 32) (by omega) rs h.len]

theorem ofInt64_nat {n : Nat} (h : n < 2 ^ 64) : ofInt64 (n : Int) = n := by
  unfold ofInt64
  have e : ((2 : Int) ^ 64) = ((2 ^ 64 : Nat) : Int) := by decide
  rw [e, ← Int.natCast_emod, Int.toNat_natCast]
  exact Nat.mod_eq_of_lt h

/-- Word zero of the file. -/
theorem IsIndex.word0 {F : Bytes} {bp0 : Bucket} {rs : List Bytes} (h : IsIndex F bp0 rs) :
    8 ≤ F.length ∧ beDec (F.take 8) = INDEX_ID * 2 ^ 48 + bp0.bb * 2 ^ 40 + bp0.nrec := by
  obtain ⟨h1, h2, h3, h4, h5, h6⟩ := h.facts
  have hp : 2 ^ 3 ≤ 2 ^ (bp0.bb + 3) := Nat.pow_le_pow_right (by omega) (by omega)
  refine ⟨by omega, ?_⟩
  have hs := build_shape bp0 rs
  have hlen : (build bp0 rs).buckets.length = 2 ^ bp0.bb := by rw [hs.2.2, h4]; simp
  have hw : bucketWord0 (build bp0 rs) = ((INDEX_ID * 2 ^ 48 + bp0.bb * 2 ^ 40 + bp0.nrec : Nat) : Int) := by
    unfold bucketWord0; rw [hs.1, hs.2.1]
  have hpos : 0 < 2 ^ bp0.bb := Nat.pow_pos (by omega)
  have htk : F.take 8 = beEnc 8 (ofInt64 (bucketWord0 (build bp0 rs))) := by
    rw [h.file]
    unfold bucketBytes
    cases hbk : (build bp0 rs).buckets with
    | nil => rw [hbk] at hlen; simp at hlen; omega
    | cons w ws =>
      simp only [List.set_cons_zero, List.map_cons, List.flatten_cons, List.append_assoc]
      exact take_app (by simp)
  have hlt : INDEX_ID * 2 ^ 48 + bp0.bb * 2 ^ 40 + bp0.nrec < 2 ^ 64 := by
    unfold INDEX_ID; omega
  rw [htk, beDec_beEnc, hw, ofInt64_nat hlt, show 256 ^ 8 = 2 ^ 64 by decide]
  exact Nat.mod_eq_of_lt hlt

theorem IsIndex.skip {F : Bytes} {bp0 : Bucket} {rs : List Bytes} (h : IsIndex F bp0 rs) :
    bucketSkip F = .ok (2 ^ (bp0.bb + 3)) ∧ F.drop (2 ^ (bp0.bb + 3)) = rs.flatten := by
  obtain ⟨h1, h2, h3, h4, h5, h6⟩ := h.facts
  obtain ⟨w1, w2⟩ := h.word0
  constructor
  · unfold bucketSkip
    rw [w2]
    have e1 : (INDEX_ID * 2 ^ 48 + bp0.bb * 2 ^ 40 + bp0.nrec) / 2 ^ 48 = INDEX_ID := by
      unfold INDEX_ID; omega
    have e2 : (INDEX_ID * 2 ^ 48 + bp0.bb * 2 ^ 40 + bp0.nrec) / 2 ^ 40 % 256 = bp0.bb := by
      unfold INDEX_ID; omega
    simp [w1, e1, e2]
  · rw [h.file, drop_app h5]

theorem freadRecs_flatten (rs : List Bytes) (h : Len32 rs) : freadRecs rs.flatten = rs := by
  unfold freadRecs
  rw [chunksOf_flatten (by omega) rs h, List.filter_eq_self]
  intro r hr
  simpa using h r hr

/-- `idx_merge` on a sorted buffer: the new file is an index of exactly the old and new records. -/
theorem idxMerge_spec (old : Option Bytes) (ors : List Bytes)
    (hold : match old with | none => ors = [] | some F => ∃ bp0, IsIndex F bp0 ors)
    (ptr : List Bytes) (hne : ptr ≠ []) (hl : Len32 ptr) (hs : Sorted ptr)
    (hest : mergeEstimate old ptr < 2 ^ 40) :
    ∃ F bp0 rs, idxMerge old ptr = .ok F ∧ IsIndex F bp0 rs ∧ bp0.nrec = mergeEstimate old ptr ∧
      (∀ r, r ∈ rs ↔ r ∈ ors ∨ r ∈ ptr) ∧ rs.length ≤ ors.length + ptr.length := by
  obtain ⟨bp0, n1, n2, n3, n4, n5⟩ := bucketNew_ok hest
  have hst0 : StOk bp0 { bp := bp0, n := 0, out := [] } := ⟨rfl, rfl⟩
  have hfile : ∃ ptr' st', mergeFile old ptr { bp := bp0, n := 0, out := [] } = .ok (ptr', st') ∧
      StOk bp0 st' ∧ Sorted (st'.out ++ ptr') ∧
      (∀ r, r ∈ st'.out ++ ptr' ↔ r ∈ ors ∨ r ∈ ptr) ∧
      (st'.out ++ ptr').length ≤ ors.length + ptr.length := by
    cases old with
    | none =>
      simp only at hold
      subst hold
      exact ⟨ptr, _, rfl, hst0, by simpa using hs, by simp, by simp⟩
    | some F =>
      obtain ⟨bpo, hi⟩ := hold
      obtain ⟨ptr', st', g1, g2, g3, g4, g5⟩ := mergeOld_spec (bp0 := bp0) ors hi.len hi.sorted
        (List.replicate 32 0) (by simp)
        (by
          intro r _
          have : beDec (List.replicate 32 0) = 0 := by decide
          omega) ptr hl hs hst0 (by simp) (by simp)
      refine ⟨ptr', st', ?_, g2, g3, ?_, by simpa using g5⟩
      · simp only [mergeFile]
        rw [hi.skip.1]
        simp only [Res.ok_bind]
        rw [hi.skip.2, freadRecs_flatten ors hi.len, g1]
      · intro r; rw [g4 r]; simp
  obtain ⟨ptr', st', g1, g2, g3, g4, g5⟩ := hfile
  have hf := foldl_emit ptr' g2
  refine ⟨bucketBytes (ptr'.foldl mergeEmit st').bp ++ (ptr'.foldl mergeEmit st').out.flatten,
    bp0, st'.out ++ ptr', ?_, ?_, n2, g4, g5⟩
  · unfold idxMerge
    have : 0 < ptr.length := List.length_pos_iff.2 hne
    simp only [this, decide_true, Res.check_true, Res.ok_bind, n1, g1]
    rfl
  · refine ⟨?_, by rw [n2]; exact n1, ?_, g3⟩
    · rw [hf.1.bp, hf.2]
    · intro r hr
      rcases (g4 r).1 hr with h | h
      · cases old with
        | none => simp only at hold; subst hold; simp at h
        | some F => obtain ⟨bpo, hi⟩ := hold; exact hi.len r h
      · exact hl r h

/-! ### qsort -/

theorem recInsert_mem (r : Bytes) (l : List Bytes) (x : Bytes) : x ∈ recInsert r l ↔ x = r ∨ x ∈ l := by
  induction l with
  | nil => simp [recInsert]
  | cons y ys ih =>
    unfold recInsert
    split
    · simp only [List.mem_cons, ih]
      constructor
      · rintro (h | h | h) <;> simp [h]
      · rintro (h | h | h) <;> simp [h]
    · simp

theorem recInsert_sorted (r : Bytes) (hr : r.length = 32) (l : List Bytes) (hl : Len32 l) (hs : Sorted l) :
    Sorted (recInsert r l) := by
  induction l with
  | nil => simp [recInsert, Sorted]
  | cons y ys ih =>
    have hs' := List.pairwise_cons.1 hs
    have hy : y.length = 32 := hl y (by simp)
    unfold recInsert
    split
    · rename_i hgt
      have := (memcmp_eq_gt (by omega)).1 hgt
      rw [Sorted, List.pairwise_cons]
      refine ⟨?_, ih (fun x hx => hl x (by simp [hx])) hs'.2⟩
      intro x hx
      rw [recInsert_mem] at hx
      rcases hx with rfl | hx
      · omega
      · exact hs'.1 x hx
    · rename_i hgt
      have h1 := mt (memcmp_eq_gt (a := r) (b := y) (by omega)).2 hgt
      rw [Sorted, List.pairwise_cons]
      refine ⟨?_, hs⟩
      intro x hx
      rcases List.mem_cons.1 hx with rfl | hx
      · omega
      · have := hs'.1 x hx; omega

theorem recInsert_length (r : Bytes) (l : List Bytes) : (recInsert r l).length = l.length + 1 := by
  induction l with
  | nil => rfl
  | cons y ys ih => unfold recInsert; split <;> simp [ih]

theorem qsortRecs_spec (l : List Bytes) (hl : Len32 l) :
    Sorted (qsortRecs l) ∧ (∀ x, x ∈ qsortRecs l ↔ x ∈ l) ∧ Len32 (qsortRecs l) ∧
    (qsortRecs l).length = l.length := by
  induction l with
  | nil => simp [qsortRecs, Sorted, Len32]
  | cons r rs ih =>
    obtain ⟨h1, h2, h3, h4⟩ := ih (fun x hx => hl x (by simp [hx]))
    have hm : ∀ x, x ∈ qsortRecs (r :: rs) ↔ x ∈ r :: rs := by
      intro x; simp [qsortRecs, recInsert_mem, h2]
    refine ⟨recInsert_sorted r (hl r (by simp)) _ h3 h1, hm, ?_, ?_⟩
    · intro x hx; exact hl x ((hm x).1 hx)
    · simp [qsortRecs, recInsert_length, h4]

end Verif.Index
