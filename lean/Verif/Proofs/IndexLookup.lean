import Verif.Proofs.IndexMerge

namespace Verif.Index
open Verif Spec

/-! ### Signed/unsigned conversion -/

theorem toInt64_of_emod {n : Nat} {x : Int} (h1 : -(2 ^ 63 : Int) ≤ x) (h2 : x < (2 ^ 63 : Int))
    (h : (n : Int) % 2 ^ 64 = x % 2 ^ 64) : toInt64 n = x := by
  unfold toInt64
  have e : ((2 : Int) ^ 64) = 18446744073709551616 := by decide
  have e3 : ((2 : Int) ^ 63) = 9223372036854775808 := by decide
  have e2 : ((2 : Nat) ^ 64) = 18446744073709551616 := by decide
  have e4 : ((2 : Nat) ^ 63) = 9223372036854775808 := by decide
  rw [e] at *
  rw [e3] at *
  rw [e2, e4]
  split <;> omega

theorem ofInt64_emod (x : Int) : ((ofInt64 x : Nat) : Int) = x % 2 ^ 64 := by
  unfold ofInt64
  have : 0 ≤ x % 2 ^ 64 := Int.emod_nonneg _ (by decide)
  omega

theorem toInt64_ofInt64 {x : Int} (h1 : -(2 ^ 63 : Int) ≤ x) (h2 : x < (2 ^ 63 : Int)) :
    toInt64 (ofInt64 x) = x := by
  apply toInt64_of_emod h1 h2
  rw [ofInt64_emod, Int.emod_emod_of_dvd _ (Int.dvd_refl _)]

theorem toInt64_add_ofInt64 {u : Nat} {x : Int} (h1 : -(2 ^ 63 : Int) ≤ u + x) (h2 : u + x < (2 ^ 63 : Int)) :
    toInt64 (u + ofInt64 x) = u + x := by
  apply toInt64_of_emod h1 h2
  rw [Int.natCast_add, ofInt64_emod]
  simp

theorem add_ofInt64_mod {u : Nat} {x : Int} (h1 : 0 ≤ u + x) (h2 : u + x < (2 ^ 63 : Int)) :
    (((u + ofInt64 x) % 2 ^ 64 : Nat) : Int) = u + x := by
  rw [Int.natCast_emod, Int.natCast_add, ofInt64_emod]
  have e : (((2 : Nat) ^ 64 : Nat) : Int) = 2 ^ 64 := by decide
  rw [e]
  simp only [Int.add_emod_emod]
  have e : ((2 : Int) ^ 64) = 18446744073709551616 := by decide
  have e3 : ((2 : Int) ^ 63) = 9223372036854775808 := by decide
  rw [e]; rw [e3] at h2
  omega

/-! ### Keys, buckets, predictions -/

/-- The leading 64 bits of a record or key. -/
def key64 (r : Bytes) : Nat := beDec (r.take 8)

/-- Bucket number. -/
def bkt (bb k : Nat) : Nat := k / 2 ^ (64 - bb)

/-- Predicted record number. -/
def prd (nrec k : Nat) : Nat := k / 2 ^ 40 * nrec / 2 ^ 24

theorem key64_lt (r : Bytes) : key64 r < 2 ^ 64 := by
  have h := beDec_lt (r.take 8)
  have : (r.take 8).length ≤ 8 := by simp; omega
  have h2 : 256 ^ (r.take 8).length ≤ 256 ^ 8 := Nat.pow_le_pow_right (by omega) this
  have e : 256 ^ 8 = 2 ^ 64 := by decide
  unfold key64
  omega

theorem key64_mono {a b : Bytes} (ha : a.length = 32) (hb : b.length = 32)
    (h : beDec a ≤ beDec b) : key64 a ≤ key64 b := take_mono ha hb 8 h

theorem prd_mono {nrec a b : Nat} (h : a ≤ b) : prd nrec a ≤ prd nrec b := by
  unfold prd
  exact Nat.div_le_div_right (Nat.mul_le_mul_right _ (Nat.div_le_div_right h))

theorem prd_lt {nrec k : Nat} (hk : k < 2 ^ 64) (hn : nrec < 2 ^ 40) :
    k / 2 ^ 40 * nrec < 2 ^ 64 ∧ prd nrec k < 2 ^ 40 := by
  have h1 : k / 2 ^ 40 < 2 ^ 24 := by omega
  have h2 : k / 2 ^ 40 * nrec ≤ (2 ^ 24 - 1) * nrec := Nat.mul_le_mul_right _ (by omega)
  have h3 : k / 2 ^ 40 * nrec < 2 ^ 64 := by omega
  refine ⟨h3, ?_⟩
  unfold prd
  omega

theorem bkt_lt {bb k : Nat} (hk : k < 2 ^ 64) (hb : bb ≤ 64) : bkt bb k < 2 ^ bb := by
  unfold bkt
  rw [Nat.div_lt_iff_lt_mul (Nat.pow_pos (by omega)), ← Nat.pow_add]
  rwa [show bb + (64 - bb) = 64 by omega]

theorem bucketUpdate_eq {bp : Bucket} {n : Nat} {r : Bytes} (hn : bp.nrec < 2 ^ 40) :
    bucketUpdate bp n r =
      if bkt bp.bb (key64 r) > 0 ∧
        (prd bp.nrec (key64 r) + ofInt64 (bp.buckets.getD (bkt bp.bb (key64 r)) 0)) % 2 ^ 64 > n then
        { bp with buckets := bp.buckets.set (bkt bp.bb (key64 r)) ((n : Int) - (prd bp.nrec (key64 r) : Nat)) }
      else bp := by
  unfold bucketUpdate
  have h := (prd_lt (key64_lt r) hn).1
  unfold key64 at h
  simp only [Nat.mod_eq_of_lt h]
  rfl

/-- The value of each table slot after the records `out` were written. -/
def SlotOk (bb nrec : Nat) (out : List Bytes) (b : Nat) (v : Int) : Prop :=
  (∀ i, (h : i < out.length) → bkt bb (key64 out[i]) = b → v + prd nrec (key64 out[i]) ≤ i) ∧
  (v = 2 ^ 31 ∨ ∃ i, ∃ h : i < out.length, bkt bb (key64 out[i]) = b ∧
    v = (i : Int) - prd nrec (key64 out[i]))

theorem SlotOk.bounds {bb nrec : Nat} {out : List Bytes} {b : Nat} {v : Int}
    (h : SlotOk bb nrec out b v) (hn : nrec < 2 ^ 40) (hlen : out.length ≤ 2 ^ 40) :
    -(2 ^ 40 : Int) < v ∧ v ≤ 2 ^ 40 := by
  rcases h.2 with h | ⟨i, hi, _, h⟩
  · rw [h]; decide
  · have := (prd_lt (key64_lt out[i]) hn).2
    have e : ((2 : Int) ^ 40) = 1099511627776 := by decide
    rw [e]
    omega

theorem sorted_getElem {rs : List Bytes} (hs : Sorted rs) {i j : Nat} (hij : i ≤ j) (hj : j < rs.length) :
    beDec (rs[i]'(by omega)) ≤ beDec rs[j] := by
  rcases Nat.lt_or_eq_of_le hij with h | h
  · exact (List.pairwise_iff_getElem.1 hs) i j (by omega) hj h
  · subst h; exact Nat.le_refl _

theorem build_slots (bp0 : Bucket) (hn : bp0.nrec < 2 ^ 40) (hbb : 2 ≤ bp0.bb) (hbb2 : bp0.bb ≤ 28)
    (hnew : bp0.buckets = List.replicate (2 ^ bp0.bb) (2 ^ 31))
    (rs : List Bytes) (hl : Len32 rs) (hs : Sorted rs) (hlen : rs.length ≤ 2 ^ 40)
    (k : Nat) (hk : k ≤ rs.length) (b : Nat) (hb0 : 0 < b) (hb : b < 2 ^ bp0.bb) :
    SlotOk bp0.bb bp0.nrec (rs.take k) b ((build bp0 (rs.take k)).buckets.getD b 0) := by
  induction k with
  | zero =>
    constructor
    · intro i h; simp at h
    · left
      simp only [List.take_zero]
      simp [build, hnew, hb]
  | succ k ih =>
    have ih := ih (by omega)
    have hk' : k < rs.length := by omega
    have htake : rs.take (k + 1) = rs.take k ++ [rs[k]] := by
      rw [List.take_succ_eq_append_getElem hk']
    have hlk : (rs.take k).length = k := by simp; omega
    have hbd := ih.bounds hn (by rw [hlk]; omega)
    have hshape := build_shape bp0 (rs.take k)
    have hblen : (build bp0 (rs.take k)).buckets.length = 2 ^ bp0.bb := by
      rw [hshape.2.2, hnew]; simp
    have hprd := (prd_lt (key64_lt rs[k]) hn).2
    -- the values seen so far
    have e40 : ((2 : Int) ^ 40) = 1099511627776 := by decide
    have e63 : ((2 : Int) ^ 63) = 9223372036854775808 := by decide
    rw [htake, build_snoc, bucketUpdate_eq (by rw [hshape.2.1]; exact hn), hshape.1, hshape.2.1, hlk]
    have helem : ∀ i, (h : i < (rs.take k ++ [rs[k]]).length) → (hik : i < k) →
        (rs.take k ++ [rs[k]])[i] = (rs.take k)[i]'(by rw [hlk]; omega) := by
      intro i h hik
      rw [List.getElem_append_left]
    have hlast : (rs.take k ++ [rs[k]])[k]'(by rw [List.length_append, hlk]; simp) = rs[k] := by
      rw [List.getElem_append_right (by omega)]
      simp [hlk]
    by_cases hbk : bkt bp0.bb (key64 rs[k]) = b
    · -- the record falls into this slot
      rw [hbk]
      have hnonneg : 0 ≤ (prd bp0.nrec (key64 rs[k]) : Int) + (build bp0 (rs.take k)).buckets.getD b 0 := by
        rcases ih.2 with h | ⟨i, hi, _, h⟩
        · rw [h]; omega
        · rw [h]
          have hmono : prd bp0.nrec (key64 (rs.take k)[i]) ≤ prd bp0.nrec (key64 rs[k]) := by
            apply prd_mono
            rw [List.getElem_take]
            rw [hlk] at hi
            exact key64_mono (hl _ (List.getElem_mem _)) (hl _ (List.getElem_mem _))
              (sorted_getElem hs (by omega) hk')
          omega
      have hcmp := add_ofInt64_mod (u := prd bp0.nrec (key64 rs[k]))
        (x := (build bp0 (rs.take k)).buckets.getD b 0) hnonneg (by rw [e63]; rw [e40] at hbd; omega)
      by_cases hc : b > 0 ∧ (prd bp0.nrec (key64 rs[k]) +
          ofInt64 ((build bp0 (rs.take k)).buckets.getD b 0)) % 2 ^ 64 > k
      · rw [if_pos hc]
        simp only
        have hgt : (prd bp0.nrec (key64 rs[k]) : Int) + (build bp0 (rs.take k)).buckets.getD b 0 > k := by
          rw [← hcmp]; exact Int.ofNat_lt.2 hc.2
        have hset : ((build bp0 (rs.take k)).buckets.set b ((k : Int) - (prd bp0.nrec (key64 rs[k]) : Nat))).getD b 0
            = (k : Int) - (prd bp0.nrec (key64 rs[k]) : Nat) := by
          simp [List.getD_eq_getElem?_getD, hblen, hb]
        rw [hset]
        constructor
        · intro i h hbi
          rcases Nat.lt_or_ge i k with hik | hik
          · rw [helem i h hik] at hbi ⊢
            have := ih.1 i (by rw [hlk]; exact hik) hbi
            omega
          · have : i = k := by simp only [List.length_append, hlk, List.length_singleton] at h; omega
            subst this
            rw [hlast]
            omega
        · right
          exact ⟨k, by rw [List.length_append, hlk]; simp, by rw [hlast]; exact hbk, by rw [hlast]⟩
      · rw [if_neg hc]
        have hle : (prd bp0.nrec (key64 rs[k]) : Int) + (build bp0 (rs.take k)).buckets.getD b 0 ≤ k := by
          rw [← hcmp]
          apply Int.ofNat_le.2
          apply Nat.le_of_not_lt
          intro h; exact hc ⟨hb0, h⟩
        constructor
        · intro i h hbi
          rcases Nat.lt_or_ge i k with hik | hik
          · rw [helem i h hik] at hbi ⊢
            exact ih.1 i (by rw [hlk]; exact hik) hbi
          · have : i = k := by simp only [List.length_append, hlk, List.length_singleton] at h; omega
            subst this
            rw [hlast]
            omega
        · rcases ih.2 with h | ⟨i, hi, h1, h2⟩
          · exact .inl h
          · right
            rw [hlk] at hi
            refine ⟨i, by rw [List.length_append, hlk]; omega, ?_, ?_⟩
            · rw [helem i (by rw [List.length_append, hlk]; omega) hi]; exact h1
            · rw [helem i (by rw [List.length_append, hlk]; omega) hi]; exact h2
    · -- another slot: unchanged
      have hsame : ∀ c : Prop, [Decidable c] → ∀ x y z, (if c
          then ({ bb := x, nrec := y, buckets := (build bp0 (rs.take k)).buckets.set (bkt bp0.bb (key64 rs[k])) z } : Bucket)
          else build bp0 (rs.take k)).buckets.getD b 0 = (build bp0 (rs.take k)).buckets.getD b 0 := by
        intro c _ x y z
        split
        · simp [List.getD_eq_getElem?_getD, List.getElem?_set_ne hbk]
        · rfl
      rw [hsame]
      constructor
      · intro i h hbi
        rcases Nat.lt_or_ge i k with hik | hik
        · rw [helem i h hik] at hbi ⊢
          exact ih.1 i (by rw [hlk]; exact hik) hbi
        · have : i = k := by simp only [List.length_append, hlk, List.length_singleton] at h; omega
          subst this
          rw [hlast] at hbi
          exact absurd hbi hbk
      · rcases ih.2 with h | ⟨i, hi, h1, h2⟩
        · exact .inl h
        · right
          rw [hlk] at hi
          refine ⟨i, by rw [List.length_append, hlk]; omega, ?_, ?_⟩
          · rw [helem i (by rw [List.length_append, hlk]; omega) hi]; exact h1
          · rw [helem i (by rw [List.length_append, hlk]; omega) hi]; exact h2

/-! ### Reading the table back -/

theorem flatten_drop {k : Nat} (l : List Bytes) (hl : ∀ r ∈ l, r.length = k) (i : Nat) :
    l.flatten.drop (k * i) = (l.drop i).flatten := by
  induction l generalizing i with
  | nil => simp
  | cons r rs ih =>
    cases i with
    | zero => simp
    | succ i =>
      have hr := hl r (by simp)
      rw [List.flatten_cons, List.drop_succ_cons, ← ih (fun x hx => hl x (by simp [hx])),
        show k * (i + 1) = r.length + k * i by rw [hr, Nat.mul_add]; omega, ← List.drop_drop]
      simp

/-- Slot `b` of an index file. -/
def slot (bp0 : Bucket) (rs : List Bytes) (b : Nat) : Int := (build bp0 rs).buckets.getD b 0

theorem IsIndex.slotOk {F : Bytes} {bp0 : Bucket} {rs : List Bytes} (h : IsIndex F bp0 rs)
    (hlen : rs.length ≤ 2 ^ 40) {b : Nat} (hb0 : 0 < b) (hb : b < 2 ^ bp0.bb) :
    SlotOk bp0.bb bp0.nrec rs b (slot bp0 rs b) := by
  obtain ⟨h1, h2, h3, h4, h5, h6⟩ := h.facts
  have := build_slots bp0 h3 h1 h2 h4 rs h.len h.sorted hlen rs.length (Nat.le_refl _) b hb0 hb
  rw [List.take_length] at this
  exact this

theorem IsIndex.word {F : Bytes} {bp0 : Bucket} {rs : List Bytes} (h : IsIndex F bp0 rs)
    {b : Nat} (hb0 : 0 < b) (hb : b < 2 ^ bp0.bb) :
    b * 8 + 8 ≤ F.length ∧ (F.drop (b * 8)).take 8 = beEnc 8 (ofInt64 (slot bp0 rs b)) := by
  obtain ⟨h1, h2, h3, h4, h5, h6⟩ := h.facts
  have hp : 2 ^ (bp0.bb + 3) = 2 ^ bp0.bb * 8 := by rw [Nat.pow_add]
  refine ⟨by omega, ?_⟩
  have hblen : (build bp0 rs).buckets.length = 2 ^ bp0.bb := by
    rw [(build_shape bp0 rs).2.2, h4]; simp
  rw [h.file, List.drop_append_of_le_length (by omega)]
  unfold bucketBytes
  rw [Nat.mul_comm b 8, flatten_drop (k := 8)]
  · rw [← List.map_drop]
    have hlt : b < ((build bp0 rs).buckets.set 0 (bucketWord0 (build bp0 rs))).length := by
      rw [List.length_set, hblen]; exact hb
    rw [List.drop_eq_getElem_cons hlt, List.map_cons, List.flatten_cons, List.append_assoc,
      take_app (by simp)]
    rw [List.getElem_set_ne (by omega)]
    unfold slot
    rw [List.getD_eq_getElem?_getD, List.getElem?_eq_getElem (by omega)]
    rfl
  · intro r hr
    rw [List.mem_map] at hr
    obtain ⟨w, _, rfl⟩ := hr
    simp

theorem IsIndex.seek0 {F : Bytes} {bp0 : Bucket} {rs : List Bytes} (h : IsIndex F bp0 rs)
    (keyP : Bytes) (hb : bkt bp0.bb (key64 keyP) = 0) :
    bucketSeek keyP F = .ok (2 ^ (bp0.bb + 3)) := by
  obtain ⟨h1, h2, h3, h4, h5, h6⟩ := h.facts
  obtain ⟨w1, w2⟩ := h.word0
  unfold bucketSeek
  rw [w2]
  have e1 : (INDEX_ID * 2 ^ 48 + bp0.bb * 2 ^ 40 + bp0.nrec) / 2 ^ 48 = INDEX_ID := by
    unfold INDEX_ID; omega
  have e2 : (INDEX_ID * 2 ^ 48 + bp0.bb * 2 ^ 40 + bp0.nrec) / 2 ^ 40 % 256 = bp0.bb := by
    unfold INDEX_ID; omega
  unfold bkt key64 at hb
  have h7 : bp0.bb < 60 := by omega
  have h8 : 0 < bp0.bb := by omega
  simp [w1, e1, e2, hb, h7, h8]

theorem toInt64_pos {w : Nat} {v : Int} (hw : w < 2 ^ 40)
    (hb : -1099511627776 < v ∧ v ≤ 1099511627776) : toInt64 (w + ofInt64 v) = w + v := by
  have e63 : ((2 : Int) ^ 63) = 9223372036854775808 := by decide
  have h1 : -(2 ^ 63 : Int) ≤ w + v := by rw [e63]; omega
  have h2 : w + v < (2 ^ 63 : Int) := by rw [e63]; omega
  exact toInt64_add_ofInt64 h1 h2

theorem pos_range {w : Nat} {v : Int} (hw : w < 2 ^ 40)
    (hb : -1099511627776 < v ∧ v ≤ 1099511627776) :
    -(2 ^ 63 : Int) ≤ (w + v) * 32 ∧ (w + v) * 32 < 2 ^ 63 := by
  have e63 : ((2 : Int) ^ 63) = 9223372036854775808 := by decide
  rw [e63]
  omega

theorem IsIndex.seekPos {F : Bytes} {bp0 : Bucket} {rs : List Bytes} (h : IsIndex F bp0 rs)
    (hlen : rs.length ≤ 2 ^ 40) (hn32 : bp0.nrec < 2 ^ 32)
    (keyP : Bytes) (hb : 0 < bkt bp0.bb (key64 keyP)) :
    bucketSeek keyP F =
      (if (prd bp0.nrec (key64 keyP) : Int) + slot bp0 rs (bkt bp0.bb (key64 keyP)) < 0 then .fail
       else .ok (((prd bp0.nrec (key64 keyP) : Int) + slot bp0 rs (bkt bp0.bb (key64 keyP))).toNat * 32)) := by
  obtain ⟨h1, h2, h3, h4, h5, h6⟩ := h.facts
  obtain ⟨w1, w2⟩ := h.word0
  have hlt : bkt bp0.bb (key64 keyP) < 2 ^ bp0.bb := bkt_lt (key64_lt _) (by omega)
  obtain ⟨x1, x2⟩ := h.word hb hlt
  have hbd := (h.slotOk hlen hb hlt).bounds h3 hlen
  have hpr := prd_lt (key64_lt keyP) h3
  unfold bucketSeek
  rw [w2]
  have e1 : (INDEX_ID * 2 ^ 48 + bp0.bb * 2 ^ 40 + bp0.nrec) / 2 ^ 48 = INDEX_ID := by
    unfold INDEX_ID; omega
  have e2 : (INDEX_ID * 2 ^ 48 + bp0.bb * 2 ^ 40 + bp0.nrec) / 2 ^ 40 % 256 = bp0.bb := by
    unfold INDEX_ID; omega
  have e3 : (INDEX_ID * 2 ^ 48 + bp0.bb * 2 ^ 40 + bp0.nrec) % 2 ^ 40 % 2 ^ 32 = bp0.nrec := by
    unfold INDEX_ID; omega
  simp only [e1, e2, e3]
  have h7 : bp0.bb < 60 := by omega
  have h8 : 0 < bp0.bb := by omega
  have hb' : beDec (keyP.take 8) / 2 ^ (64 - bp0.bb) = bkt bp0.bb (key64 keyP) := rfl
  have hpr' : (beDec (keyP.take 8) / 2 ^ 40 * bp0.nrec) % 2 ^ 64 / 2 ^ 24 = prd bp0.nrec (key64 keyP) := by
    have := hpr.1
    unfold key64 at this
    rw [Nat.mod_eq_of_lt this]; rfl
  have e40 : ((2 : Int) ^ 40) = 1099511627776 := by decide
  have e63 : ((2 : Int) ^ 63) = 9223372036854775808 := by decide
  rw [e40] at hbd
  have hoff : toInt64 (beDec (beEnc 8 (ofInt64 (slot bp0 rs (bkt bp0.bb (key64 keyP))))))
      = slot bp0 rs (bkt bp0.bb (key64 keyP)) := by
    rw [beDec_beEnc]
    have : ofInt64 (slot bp0 rs (bkt bp0.bb (key64 keyP))) % 256 ^ 8
        = ofInt64 (slot bp0 rs (bkt bp0.bb (key64 keyP))) := by
      apply Nat.mod_eq_of_lt
      have e8 : 256 ^ 8 = 18446744073709551616 := by decide
      have h1 := ofInt64_emod (slot bp0 rs (bkt bp0.bb (key64 keyP)))
      have e64 : ((2 : Int) ^ 64) = 18446744073709551616 := by decide
      rw [e64] at h1
      rw [e8]
      omega
    rw [this]
    apply toInt64_ofInt64
    · rw [e63]; omega
    · rw [e63]; omega
  have hpos : toInt64 (prd bp0.nrec (key64 keyP) + ofInt64 (slot bp0 rs (bkt bp0.bb (key64 keyP))))
      = prd bp0.nrec (key64 keyP) + slot bp0 rs (bkt bp0.bb (key64 keyP)) := by
    exact toInt64_pos hpr.2 hbd
  simp only [w1, decide_true, Res.check_true, Res.ok_bind, h7, h8, Bool.and_self, Res.access_true,
    hb', hb, if_true, hpr', x1, x2, hoff, hpos]
  have hin := pos_range hpr.2 hbd
  simp only [hin, and_self, decide_true, Res.access_true, Res.ok_bind]
  by_cases hneg : (prd bp0.nrec (key64 keyP) : Int) + slot bp0 rs (bkt bp0.bb (key64 keyP)) < 0
  · rw [if_pos hneg]
    have : ¬ (0 ≤ (prd bp0.nrec (key64 keyP) : Int) + slot bp0 rs (bkt bp0.bb (key64 keyP))) := Int.not_le.2 hneg
    simp [this]
  · rw [if_neg hneg]
    have : (0 ≤ (prd bp0.nrec (key64 keyP) : Int) + slot bp0 rs (bkt bp0.bb (key64 keyP))) := Int.not_lt.1 hneg
    simp [this]

end Verif.Index
