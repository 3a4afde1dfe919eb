import Verif.Basic.Bytes

namespace Verif

@[simp] theorem beEnc_length (k n : Nat) : (beEnc k n).length = k := by
  induction k with
  | zero => rfl
  | succ k ih => simp [beEnc, ih]

@[simp] theorem leEnc_length (k n : Nat) : (leEnc k n).length = k := by
  induction k generalizing n with
  | zero => rfl
  | succ k ih => simp [leEnc, ih]

theorem beDec_lt (l : Bytes) : beDec l < 256 ^ l.length := by
  induction l with
  | nil => simp [beDec]
  | cons b bs ih =>
    simp only [beDec, List.length_cons, Nat.pow_succ]
    have hb : b.toNat ≤ 255 := by have := b.toNat_lt; omega
    have := Nat.mul_le_mul_right (256 ^ bs.length) hb
    omega

theorem leDec_lt (l : Bytes) : leDec l < 256 ^ l.length := by
  induction l with
  | nil => simp [leDec]
  | cons b bs ih =>
    simp only [leDec, List.length_cons, Nat.pow_succ]
    have hb : b.toNat ≤ 255 := by have := b.toNat_lt; omega
    omega

theorem beDec_beEnc (k n : Nat) : beDec (beEnc k n) = n % 256 ^ k := by
  induction k with
  | zero => simp [beEnc, beDec, Nat.mod_one]
  | succ k ih =>
    simp only [beEnc, beDec, beEnc_length, ih, UInt8.toNat_ofNat']
    rw [Nat.pow_succ 256 k, Nat.mod_mul, Nat.mul_comm (256 ^ k), Nat.add_comm]

theorem leDec_leEnc (k n : Nat) : leDec (leEnc k n) = n % 256 ^ k := by
  induction k generalizing n with
  | zero => simp [leEnc, leDec, Nat.mod_one]
  | succ k ih =>
    simp only [leEnc, leDec, ih, UInt8.toNat_ofNat']
    rw [Nat.pow_succ 256 k, Nat.mul_comm (256 ^ k), Nat.mod_mul]

theorem beEnc_add_mul (k n m : Nat) : beEnc k (n + m * 256 ^ k) = beEnc k n := by
  induction k generalizing n m with
  | zero => rfl
  | succ k ih =>
    simp only [beEnc]
    have h1 : (n + m * 256 ^ (k+1)) = n + (m * 256) * 256 ^ k := by
      rw [Nat.pow_succ, Nat.mul_assoc, Nat.mul_comm 256]
    rw [h1, ih, Nat.add_mul_div_right _ _ (Nat.pow_pos (by decide))]
    congr 1
    apply UInt8.toNat.inj
    simp

theorem beEnc_beDec (l : Bytes) : beEnc l.length (beDec l) = l := by
  induction l with
  | nil => rfl
  | cons b bs ih =>
    simp only [List.length_cons, beEnc, beDec]
    have hpos : 0 < 256 ^ bs.length := Nat.pow_pos (by decide)
    have h1 : (b.toNat * 256 ^ bs.length + beDec bs) / 256 ^ bs.length = b.toNat := by
      rw [Nat.add_comm, Nat.add_mul_div_right _ _ hpos, Nat.div_eq_of_lt (beDec_lt bs)]; simp
    rw [h1, Nat.add_comm, beEnc_add_mul, ih]
    simp

theorem beDec_inj {a b : Bytes} (hl : a.length = b.length) (h : beDec a = beDec b) : a = b := by
  rw [← beEnc_beDec a, ← beEnc_beDec b, hl, h]

theorem beDec_append (a b : Bytes) : beDec (a ++ b) = beDec a * 256 ^ b.length + beDec b := by
  induction a with
  | nil => simp [beDec]
  | cons x xs ih =>
    simp only [List.cons_append, beDec, List.length_append, ih, Nat.pow_add]
    rw [Nat.add_mul, Nat.mul_assoc]; omega

theorem memcmp_eq_compare {a b : Bytes} (hl : a.length = b.length) :
    memcmp a b = compare (beDec a) (beDec b) := by
  induction a generalizing b with
  | nil => cases b with
    | nil => rfl
    | cons => simp at hl
  | cons x xs ih =>
    cases b with
    | nil => simp at hl
    | cons y ys =>
      simp only [List.length_cons, Nat.add_right_cancel_iff] at hl
      simp only [memcmp, beDec, hl]
      have hx := beDec_lt xs
      have hy := beDec_lt ys
      rw [hl] at hx
      by_cases h1 : x < y
      · have h1' : x.toNat + 1 ≤ y.toNat := h1
        have := Nat.mul_le_mul_right (256 ^ ys.length) h1'
        rw [Nat.add_mul, Nat.one_mul] at this
        simp only [h1, ite_true]
        exact (Nat.compare_eq_lt.2 (by omega)).symm
      · by_cases h2 : y < x
        · have h2' : y.toNat + 1 ≤ x.toNat := h2
          have := Nat.mul_le_mul_right (256 ^ ys.length) h2'
          rw [Nat.add_mul, Nat.one_mul] at this
          simp only [h1, h2, ite_true, ite_false]
          exact (Nat.compare_eq_gt.2 (by omega)).symm
        · have h3 : x = y := by
            apply UInt8.toNat.inj
            have h1' : ¬ x.toNat < y.toNat := h1
            have h2' : ¬ y.toNat < x.toNat := h2
            omega
          subst h3
          have hlt : ¬ x < x := h1
          simp only [hlt, ite_false, ih hl]
          rcases Nat.lt_trichotomy (beDec xs) (beDec ys) with h | h | h
          · rw [Nat.compare_eq_lt.2 h, Nat.compare_eq_lt.2 (by omega)]
          · rw [Nat.compare_eq_eq.2 h, Nat.compare_eq_eq.2 (by omega)]
          · rw [Nat.compare_eq_gt.2 h, Nat.compare_eq_gt.2 (by omega)]

theorem memcmp_eq_lt {a b : Bytes} (hl : a.length = b.length) :
    memcmp a b = .lt ↔ beDec a < beDec b := by
  rw [memcmp_eq_compare hl, Nat.compare_eq_lt]

theorem memcmp_eq_gt {a b : Bytes} (hl : a.length = b.length) :
    memcmp a b = .gt ↔ beDec b < beDec a := by
  rw [memcmp_eq_compare hl, Nat.compare_eq_gt]

theorem memcmp_eq_eq {a b : Bytes} (hl : a.length = b.length) :
    memcmp a b = .eq ↔ a = b := by
  rw [memcmp_eq_compare hl, Nat.compare_eq_eq]
  exact ⟨beDec_inj hl, fun h => by rw [h]⟩

theorem leEnc_leDec (l : Bytes) : leEnc l.length (leDec l) = l := by
  induction l with
  | nil => rfl
  | cons b bs ih =>
    simp only [List.length_cons, leEnc, leDec]
    have hb := b.toNat_lt
    have h1 : (b.toNat + 256 * leDec bs) / 256 = leDec bs := by omega
    rw [h1, ih]
    congr 1
    apply UInt8.toNat.inj
    simp

end Verif
