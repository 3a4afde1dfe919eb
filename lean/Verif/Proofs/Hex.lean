import Verif.Model.Index
import Verif.Spec.Index
import Verif.Proofs.Bytes

namespace Verif
open Index Spec

@[simp] theorem hexStr_length (l : Bytes) : (hexStr l).length = 2 * l.length := by
  induction l with
  | nil => rfl
  | cons b bs ih => simp [hexStr, ih]; omega

theorem hexLc_inj {a b : Nat} (ha : a < 16) (hb : b < 16) (h : hexLc a = hexLc b) : a = b := by
  have : ∀ a, a < 16 → ∀ b, b < 16 → hexLc a = hexLc b → a = b := by decide
  exact this a ha b hb h

theorem hexLc_lower {a : Nat} (ha : a < 16) : toLower (hexLc a) = hexLc a := by
  have : ∀ a, a < 16 → toLower (hexLc a) = hexLc a := by decide
  exact this a ha

theorem hexStr_inj {a b : Bytes} (h : hexStr a = hexStr b) : a = b := by
  induction a generalizing b with
  | nil => cases b with
    | nil => rfl
    | cons => simp [hexStr] at h
  | cons x xs ih =>
    cases b with
    | nil => simp [hexStr] at h
    | cons y ys =>
      simp only [hexStr, List.cons.injEq] at h
      obtain ⟨h1, h2, h3⟩ := h
      have hx := x.toNat_lt
      have hy := y.toNat_lt
      have e1 := hexLc_inj (by omega) (by omega) h1
      have e2 := hexLc_inj (by omega) (by omega) h2
      rw [ih h3]
      congr 1
      apply UInt8.toNat.inj
      omega

theorem hexStr_take (l : Bytes) (m : Nat) : hexStr (l.take m) = (hexStr l).take (2 * m) := by
  induction l generalizing m with
  | nil => simp [hexStr]
  | cons b bs ih =>
    cases m with
    | zero => simp [hexStr]
    | succ m =>
      simp only [List.take_succ_cons, hexStr, ih]
      rw [show 2 * (m + 1) = 2 * m + 1 + 1 by omega]
      simp

theorem hexStr_append (a b : Bytes) : hexStr (a ++ b) = hexStr a ++ hexStr b := by
  induction a with
  | nil => rfl
  | cons x xs ih => simp [hexStr, ih]

theorem hexStr_map_lower (l : Bytes) : (hexStr l).map toLower = hexStr l := by
  induction l with
  | nil => rfl
  | cons b bs ih =>
    have hb := b.toNat_lt
    simp only [hexStr, List.map_cons, ih]
    rw [hexLc_lower (by omega), hexLc_lower (by omega)]

set_option maxRecDepth 20000 in
/-- All 256 bytes: what `idx_hex_digit` does with each. -/
theorem hexDigit_table : ∀ n : Fin 256,
    (if isHex (UInt8.ofNat n.val) then
      (match idxHexDigit (UInt8.ofNat n.val) with
      | .ok j => decide (j < 16) && hexLc j == toLower (UInt8.ofNat n.val)
      | _ => false)
    else decide (idxHexDigit (UInt8.ofNat n.val) = .fail)) = true := by decide

/-- The value of a hex digit. -/
theorem idxHexDigit_spec {c : UInt8} (h : isHex c) :
    ∃ j, idxHexDigit c = .ok j ∧ j < 16 ∧ hexLc j = toLower c := by
  have h2 := hexDigit_table ⟨c.toNat, c.toNat_lt⟩ 
  simp only [UInt8.ofNat_toNat, h, ite_true] at h2
  split at h2
  · rename_i j hj
    simp only [Bool.and_eq_true, decide_eq_true_eq, beq_iff_eq] at h2
    exact ⟨j, hj, h2.1, h2.2⟩
  · simp at h2

theorem idxHexDigit_fail {c : UInt8} (h : ¬ isHex c) : idxHexDigit c = .fail := by
  have h2 := hexDigit_table ⟨c.toNat, c.toNat_lt⟩
  simp only [UInt8.ofNat_toNat, h] at h2
  simpa using h2

theorem padKey_length (n : Nat) (k : Bytes) : (padKey n k).length = n := by
  simp [padKey]; omega

theorem padKey_nil (n : Nat) : padKey n [] = List.replicate n 48 := by simp [padKey]

theorem padKey_two (n : Nat) (c d : UInt8) (ks : Bytes) :
    padKey (2 * (n + 1)) (c :: d :: ks) = toLower c :: toLower d :: padKey (2 * n) ks := by
  rw [show 2 * (n + 1) = 2 * n + 1 + 1 by omega]
  simp only [padKey, List.map_cons, List.take_succ_cons, List.length_cons, List.cons_append]
  congr 4
  omega

theorem idxKeyBin_spec (n : Nat) (k : Bytes) (h : ∀ c ∈ k, isHex c) :
    ∃ b, idxKeyBin n k = .ok b ∧ b.length = n ∧ hexStr b = padKey (2 * n) k := by
  fun_induction idxKeyBin n k with
  | case1 k => exact ⟨[], rfl, rfl, by simp [hexStr, padKey]⟩
  | case2 n ih =>
    obtain ⟨b, h1, h2, h3⟩ := ih (by simp)
    refine ⟨0 :: b, by simp [h1], by simp [h2], ?_⟩
    rw [hexStr, h3, padKey_nil, padKey_nil]
    rw [show 2 * (n + 1) = 2 * n + 1 + 1 by omega]
    simp [List.replicate_succ, hexLc]
  | case3 n c ih =>
    obtain ⟨b, h1, h2, h3⟩ := ih (by simp)
    obtain ⟨j, e1, e2, e3⟩ := idxHexDigit_spec (h c (by simp))
    refine ⟨UInt8.ofNat (j * 16) :: b, by simp [h1, e1], by simp [h2], ?_⟩
    rw [hexStr, h3, padKey_nil]
    have : (UInt8.ofNat (j * 16)).toNat = j * 16 := by simp; omega
    rw [this, show j * 16 / 16 = j by omega, show j * 16 % 16 = 0 by omega, e3]
    simp only [padKey, List.map_cons, List.map_nil]
    rw [show 2 * (n + 1) = 2 * n + 1 + 1 by omega]
    simp [List.replicate_succ, hexLc]
  | case4 n c d ks ih =>
    obtain ⟨b, h1, h2, h3⟩ := ih (fun x hx => h x (by simp [hx]))
    obtain ⟨j, e1, e2, e3⟩ := idxHexDigit_spec (h c (by simp))
    obtain ⟨k, f1, f2, f3⟩ := idxHexDigit_spec (h d (by simp))
    refine ⟨UInt8.ofNat (j * 16 + k) :: b, by simp [h1, e1, f1], by simp [h2], ?_⟩
    rw [hexStr, h3, padKey_two]
    have : (UInt8.ofNat (j * 16 + k)).toNat = j * 16 + k := by simp; omega
    rw [this, show (j * 16 + k) / 16 = j by omega, show (j * 16 + k) % 16 = k by omega, e3, f3]

end Verif
