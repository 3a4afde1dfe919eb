import Verif.Basic.CStr

namespace Verif

/-- The number a string of decimal digits stands for. -/
def decVal (l : Bytes) : Nat := l.foldl (fun n c => n * 10 + (c.toNat - 48)) 0

theorem decAux_digits (fuel n : Nat) : ∀ c ∈ decAux fuel n, isDigit c = true := by
  have tbl : ∀ j : Fin 10, isDigit (UInt8.ofNat (48 + j)) = true := by decide
  induction fuel generalizing n with
  | zero => simp [decAux]
  | succ f ih =>
    intro c hc
    rw [decAux] at hc
    split at hc
    · rename_i h
      simp only [List.mem_singleton] at hc
      rw [hc]; exact tbl ⟨n, h⟩
    · rcases List.mem_cons.1 hc with rfl | hc
      · exact tbl ⟨n % 10, by omega⟩
      · exact ih _ c hc

theorem decVal_snoc (l : Bytes) (c : UInt8) : decVal (l ++ [c]) = decVal l * 10 + (c.toNat - 48) := by
  simp [decVal]

theorem decAux_val (fuel n : Nat) (h : n < fuel) : decVal (decAux fuel n).reverse = n := by
  have tbl : ∀ j : Fin 10, (UInt8.ofNat (48 + j)).toNat - 48 = j := by decide
  induction fuel generalizing n with
  | zero => omega
  | succ f ih =>
    rw [decAux]
    split
    · rename_i h1
      have := tbl ⟨n, h1⟩
      simp only at this
      simp [decVal]
      omega
    · rename_i h1
      have := tbl ⟨n % 10, by omega⟩
      simp only at this
      rw [List.reverse_cons, decVal_snoc, ih _ (by omega), this]
      omega

theorem decVal_dec (n : Nat) : decVal (dec n) = n := decAux_val _ _ (by omega)

theorem dec_digits (n : Nat) : ∀ c ∈ dec n, isDigit c = true :=
  fun c hc => decAux_digits _ _ c (by simpa [dec] using hc)

theorem dec_inj {m n : Nat} (h : dec m = dec n) : m = n := by
  rw [← decVal_dec m, ← decVal_dec n, h]

theorem dec_ne_nil (n : Nat) : dec n ≠ [] := by
  unfold dec
  rw [decAux]
  split <;> simp

theorem decAux_length (fuel n k : Nat) (h : n < 10 ^ (k + 1)) : (decAux fuel n).length ≤ k + 1 := by
  induction fuel generalizing n k with
  | zero => simp [decAux]
  | succ f ih =>
    rw [decAux]
    split
    · simp
    · cases k with
      | zero => omega
      | succ k =>
        have := ih (n / 10) k (by rw [Nat.div_lt_iff_lt_mul (by omega)]; rwa [← Nat.pow_succ])
        simp only [List.length_cons]; omega

theorem dec_length (n k : Nat) (h : n < 10 ^ (k + 1)) : (dec n).length ≤ k + 1 := by
  rw [dec, List.length_reverse]; exact decAux_length _ _ _ h

theorem decAux_length_ge (fuel n k : Nat) (hf : n < fuel) (h : 10 ^ k ≤ n) : k + 1 ≤ (decAux fuel n).length := by
  induction fuel generalizing n k with
  | zero => omega
  | succ f ih =>
    rw [decAux]
    split
    · cases k with
      | zero => simp
      | succ k =>
        have : 10 ^ 1 ≤ 10 ^ (k + 1) := Nat.pow_le_pow_right (by omega) (by omega)
        omega
    · cases k with
      | zero => simp
      | succ k =>
        have := ih (n / 10) k (by omega) (by rw [Nat.le_div_iff_mul_le (by omega)]; rwa [← Nat.pow_succ])
        simp only [List.length_cons]; omega

theorem dec_length_ge (n k : Nat) (h : 10 ^ k ≤ n) : k + 1 ≤ (dec n).length := by
  rw [dec, List.length_reverse]; exact decAux_length_ge _ _ _ (by omega) h

theorem dec_length_mono {m n : Nat} (h : m ≤ n) : (dec m).length ≤ (dec n).length := by
  by_cases hm : m = 0
  · subst hm
    have := List.length_pos_iff.mpr (dec_ne_nil n)
    have h0 : (dec 0).length = 1 := rfl
    omega
  · obtain ⟨k, hk⟩ : ∃ k, (dec m).length = k + 1 := ⟨(dec m).length - 1, by have := List.length_pos_iff.mpr (dec_ne_nil m); omega⟩
    have h10 : 10 ^ k ≤ m := by
      rcases Nat.lt_or_ge m (10 ^ k) with h | h
      · cases k with
        | zero => omega
        | succ k => have := dec_length m k h; omega
      · exact h
    have := dec_length_ge n k (by omega)
    omega

end Verif
