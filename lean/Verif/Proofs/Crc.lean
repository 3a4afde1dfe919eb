/-
CRC-32 is linear: the checksum of a concatenation follows from the checksums of its parts.
-/
import Verif.Spec.Crc

namespace Verif.Crc
open Verif

theorem bitStep_xor (a b : BitVec 32) : bitStep (a ^^^ b) = bitStep a ^^^ bitStep b := by
  unfold bitStep
  rw [BitVec.getLsbD_xor, BitVec.ushiftRight_xor_distrib]
  cases a.getLsbD 0 <;> cases b.getLsbD 0 <;> simp
  · ac_rfl
  · ac_rfl
  · rw [show (a >>> 1 ^^^ poly) ^^^ (b >>> 1 ^^^ poly) = (a >>> 1 ^^^ b >>> 1) ^^^ (poly ^^^ poly) by ac_rfl]
    simp

theorem bitSteps_xor (n : Nat) (a b : BitVec 32) : bitSteps n (a ^^^ b) = bitSteps n a ^^^ bitSteps n b := by
  induction n generalizing a b with
  | zero => rfl
  | succ n ih => rw [bitSteps, bitSteps, bitSteps, bitStep_xor, ih]

theorem bitSteps_add (m n : Nat) (c : BitVec 32) : bitSteps (m + n) c = bitSteps n (bitSteps m c) := by
  induction m generalizing c with
  | zero => rw [Nat.zero_add]; rfl
  | succ m ih => rw [Nat.succ_add, bitSteps, ih, bitSteps]

theorem reg_append (c : BitVec 32) (a b : Bytes) : reg c (a ++ b) = reg (reg c a) b := by
  unfold reg; rw [List.foldl_append]

theorem reg_xor (d : Bytes) (s t : BitVec 32) : reg (s ^^^ t) d = bitSteps (8 * d.length) s ^^^ reg t d := by
  induction d generalizing s t with
  | nil => rfl
  | cons x d ih =>
    have h1 : reg (s ^^^ t) (x :: d) = reg (byteStep (s ^^^ t) x) d := rfl
    have h2 : reg t (x :: d) = reg (byteStep t x) d := rfl
    have h3 : byteStep (s ^^^ t) x = bitSteps 8 s ^^^ byteStep t x := by
      unfold byteStep
      rw [show s ^^^ t ^^^ BitVec.ofNat 32 x.toNat = s ^^^ (t ^^^ BitVec.ofNat 32 x.toNat) by ac_rfl, bitSteps_xor]
    rw [h1, h2, h3, ih, List.length_cons, show 8 * (d.length + 1) = 8 + 8 * d.length by omega, bitSteps_add]

theorem xor_not (x y : BitVec 32) : ~~~ (x ^^^ y) = x ^^^ ~~~ y := by
  ext i hi; simp

theorem not_xor_ones (x : BitVec 32) : ~~~ x ^^^ ~~~ 0#32 = x := by
  ext i hi; simp only [BitVec.getElem_xor, BitVec.getElem_not, BitVec.getElem_zero]; simp

theorem crc32_append (a b : Bytes) : crc32 (a ++ b) = combine (crc32 a) (crc32 b) b.length := by
  unfold crc32 combine
  rw [reg_append]
  obtain ⟨u, hu⟩ : ∃ u, u = reg (~~~0#32) a := ⟨_, rfl⟩
  rw [← hu]
  have h := reg_xor b (~~~ u) (~~~ 0#32)
  rw [not_xor_ones] at h
  rw [h, xor_not]

theorem crc32_nil : crc32 [] = 0 := by decide

/-! ### Running a checksum through 2^32 zero bytes

Linear maps as the list of the images of the basis, to be able to square them. -/

/-- The low `n` bits. -/
def low (n : Nat) (c : BitVec 32) : BitVec 32 := (c.setWidth n).setWidth 32

theorem low_zero (c : BitVec 32) : low 0 c = 0#32 := by
  unfold low; ext i hi; simp

theorem low_full (c : BitVec 32) : low 32 c = c := by
  unfold low; simp

theorem low_succ (n : Nat) (hn : n < 32) (c : BitVec 32) :
    low (n + 1) c = low n c ^^^ (if c.getLsbD n then BitVec.twoPow 32 n else 0#32) := by
  unfold low
  apply BitVec.eq_of_getLsbD_eq
  intro i hi
  by_cases hc : c.getLsbD n = true
  · rw [if_pos hc]
    simp only [BitVec.getLsbD_xor, BitVec.getLsbD_setWidth, BitVec.getLsbD_twoPow, hi, decide_true, Bool.true_and]
    by_cases h1 : i = n
    · subst h1; simp [hc, hi]
    · by_cases h2 : i < n
      · have : n ≠ i := fun e => h1 e.symm
        simp [h2, this, show i < n + 1 by omega]
      · have : n ≠ i := fun e => h1 e.symm
        simp [h2, this, show ¬ i < n + 1 by omega]
  · rw [if_neg hc]
    simp only [BitVec.getLsbD_xor, BitVec.getLsbD_setWidth, hi, decide_true, Bool.true_and]
    by_cases h1 : i = n
    · subst h1; simp [hc]
    · by_cases h2 : i < n
      · simp [h2, show i < n + 1 by omega]
      · simp [h2, show ¬ i < n + 1 by omega]

/-- Apply the linear map with the given images of the basis; `n` is the number of images used. -/
def applyN (m : List (BitVec 32)) : Nat → BitVec 32 → BitVec 32
  | 0, _ => 0#32
  | n + 1, c => applyN m n c ^^^ (if c.getLsbD n then m.getD n 0#32 else 0#32)

def apply (m : List (BitVec 32)) (c : BitVec 32) : BitVec 32 := applyN m 32 c

/-- The images of the basis. -/
def mat (f : BitVec 32 → BitVec 32) : List (BitVec 32) := (List.range 32).map (fun i => f (BitVec.twoPow 32 i))

def Linear (f : BitVec 32 → BitVec 32) : Prop := ∀ a b, f (a ^^^ b) = f a ^^^ f b

theorem linear_zero {f : BitVec 32 → BitVec 32} (h : Linear f) : f 0#32 = 0#32 := by
  have := h 0#32 0#32
  simpa using this

theorem apply_mat {f : BitVec 32 → BitVec 32} (h : Linear f) (c : BitVec 32) : apply (mat f) c = f c := by
  have key : ∀ n, n ≤ 32 → applyN (mat f) n c = f (low n c) := by
    intro n
    induction n with
    | zero => intro _; rw [low_zero, linear_zero h]; rfl
    | succ n ih =>
      intro hn
      rw [applyN, ih (by omega), low_succ n (by omega), h]
      have hg : (mat f).getD n 0#32 = f (BitVec.twoPow 32 n) := by
        unfold mat
        rw [List.getD_eq_getElem?_getD, List.getElem?_map, List.getElem?_range (by omega)]
        rfl
      rw [hg]
      split
      · rfl
      · rw [linear_zero h]
  unfold apply
  rw [key 32 (Nat.le_refl _), low_full]

/-- Square a linear map. -/
def square (m : List (BitVec 32)) : List (BitVec 32) := m.map (apply m)

theorem square_mat {f : BitVec 32 → BitVec 32} (h : Linear f) : square (mat f) = mat (fun c => f (f c)) := by
  unfold square
  conv => lhs; arg 2; unfold mat
  rw [List.map_map]
  unfold mat
  congr 1
  funext i
  exact apply_mat h _

def squares : Nat → List (BitVec 32) → List (BitVec 32)
  | 0, m => m
  | n + 1, m => squares n (square m)

theorem bitSteps_linear (n : Nat) : Linear (bitSteps n) := bitSteps_xor n

theorem squares_mat (k n : Nat) : squares k (mat (bitSteps n)) = mat (bitSteps (n * 2 ^ k)) := by
  induction k generalizing n with
  | zero => simp [squares]
  | succ k ih =>
    rw [squares, square_mat (bitSteps_linear n)]
    have : (fun c => bitSteps n (bitSteps n c)) = bitSteps (n + n) := by
      funext c; rw [bitSteps_add]
    rw [this, ih]
    congr 2
    rw [Nat.pow_succ, ← Nat.two_mul]
    ac_rfl

/-- The multiplicative order of x divides 2^32 - 1: 2^32 zero bytes have the effect of one. -/
theorem bitSteps_wrap (c : BitVec 32) : bitSteps (8 * 2 ^ 32) c = bitSteps 8 c := by
  rw [← apply_mat (bitSteps_linear _), ← squares_mat, ← apply_mat (bitSteps_linear 8)]
  have : squares 32 (mat (bitSteps 8)) = mat (bitSteps 8) := by decide +kernel
  rw [this]

end Verif.Crc
