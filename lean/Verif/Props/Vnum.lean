/-
Property C48: sizes with suffixes.
-/
import Verif.Model.Vnum
import Verif.Proofs.Dec
import Mathlib.Tactic.Linarith
import Mathlib.Tactic.NormNum
import Mathlib.Tactic.Positivity
import Mathlib.Tactic.Ring
import Mathlib.Tactic.FieldSimp
import Mathlib.Algebra.Order.Field.Rat
import Mathlib.Algebra.Order.Floor.Ring
import Mathlib.Data.Rat.Floor

namespace Verif.Props
open Verif Vnum

/-- What is assumed of the floating point arithmetic: IEEE 754 double precision satisfies it.
Products in the normal range have relative error at most 2^-53, integers up to 2^53 are exact, and
`pow(10., e)` has relative error at most 2^-52 and is 1 for e = 0. -/
structure IEEE (fp : FP) : Prop where
  mul_err : ∀ a b : ℚ, 1 / 2 ^ 200 ≤ |a * b| → |a * b| ≤ 2 ^ 200 → |fp.mul a b - a * b| ≤ |a * b| / 2 ^ 53
  mul_int : ∀ a b : ℤ, |a * b| ≤ 2 ^ 53 → fp.mul a b = a * b
  zero_mul : ∀ b : ℚ, fp.mul 0 b = 0
  add_int : ∀ a b : ℤ, |a + b| ≤ 2 ^ 53 → fp.add a b = a + b
  sub_int : ∀ a b : ℤ, |a - b| ≤ 2 ^ 53 → fp.sub a b = a - b
  pow_err : ∀ e : ℤ, -300 ≤ e → e ≤ 300 → |fp.pow10 e - 10 ^ e| ≤ 10 ^ e / 2 ^ 52
  pow_zero : fp.pow10 0 = 1

/-- Exact arithmetic satisfies the assumptions. -/
def exactFP : FP := ⟨fun a b => a * b, fun a b => a + b, fun a b => a - b, fun e => 10 ^ e⟩

theorem exactFP_ieee : IEEE exactFP := by
  constructor
  · intro a b _ _; simp [exactFP]; positivity
  · intro a b _; simp [exactFP]
  · intro b; simp [exactFP]
  · intro a b _; simp [exactFP]
  · intro a b _; simp [exactFP]
  · intro e _ _
    have : (0:ℚ) < 10 ^ e := zpow_pos (by norm_num) e
    simp [exactFP]; positivity
  · simp [exactFP]

/-! ### Specification -/

/-- The suffixes and the power of two they stand for. -/
inductive Suffix : Bytes → Nat → Prop
  | b (c : UInt8) (h : c = 98 ∨ c = 66) : Suffix [c] 0
  | k (c : UInt8) (h : c = 107 ∨ c = 75) : Suffix [c] 10
  | m (c : UInt8) (h : c = 109 ∨ c = 77) : Suffix [c] 20
  | g (c : UInt8) (h : c = 103 ∨ c = 71) : Suffix [c] 30
  | t (c : UInt8) (h : c = 116 ∨ c = 84) : Suffix [c] 40
  | p (c : UInt8) (h : c = 112 ∨ c = 80) : Suffix [c] 50
  | kb (c d : UInt8) (h : c = 107 ∨ c = 75) (hd : d = 98 ∨ d = 66) : Suffix [c, d] 10
  | mb (c d : UInt8) (h : c = 109 ∨ c = 77) (hd : d = 98 ∨ d = 66) : Suffix [c, d] 20
  | gb (c d : UInt8) (h : c = 103 ∨ c = 71) (hd : d = 98 ∨ d = 66) : Suffix [c, d] 30
  | tb (c d : UInt8) (h : c = 116 ∨ c = 84) (hd : d = 98 ∨ d = 66) : Suffix [c, d] 40
  | pb (c d : UInt8) (h : c = 112 ∨ c = 80) (hd : d = 98 ∨ d = 66) : Suffix [c, d] 50

/-- The fraction as written. -/
def fracText (F : Option Bytes) : Bytes :=
  match F with
  | none => []
  | some f => 46 :: f

/-! ### Lemmas -/

theorem decVal_cons_acc (l : Bytes) (n : Nat) :
    l.foldl (fun n c => n * 10 + (c.toNat - 48)) n = n * 10 ^ l.length + decVal l := by
  induction l generalizing n with
  | nil => simp [decVal]
  | cons c l ih =>
    have h2 : decVal (c :: l) = (0 * 10 + (c.toNat - 48)) * 10 ^ l.length + decVal l := by
      rw [← ih]; rfl
    rw [List.foldl_cons, ih, h2, List.length_cons, pow_succ]
    ring

theorem digit_range {c : UInt8} (h : isDigit c = true) : 48 ≤ c.toNat ∧ c.toNat ≤ 57 := by
  unfold isDigit at h
  simp at h
  have h1 := UInt8.le_iff_toNat_le.1 h.1
  have h2 := UInt8.le_iff_toNat_le.1 h.2
  exact ⟨h1, h2⟩

theorem step_exact {fp : FP} (hf : IEEE fp) {n : Nat} {c : UInt8} (hc : isDigit c = true)
    (hb : n * 10 + (c.toNat - 48) < 2 ^ 52) :
    fp.sub (fp.add (fp.mul (n : ℚ) 10) (c.toNat : ℚ)) 48 = ((n * 10 + (c.toNat - 48) : Nat) : ℚ) := by
  obtain ⟨h1, h2⟩ := digit_range hc
  have h52 : (2:ℕ) ^ 52 = 4503599627370496 := by norm_num
  have h53 : (2:ℤ) ^ 53 = 9007199254740992 := by norm_num
  rw [h52] at hb
  have e1 : fp.mul (n : ℚ) 10 = ((n * 10 : ℤ) : ℚ) := by
    have := hf.mul_int (n : ℤ) 10 (by rw [h53, abs_of_nonneg (by positivity)]; omega)
    push_cast at this ⊢
    exact this
  have e2 : fp.add (((n * 10 : ℤ)) : ℚ) (c.toNat : ℚ) = ((n * 10 + c.toNat : ℤ) : ℚ) := by
    have := hf.add_int (n * 10 : ℤ) (c.toNat : ℤ) (by rw [h53, abs_of_nonneg (by positivity)]; omega)
    push_cast at this ⊢
    exact this
  have e3 : fp.sub ((n * 10 + c.toNat : ℤ) : ℚ) 48 = ((n * 10 + c.toNat - 48 : ℤ) : ℚ) := by
    have := hf.sub_int (n * 10 + c.toNat : ℤ) 48 (by rw [h53, abs_of_nonneg (by omega)]; omega)
    push_cast at this ⊢
    exact this
  rw [e1, e2, e3]
  have : ((n * 10 + (c.toNat - 48) : Nat) : ℤ) = n * 10 + c.toNat - 48 := by omega
  rw [← this]
  simp

/-- Not a character the mantissa loop goes on with (`pt`: there was a decimal point). -/
def Stops (pt : Bool) (r : Bytes) : Prop := ∀ c, r.head? = some c → isDigit c = false ∧ (c ≠ 46 ∨ pt = true)

theorem mantissa_stop (fp : FP) {r : Bytes} {pt : Bool} (hr : Stops pt r) (m : ℚ) (e ne : ℤ) (hpt : pt = true → ne ≠ 0) :
    mantissa fp r m e ne = ⟨m, e, ne, r⟩ := by
  cases r with
  | nil => rfl
  | cons c r =>
    obtain ⟨h1, h2⟩ := hr c rfl
    rw [mantissa, if_neg (by rw [h1]; simp), if_neg (fun h => h2.elim (fun e => e h.1) fun e => hpt e h.2)]

theorem mantissa_int {fp : FP} (hf : IEEE fp) (l rest : Bytes) (n : Nat) (e : ℤ) (hl : ∀ c ∈ l, isDigit c = true)
    (hb : n * 10 ^ l.length + decVal l < 2 ^ 52) :
    mantissa fp (l ++ rest) n e 0 =
      mantissa fp rest ((n * 10 ^ l.length + decVal l : Nat) : ℚ) (if l = [] then e else 0) 0 := by
  induction l generalizing n e with
  | nil => simp [decVal]
  | cons c l ih =>
    have hc := hl c (by simp)
    have hval : n * 10 ^ (c :: l).length + decVal (c :: l) =
        (n * 10 + (c.toNat - 48)) * 10 ^ l.length + decVal l := by
      rw [← decVal_cons_acc, List.foldl_cons, decVal_cons_acc]
    rw [hval] at hb ⊢
    have hsm : n * 10 + (c.toNat - 48) < 2 ^ 52 := by
      have : n * 10 + (c.toNat - 48) ≤ (n * 10 + (c.toNat - 48)) * 10 ^ l.length :=
        Nat.le_mul_of_pos_right _ (by positivity)
      omega
    rw [List.cons_append, mantissa, if_pos hc, step_exact hf hc hsm]
    simp only [ne_eq, not_true_eq_false, if_false]
    rw [ih _ _ (fun x hx => hl x (by simp [hx])) hb]
    simp

theorem mantissa_frac {fp : FP} (hf : IEEE fp) (l rest : Bytes) (n : Nat) (e ne : ℤ) (hne : ne < 0)
    (hl : ∀ c ∈ l, isDigit c = true) (hb : n * 10 ^ l.length + decVal l < 2 ^ 52) :
    mantissa fp (l ++ rest) n e ne =
      mantissa fp rest ((n * 10 ^ l.length + decVal l : Nat) : ℚ)
        (if l = [] then e else ne - l.length + 1) (ne - l.length) := by
  induction l generalizing n e ne with
  | nil => simp [decVal]
  | cons c l ih =>
    have hc := hl c (by simp)
    have hval : n * 10 ^ (c :: l).length + decVal (c :: l) =
        (n * 10 + (c.toNat - 48)) * 10 ^ l.length + decVal l := by
      rw [← decVal_cons_acc, List.foldl_cons, decVal_cons_acc]
    rw [hval] at hb ⊢
    have hsm : n * 10 + (c.toNat - 48) < 2 ^ 52 := by
      have : n * 10 + (c.toNat - 48) ≤ (n * 10 + (c.toNat - 48)) * 10 ^ l.length :=
        Nat.le_mul_of_pos_right _ (by positivity)
      omega
    rw [List.cons_append, mantissa, if_pos hc, step_exact hf hc hsm, if_pos (by omega)]
    rw [ih _ _ _ (by omega) (fun x hx => hl x (by simp [hx])) hb]
    have hx : (if l = [] then ne else ne - 1 - (l.length : ℤ) + 1) = ne - ((c :: l).length : ℤ) + 1 := by
      split
      · rename_i h; subst h; simp
      · simp only [List.length_cons]; push_cast; ring
    have hy : ne - 1 - (l.length : ℤ) = ne - ((c :: l).length : ℤ) := by
      simp only [List.length_cons]; push_cast; ring
    rw [hx, hy]
    simp

theorem decVal_append (a b : Bytes) : decVal (a ++ b) = decVal a * 10 ^ b.length + decVal b := by
  unfold decVal
  rw [List.foldl_append, decVal_cons_acc]
  rfl

/-- The mantissa loop on a whole numeral. -/
theorem mantissa_numeral {fp : FP} (hf : IEEE fp) (I : Bytes) (F : Option Bytes) (rest : Bytes)
    (hI : ∀ c ∈ I, isDigit c = true) (hF : ∀ f, F = some f → ∀ c ∈ f, isDigit c = true)
    (hne : I ++ F.getD [] ≠ []) (hb : decVal (I ++ F.getD []) < 2 ^ 52) (hr : Stops F.isSome rest) :
    ∃ ne, mantissa fp (I ++ fracText F ++ rest) 0 1 0 =
      ⟨(decVal (I ++ F.getD []) : ℚ), -((F.getD []).length : ℤ), ne, rest⟩ := by
  cases F with
  | none =>
    simp only [Option.getD_none, List.append_nil, fracText] at *
    have h0 : ((0 : Nat) : ℚ) = 0 := by norm_num
    rw [← h0, mantissa_int hf I rest 0 1 hI (by simpa using hb), mantissa_stop fp hr _ _ _ (by simp)]
    exact ⟨0, by simp [hne]⟩
  | some f =>
    simp only [Option.getD_some, fracText] at *
    have h0 : ((0 : Nat) : ℚ) = 0 := by norm_num
    have hbI : decVal I < 2 ^ 52 := by
      rw [decVal_append] at hb
      have : decVal I ≤ decVal I * 10 ^ f.length := Nat.le_mul_of_pos_right _ (by positivity)
      omega
    rw [List.append_assoc, ← h0, mantissa_int hf I _ 0 1 hI (by simpa using hbI)]
    simp only [Nat.zero_mul, Nat.zero_add]
    rw [List.cons_append, mantissa, if_neg (by decide), if_pos (by simp)]
    rw [mantissa_frac hf f rest _ _ (-1) (by decide) (hF f rfl) (by rw [← decVal_append]; exact hb),
      mantissa_stop fp hr _ _ _ (by intro _; omega), ← decVal_append]
    refine ⟨-1 - (f.length : ℤ), ?_⟩
    by_cases hf0 : f = []
    · subst hf0
      have hI0 : I ≠ [] := by simpa using hne
      simp [hI0]
    · simp only [hf0, if_false]
      congr 1
      ring

theorem suffix_facts {s : Bytes} {k : Nat} (h : Suffix s k) :
    (∃ c r, s = c :: r ∧ isSpace c = false ∧ isDigit c = false ∧ c ≠ 46 ∧ c ≠ 101 ∧ c ≠ 69 ∧ c ≠ 32) ∧ s ≠ [37] ∧
    (letter (optSpace s)).1 = k ∧ optB (letter (optSpace s)).2 = [] := by
  cases h with
  | b c h => rcases h with rfl | rfl <;> exact ⟨⟨_, _, rfl, by decide⟩, by decide⟩
  | k c h => rcases h with rfl | rfl <;> exact ⟨⟨_, _, rfl, by decide⟩, by decide⟩
  | m c h => rcases h with rfl | rfl <;> exact ⟨⟨_, _, rfl, by decide⟩, by decide⟩
  | g c h => rcases h with rfl | rfl <;> exact ⟨⟨_, _, rfl, by decide⟩, by decide⟩
  | t c h => rcases h with rfl | rfl <;> exact ⟨⟨_, _, rfl, by decide⟩, by decide⟩
  | p c h => rcases h with rfl | rfl <;> exact ⟨⟨_, _, rfl, by decide⟩, by decide⟩
  | kb c d h hd => rcases h with rfl | rfl <;> rcases hd with rfl | rfl <;> exact ⟨⟨_, _, rfl, by decide⟩, by decide⟩
  | mb c d h hd => rcases h with rfl | rfl <;> rcases hd with rfl | rfl <;> exact ⟨⟨_, _, rfl, by decide⟩, by decide⟩
  | gb c d h hd => rcases h with rfl | rfl <;> rcases hd with rfl | rfl <;> exact ⟨⟨_, _, rfl, by decide⟩, by decide⟩
  | tb c d h hd => rcases h with rfl | rfl <;> rcases hd with rfl | rfl <;> exact ⟨⟨_, _, rfl, by decide⟩, by decide⟩
  | pb c d h hd => rcases h with rfl | rfl <;> rcases hd with rfl | rfl <;> exact ⟨⟨_, _, rfl, by decide⟩, by decide⟩

theorem skipSp_spaces {w s : Bytes} (hw : ∀ c ∈ w, isSpace c = true)
    (hs : ∀ c, s.head? = some c → isSpace c = false) : skipSp (w ++ s) = s := by
  induction w with
  | nil =>
    cases s with
    | nil => rfl
    | cons c s => rw [List.nil_append, skipSp, if_neg (by rw [hs c rfl]; simp)]
  | cons c w ih => rw [List.cons_append, skipSp, if_pos (hw c (by simp)), ih (fun x hx => hw x (by simp [hx]))]

theorem space_facts {c : UInt8} (h : isSpace c = true) : isDigit c = false ∧ c ≠ 46 ∧ c ≠ 101 ∧ c ≠ 69 := by
  refine ⟨?_, ?_, ?_, ?_⟩
  · cases hd : isDigit c with
    | false => rfl
    | true =>
      exfalso
      obtain ⟨h1, h2⟩ := digit_range hd
      unfold isSpace at h
      simp at h
      rcases h with h | h
      · subst h; revert h1; decide
      · have := UInt8.le_iff_toNat_le.1 h.2
        have h13 : (13 : UInt8).toNat = 13 := rfl
        omega
  all_goals (rintro rfl; revert h; decide)

/-- The value in floating point is close to the exact one. -/
theorem product_close {fp : FP} (hf : IEEE fp) (n f k V : Nat) (hf300 : f ≤ 300)
    (hV : (n : ℚ) * 2 ^ k = V * 10 ^ f) (hn : n < 2 ^ 52) (hk : k ≤ 50) (hV49 : V < 2 ^ 49) (x : ℚ)
    (hx : x = fp.mul (n : ℚ) (fp.pow10 (-(f : ℤ)))) :
    (V = 0 ∧ x = 0) ∨
    (0 < V ∧ |x * 2 ^ k - V| ≤ V * (1 / 2 ^ 51) ∧ |(if k = 0 then x else fp.mul x (2 ^ k)) - V| < 1 / 2) := by
  by_cases hn0 : n = 0
  · left
    subst hn0
    have : (V : ℚ) * 10 ^ f = 0 := by rw [← hV]; simp
    have hV0 : V = 0 := by
      rcases mul_eq_zero.1 this with h | h
      · exact_mod_cast h
      · exfalso; exact absurd h (by positivity)
    refine ⟨hV0, ?_⟩
    rw [hx]; simpa using hf.zero_mul _
  right
  have hnpos : (1 : ℚ) ≤ n := by exact_mod_cast Nat.one_le_iff_ne_zero.2 hn0
  have hn52 : (n : ℚ) ≤ 2 ^ 52 := by exact_mod_cast hn.le
  have h10 : (0 : ℚ) < 10 ^ f := by positivity
  have h2k : (1 : ℚ) ≤ 2 ^ k := one_le_pow₀ (by norm_num)
  have h2k50 : (2 : ℚ) ^ k ≤ 2 ^ 50 := pow_le_pow_right₀ (by norm_num) hk
  have hVpos : 0 < V := by
    rcases Nat.eq_zero_or_pos V with h | h
    · exfalso
      rw [h] at hV
      simp at hV
      exact hn0 hV
    · exact h
  have hV1 : (1 : ℚ) ≤ V := by exact_mod_cast hVpos
  have hV49q : (V : ℚ) ≤ 2 ^ 49 := by exact_mod_cast hV49.le
  -- the power of ten
  obtain ⟨q, hq⟩ : ∃ q, q = fp.pow10 (-(f : ℤ)) := ⟨_, rfl⟩
  have hperr := hf.pow_err (-(f : ℤ)) (by omega) (by omega)
  rw [← hq] at hperr hx
  have hz : (10 : ℚ) ^ (-(f : ℤ)) = 1 / 10 ^ f := by rw [zpow_neg, zpow_natCast, one_div]
  rw [hz] at hperr
  -- exact value without the suffix
  obtain ⟨y, hy⟩ : ∃ y : ℚ, y = n * (1 / 10 ^ f) := ⟨_, rfl⟩
  have hyV : y * 2 ^ k = V := by
    rw [hy, mul_one_div, div_mul_eq_mul_div, hV]
    field_simp
  have hypos : 0 < y := by rw [hy]; positivity
  have hyle : y ≤ 2 ^ 49 := by
    calc y ≤ y * 2 ^ k := le_mul_of_one_le_right hypos.le h2k
      _ = V := hyV
      _ ≤ _ := hV49q
  have hyge : 1 / 2 ^ 50 ≤ y := by
    have : y * 2 ^ 50 ≥ 1 := by
      calc y * 2 ^ 50 ≥ y * 2 ^ k := by gcongr
        _ = V := hyV
        _ ≥ 1 := hV1
    rw [div_le_iff₀ (by positivity)]
    exact this
  have hnq : |n * q - y| ≤ y / 2 ^ 52 := by
    have : n * q - y = n * (q - 1 / 10 ^ f) := by rw [hy]; ring
    rw [this, abs_mul, abs_of_nonneg (by linarith : (0:ℚ) ≤ n)]
    calc (n : ℚ) * |q - 1 / 10 ^ f| ≤ n * (1 / 10 ^ f / 2 ^ 52) := by gcongr
      _ = y / 2 ^ 52 := by rw [hy]; ring
  have hnq' := abs_le.1 hnq
  have hnqpos : y / 2 ≤ n * q := by
    have : y / 2 ^ 52 ≤ y / 2 := by gcongr; norm_num
    linarith [hnq'.1]
  have hnqle : n * q ≤ 2 * y := by
    have : y / 2 ^ 52 ≤ y := by
      rw [div_le_iff₀ (by positivity)]
      nlinarith [hypos]
    linarith [hnq'.2]
  have hnqnn : (0 : ℚ) ≤ n * q := by linarith
  have big : (2 : ℚ) * 2 ^ 49 ≤ 2 ^ 200 := by
    rw [← pow_succ']; exact pow_le_pow_right₀ (by norm_num) (by norm_num)
  have small : (1 : ℚ) / 2 ^ 200 ≤ 1 / 2 ^ 50 / 2 := by
    rw [div_div, ← pow_succ]
    exact one_div_le_one_div_of_le (by positivity) (pow_le_pow_right₀ (by norm_num) (by norm_num))
  have hxerr := hf.mul_err (n : ℚ) q
    (by rw [abs_of_nonneg hnqnn]; linarith) (by rw [abs_of_nonneg hnqnn]; linarith)
  rw [abs_of_nonneg hnqnn, ← hx] at hxerr
  have hxerr' := abs_le.1 hxerr
  have hxy : |x - y| ≤ y / 2 ^ 51 := by
    have h1 : n * q / 2 ^ 53 ≤ 2 * y / 2 ^ 53 := by gcongr
    have h2 : 2 * y / 2 ^ 53 = y / 2 ^ 52 := by ring
    have h3 : y / 2 ^ 52 + y / 2 ^ 52 = y / 2 ^ 51 := by ring
    rw [abs_le]
    constructor <;> linarith [hxerr'.1, hxerr'.2, hnq'.1, hnq'.2]
  have hxV : |x * 2 ^ k - V| ≤ V * (1 / 2 ^ 51) := by
    have : x * 2 ^ k - V = (x - y) * 2 ^ k := by rw [← hyV]; ring
    rw [this, abs_mul, abs_of_nonneg (by positivity : (0:ℚ) ≤ 2 ^ k)]
    calc |x - y| * 2 ^ k ≤ y / 2 ^ 51 * 2 ^ k := by gcongr
      _ = y * 2 ^ k * (1 / 2 ^ 51) := by ring
      _ = _ := by rw [hyV]
  refine ⟨hVpos, hxV, ?_⟩
  have hxV' := abs_le.1 hxV
  have hVe : (V : ℚ) * (1 / 2 ^ 51) ≤ 1 / 4 := by
    calc (V : ℚ) * (1 / 2 ^ 51) ≤ 2 ^ 49 * (1 / 2 ^ 51) := by gcongr
      _ ≤ 1 / 4 := by norm_num
  have hpos : 1 / 2 ≤ x * 2 ^ k := by linarith [hxV'.1]
  by_cases hk0 : k = 0
  · subst hk0
    rw [if_pos rfl, abs_lt]
    rw [pow_zero, mul_one] at hxV'
    constructor <;> linarith [hxV'.1, hxV'.2]
  · rw [if_neg hk0]
    have hb : |x * 2 ^ k| ≤ 2 ^ 50 := by
      rw [abs_of_nonneg (by linarith)]
      have : (2:ℚ) ^ 49 + 1 / 4 ≤ 2 ^ 50 := by norm_num
      linarith [hxV'.2]
    have hb2 : (1:ℚ) / 2 ^ 200 ≤ |x * 2 ^ k| := by
      rw [abs_of_nonneg (by linarith)]
      have : (1:ℚ) / 2 ^ 200 ≤ 1 / 2 := by norm_num
      linarith
    have he := hf.mul_err x (2 ^ k) hb2 (hb.trans (by norm_num))
    have he2 : |x * 2 ^ k| / 2 ^ 53 ≤ 1 / 8 := by
      calc |x * 2 ^ k| / 2 ^ 53 ≤ 2 ^ 50 / 2 ^ 53 := by gcongr
        _ ≤ 1 / 8 := by norm_num
    have he' := abs_le.1 (he.trans he2)
    rw [abs_lt]
    constructor <;> linarith [hxV'.1, hxV'.2, he'.1, he'.2]

theorem round_close {x : ℚ} {V : Nat} (h : |x - V| < 1 / 2) : Vnum.round x = V := by
  have h' := abs_lt.1 h
  unfold Vnum.round
  by_cases hx : 0 ≤ x
  · rw [if_pos hx]
    have : (x + 1 / 2).floor = (V : ℤ) := by
      have := (Int.floor_eq_iff (a := x + 1 / 2) (z := (V : ℤ))).2
        ⟨by push_cast; linarith [h'.1], by push_cast; linarith [h'.2]⟩
      exact this
    rw [this]; simp
  · rw [if_neg hx]
    push Not at hx
    have hV : V = 0 := by
      rcases Nat.eq_zero_or_pos V with h0 | h0
      · exact h0
      · exfalso
        have : (1:ℚ) ≤ V := by exact_mod_cast h0
        linarith [h'.1]
    subst hV
    have : (-x + 1 / 2).floor = 0 := by
      have := (Int.floor_eq_iff (a := -x + 1 / 2) (z := 0)).2
        ⟨by push_cast; linarith [h'.1], by push_cast at h' ⊢; linarith [h'.1]⟩
      exact this
    rw [this]; simp

theorem castU64_nat {V : Nat} (h : V < 2 ^ 64) : castU64 (V : ℚ) = .ok V := by
  unfold castU64
  have h0 : (0 : ℚ) ≤ V := by positivity
  have h1 : (V : ℚ) < 2 ^ 64 := by exact_mod_cast h
  rw [if_pos ⟨by linarith, h1⟩]
  have : (V : ℚ).floor = (V : ℤ) := Int.floor_natCast (R := ℚ) V
  rw [this]; simp

theorem sign_digit (l : Bytes) (h : ∀ c, l.head? = some c → isDigit c = true ∨ c = 46) : sign (skipSp l) = (1, l) := by
  cases l with
  | nil => rfl
  | cons c l =>
    have hc := h c rfl
    have hns : isSpace c = false := by
      cases hs : isSpace c with
      | false => rfl
      | true =>
        exfalso
        obtain ⟨h1, h2, _⟩ := space_facts hs
        rcases hc with hc | hc
        · rw [h1] at hc; cases hc
        · exact h2 hc
    have h45 : c ≠ 45 := by rintro rfl; revert hc; decide
    have h43 : c ≠ 43 := by rintro rfl; revert hc; decide
    rw [skipSp, if_neg (by rw [hns]; simp), sign, if_neg h45, if_neg h43]

theorem pfx_numeral {fp : FP} (hf : IEEE fp) (I : Bytes) (F : Option Bytes) (w s : Bytes)
    (hI : ∀ c ∈ I, isDigit c = true) (hF : ∀ f, F = some f → ∀ c ∈ f, isDigit c = true)
    (hne : I ++ F.getD [] ≠ []) (hb : decVal (I ++ F.getD []) < 2 ^ 52) (hw : ∀ c ∈ w, isSpace c = true)
    (hs : ∀ c, s.head? = some c → isSpace c = false ∧ isDigit c = false ∧ (c ≠ 46 ∨ F.isSome = true) ∧ c ≠ 101 ∧ c ≠ 69) :
    vnumPfx fp (I ++ fracText F ++ (w ++ s)) =
      some (fp.mul (decVal (I ++ F.getD []) : ℚ) (fp.pow10 (-((F.getD []).length : ℤ))), s) := by
  have hstop : ∀ c, (w ++ s).head? = some c → isDigit c = false ∧ (c ≠ 46 ∨ F.isSome = true) ∧ c ≠ 101 ∧ c ≠ 69 := by
    intro c hc
    cases w with
    | nil => exact (hs c hc).2
    | cons x w =>
      simp at hc
      subst hc
      obtain ⟨f1, f2, f3⟩ := space_facts (hw x (by simp))
      exact ⟨f1, .inl f2, f3⟩
  obtain ⟨ne, hm⟩ := mantissa_numeral hf I F (w ++ s) hI hF hne hb (fun c hc => ⟨(hstop c hc).1, (hstop c hc).2.1⟩)
  have hsign : sign (skipSp (I ++ fracText F ++ (w ++ s))) = (1, I ++ fracText F ++ (w ++ s)) := by
    apply sign_digit
    intro c hc
    cases I with
    | cons x I =>
      simp at hc
      subst hc
      exact Or.inl (hI x (by simp))
    | nil =>
      cases F with
      | none => simp at hne
      | some f =>
        simp [fracText] at hc
        exact Or.inr hc.symm
  have hexp : exponent (w ++ s) = some (0, w ++ s) := by
    obtain ⟨t, ht⟩ : ∃ t, t = w ++ s := ⟨_, rfl⟩
    rw [← ht] at hstop ⊢
    cases t with
    | nil => rfl
    | cons c t =>
      have := hstop c rfl
      unfold exponent
      simp only
      rw [if_neg (by simp [this.2.2])]
  unfold vnumPfx
  rw [hsign]
  simp only
  rw [hm]
  simp only
  rw [if_neg (by have := Int.natCast_nonneg (F.getD []).length; omega), hexp]
  simp only
  have h1 : fp.mul ((1 : ℤ) : ℚ) (decVal (I ++ F.getD []) : ℚ) = (decVal (I ++ F.getD []) : ℚ) := by
    have := hf.mul_int 1 (decVal (I ++ F.getD []) : ℤ) (by
      rw [one_mul, abs_of_nonneg (by positivity)]
      have h52 : (2:ℕ) ^ 52 = 4503599627370496 := by norm_num
      have h53 : (2:ℤ) ^ 53 = 9007199254740992 := by norm_num
      rw [h52] at hb
      rw [h53]
      omega)
    push_cast at this ⊢
    rw [this, one_mul]
  rw [h1, skipSp_spaces hw (fun c hc => (hs c hc).1)]
  simp

/-- C48: a decimal numeral, possibly with a fraction, followed by a size suffix evaluates to the number
of bytes it denotes: if I.F times 2^k is the integer V, the result is V, in any floating point
arithmetic with the IEEE error bounds.  Limits: the digits without the point make a number below
2^52, there are at most 300 digits behind the point, and V < 2^49 (half a petabyte). -/
theorem C48_size_exact {fp : FP} (hf : IEEE fp) (I : Bytes) (F : Option Bytes) (w s : Bytes) (k V rel : Nat)
    (hI : ∀ c ∈ I, isDigit c = true) (hF : ∀ f, F = some f → ∀ c ∈ f, isDigit c = true)
    (hne : I ++ F.getD [] ≠ []) (hw : ∀ c ∈ w, isSpace c = true) (hs : Suffix s k)
    (hb : decVal (I ++ F.getD []) < 2 ^ 52) (hl : (F.getD []).length ≤ 300) (hV49 : V < 2 ^ 49)
    (hV : decVal (I ++ F.getD []) * 2 ^ k = V * 10 ^ (F.getD []).length) :
    vnum2bytes fp (I ++ fracText F ++ (w ++ s)) rel = .ok V := by
  obtain ⟨⟨c, r, hcr, hc1, hc2, hc3, hc4, hc5, hc6⟩, hpct, hlet, hob⟩ := suffix_facts hs
  have hp := pfx_numeral hf I F w s hI hF hne hb hw (by
    intro d hd
    rw [hcr] at hd
    simp at hd
    subst hd
    exact ⟨hc1, hc2, .inl hc3, hc4, hc5⟩)
  have hne' : I ++ fracText F ++ (w ++ s) ≠ [] := by
    intro h
    have : s = [] := by
      have := congrArg List.length h
      simp only [List.length_append, List.length_nil] at this
      exact List.length_eq_zero_iff.1 (by omega)
    rw [this] at hcr; cases hcr
  have hk : k ≤ 50 := by cases hs <;> decide
  have hV64 : V < 2 ^ 64 := lt_trans hV49 (by norm_num)
  have hkey := product_close hf (decVal (I ++ F.getD [])) (F.getD []).length k V hl
    (by exact_mod_cast hV) hb hk hV49 _ rfl
  obtain ⟨x, hx⟩ : ∃ x, x = fp.mul (decVal (I ++ F.getD []) : ℚ) (fp.pow10 (-((F.getD []).length : ℤ))) := ⟨_, rfl⟩
  rw [← hx] at hkey hp
  have hround : Vnum.round (if k = 0 then x else fp.mul x (2 ^ k)) = V := by
    rcases hkey with ⟨hV0, hx0⟩ | ⟨_, _, h⟩
    · rw [hx0, hV0, hf.zero_mul]
      rw [ite_self]
      exact round_close (by simp)
    · exact round_close h
  unfold vnum2bytes
  rw [if_neg hne', hp]
  have hfin : (if optB (letter (optSpace s)).2 ≠ [] then Out.badSuffix
      else castU64 (Vnum.round (if (letter (optSpace s)).1 = 0 then x else fp.mul x (2 ^ (letter (optSpace s)).1)))) =
      .ok V := by
    rw [hob, hlet, hround, castU64_nat hV64]
    simp
  subst hcr
  by_cases h37 : c = 37
  · subst h37
    cases r with
    | nil => exact absurd rfl hpct
    | cons d r => exact hfin
  · simp only
    exact hfin

/-- C48, without a suffix: an integer evaluates to itself. -/
theorem C48_integer_exact {fp : FP} (hf : IEEE fp) (I : Bytes) (rel : Nat)
    (hI : ∀ c ∈ I, isDigit c = true) (hne : I ≠ []) (hb : decVal I < 2 ^ 52) :
    vnum2bytes fp I rel = .ok (decVal I) := by
  have hp := pfx_numeral hf I none [] [] hI (by intro f hf; cases hf) (by simpa using hne) (by simpa using hb)
    (by simp) (by simp)
  simp only [fracText, List.append_nil, Option.getD_none, List.length_nil] at hp
  have h0 : (-((0 : ℕ) : ℤ)) = 0 := by simp
  rw [h0, hf.pow_zero] at hp
  have h1 : fp.mul (decVal I : ℚ) 1 = (decVal I : ℚ) := by
    have := hf.mul_int (decVal I : ℤ) 1 (by
      rw [mul_one, abs_of_nonneg (by positivity)]
      have h52 : (2:ℕ) ^ 52 = 4503599627370496 := by norm_num
      have h53 : (2:ℤ) ^ 53 = 9007199254740992 := by norm_num
      rw [h52] at hb
      rw [h53]
      omega)
    push_cast at this ⊢
    rw [this, mul_one]
  unfold vnum2bytes
  rw [if_neg hne, hp, h1]
  exact castU64_nat (lt_trans hb (by norm_num))

/-- C48, errors: a numeral followed by something that is not a suffix is rejected, for example by a second
decimal point. -/
theorem C48_bad_suffix {fp : FP} (hf : IEEE fp) (I : Bytes) (F : Option Bytes) (w s : Bytes) (rel : Nat)
    (hI : ∀ c ∈ I, isDigit c = true) (hF : ∀ f, F = some f → ∀ c ∈ f, isDigit c = true)
    (hne : I ++ F.getD [] ≠ []) (hw : ∀ c ∈ w, isSpace c = true) (hb : decVal (I ++ F.getD []) < 2 ^ 52)
    (hs : ∀ c, s.head? = some c → isSpace c = false ∧ isDigit c = false ∧ (c ≠ 46 ∨ F.isSome = true) ∧ c ≠ 101 ∧ c ≠ 69)
    (hne' : s ≠ []) (hpct : s ≠ [37]) (hbad : ∀ k, ¬ Suffix s k) :
    vnum2bytes fp (I ++ fracText F ++ (w ++ s)) rel = .badSuffix := by
  have hp := pfx_numeral hf I F w s hI hF hne hb hw hs
  obtain ⟨c, r, hcr⟩ : ∃ c r, s = c :: r := by
    cases s with
    | nil => exact absurd rfl hne'
    | cons c r => exact ⟨c, r, rfl⟩
  have hc := hs c (by rw [hcr]; rfl)
  have hc32 : c ≠ 32 := by rintro rfl; exact absurd hc.1 (by decide)
  have hos : optSpace s = s := by
    rw [hcr]
    cases r with
    | nil => rfl
    | cons d r => rw [optSpace, if_neg hc32]
  have hob : optB (letter (optSpace s)).2 ≠ [] := by
    rw [hos]
    have hB : ∀ r : Bytes, optB r = [] → r = [] ∨ ∃ d, r = [d] ∧ (d = 98 ∨ d = 66) := by
      intro r h
      cases r with
      | nil => exact Or.inl rfl
      | cons d r =>
        rw [optB] at h
        split at h
        · rename_i hd; subst h; exact Or.inr ⟨d, rfl, hd⟩
        · cases h
    intro h
    rw [hcr, letter] at h
    split at h
    · rename_i hk
      rcases hB _ h with h1 | ⟨d, h1, h2⟩ <;> dsimp only at h1
      · exact hbad 10 (by rw [hcr, h1]; exact .k c hk)
      · exact hbad 10 (by rw [hcr, h1]; exact .kb c d hk h2)
    split at h
    · rename_i hk
      rcases hB _ h with h1 | ⟨d, h1, h2⟩ <;> dsimp only at h1
      · exact hbad 20 (by rw [hcr, h1]; exact .m c hk)
      · exact hbad 20 (by rw [hcr, h1]; exact .mb c d hk h2)
    split at h
    · rename_i hk
      rcases hB _ h with h1 | ⟨d, h1, h2⟩ <;> dsimp only at h1
      · exact hbad 30 (by rw [hcr, h1]; exact .g c hk)
      · exact hbad 30 (by rw [hcr, h1]; exact .gb c d hk h2)
    split at h
    · rename_i hk
      rcases hB _ h with h1 | ⟨d, h1, h2⟩ <;> dsimp only at h1
      · exact hbad 40 (by rw [hcr, h1]; exact .t c hk)
      · exact hbad 40 (by rw [hcr, h1]; exact .tb c d hk h2)
    split at h
    · rename_i hk
      rcases hB _ h with h1 | ⟨d, h1, h2⟩ <;> dsimp only at h1
      · exact hbad 50 (by rw [hcr, h1]; exact .p c hk)
      · exact hbad 50 (by rw [hcr, h1]; exact .pb c d hk h2)
    rcases hB _ h with h1 | ⟨d, h1, h2⟩ <;> dsimp only at h1
    · cases h1
    · simp at h1
      obtain ⟨rfl, rfl⟩ := h1
      exact hbad 0 (by rw [hcr]; exact .b _ h2)
  unfold vnum2bytes
  rw [if_neg (by rw [hcr]; simp), hp]
  subst hcr
  split
  · rename_i h; simp at h
  · rename_i h; simp at h
  · rename_i h
    simp at h
    exact absurd (by rw [h.2.1, h.2.2]) hpct
  · rename_i h
    simp at h
    obtain ⟨rfl, rfl⟩ := h
    rw [if_pos hob]

/-- The default of `silo.max_size`: 3.5G is 3758096384. -/
example : vnum2bytes exactFP b!"3.5G" 0 = .ok 3758096384 :=
  C48_size_exact exactFP_ieee [51] (some [53]) [] [71] 30 3758096384 0 (by decide) (by intro f h; cases h; decide)
    (by decide) (by decide) (.g 71 (Or.inr rfl)) (by decide) (by decide) (by decide) (by decide)

/-- Two decimal points. -/
example : vnum2bytes exactFP b!"1.5.2" 0 = .badSuffix :=
  C48_bad_suffix exactFP_ieee [49] (some [53]) [] [46, 50] 0 (by decide) (by intro f h; cases h; decide) (by decide) (by decide)
    (by decide) (by intro c h; cases h; exact ⟨by decide, by decide, .inr rfl, by decide, by decide⟩) (by decide) (by decide)
    (by intro k h; cases h <;> simp_all)

end Verif.Props
