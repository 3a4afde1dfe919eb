import Verif.Model.Silo
import Verif.Proofs.Dec

namespace Verif.Silo
open Verif

theorem decVal_zeros (k : Nat) (l : Bytes) : decVal (List.replicate k 48 ++ l) = decVal l := by
  induction k with
  | zero => rfl
  | succ k ih =>
    rw [List.replicate_succ, List.cons_append]
    unfold decVal at *
    simpa using ih

theorem decVal_zpad (w n : Nat) : decVal (zpad w n) = n := by
  rw [zpad, decVal_zeros, decVal_dec]

theorem zpad_inj {w m n : Nat} (h : zpad w m = zpad w n) : m = n := by
  rw [← decVal_zpad w m, ← decVal_zpad w n, h]

theorem zpad_digits (w n : Nat) : ∀ c ∈ zpad w n, isDigit c = true := by
  intro c hc
  rcases List.mem_append.1 hc with h | h
  · rw [List.mem_replicate] at h
    rw [h.2]; rfl
  · exact dec_digits n c h

theorem digit_ne {c d : UInt8} (hc : isDigit c = true) (hd : isDigit d = false) : c ≠ d := by
  rintro rfl
  rw [hc] at hd
  cases hd

theorem count_digits {l : Bytes} (h : ∀ c ∈ l, isDigit c = true) {d : UInt8} (hd : isDigit d = false) :
    l.count d = 0 := by
  rw [List.count_eq_zero]
  intro hm
  have := h d hm
  rw [this] at hd
  cases hd

theorem zpad2_length {n : Nat} (h : n < 100) : (zpad 2 n).length = 2 := by
  have : ∀ n : Fin 100, (zpad 2 n).length = 2 := by decide
  exact this ⟨n, h⟩

theorem numpart_slashes (fuel lvl num : Nat) (hl : 0 < lvl) (hf : num < fuel) : 2 ≤ (numpart fuel lvl num).count 47 := by
  induction fuel generalizing lvl num with
  | zero => omega
  | succ f ih =>
    rw [numpart, List.count_append, if_pos hl, List.count_append, count_digits (zpad_digits _ _) (d := 47) (by decide)]
    have h1 : (b!"/" : Bytes).count 47 = 1 := by decide
    rw [h1]
    split
    · have := ih (lvl + 1) (num / 100) (by omega) (by omega)
      omega
    · rw [List.count_append, h1, count_digits (dec_digits _) (by decide)]
      omega

theorem numpart_inj (f1 f2 lvl m n : Nat) (hl : 0 < lvl) (h1 : m < f1) (h2 : n < f2)
    (h : numpart f1 lvl m = numpart f2 lvl n) : m = n := by
  induction f1 generalizing f2 lvl m n with
  | zero => omega
  | succ f1 ih =>
    cases f2 with
    | zero => omega
    | succ f2 =>
      rw [numpart, numpart, if_pos hl, if_pos hl] at h
      have hlen : (zpad 2 (m % 100) ++ b!"/").length = (zpad 2 (n % 100) ++ b!"/").length := by
        rw [List.length_append, List.length_append, zpad2_length (Nat.mod_lt _ (by omega)),
          zpad2_length (Nat.mod_lt _ (by omega))]
      obtain ⟨e1, e2⟩ := List.append_inj' h hlen
      have e3 := zpad_inj (List.append_cancel_right e2)
      split at e1
      · split at e1
        · have := ih f2 (lvl + 1) (m / 100) (n / 100) (by omega) (by omega) (by omega) e1
          omega
        · exfalso
          have := numpart_slashes f1 (lvl + 1) (m / 100) (by omega) (by omega)
          rw [e1, List.count_append, count_digits (dec_digits _) (by decide)] at this
          revert this
          decide
      · split at e1
        · exfalso
          have := numpart_slashes f2 (lvl + 1) (n / 100) (by omega) (by omega)
          rw [← e1, List.count_append, count_digits (dec_digits _) (by decide)] at this
          revert this
          decide
        · omega

theorem numpart0_eq {f1 f2 m n : Nat} (h1 : m < f1) (h2 : n < f2) :
    numpart f1 0 m = numpart f2 0 n ↔ m / 100 = n / 100 := by
  cases f1 with
  | zero => omega
  | succ f1 =>
  cases f2 with
  | zero => omega
  | succ f2 =>
    simp only [numpart, Nat.lt_irrefl, gt_iff_lt, if_false, List.append_nil, Nat.zero_add]
    constructor
    · intro h
      split at h
      · split at h
        · exact numpart_inj _ _ 1 _ _ (by omega) (by omega) (by omega) h
        · exfalso
          have := numpart_slashes f1 1 (m / 100) (by omega) (by omega)
          rw [h, List.count_append, count_digits (dec_digits _) (by decide)] at this
          revert this
          decide
      · split at h
        · exfalso
          have := numpart_slashes f2 1 (n / 100) (by omega) (by omega)
          rw [← h, List.count_append, count_digits (dec_digits _) (by decide)] at this
          revert this
          decide
        · omega
    · intro h
      have hfuel : ∀ a b l k : Nat, k < a → k < b → numpart a l k = numpart b l k := by
        intro a
        induction a with
        | zero => intro b l k hk; omega
        | succ a ih =>
          intro b l k h1 h2
          cases b with
          | zero => omega
          | succ b =>
            rw [numpart, numpart]
            congr 1
            split
            · exact ih b (l + 1) (k / 100) (by omega) (by omega)
            · rfl
      split
      · rw [if_pos (by omega), h]
        exact hfuel _ _ _ _ (by omega) (by omega)
      · rw [if_neg (by omega)]

theorem numpart_endsSlash (fuel lvl num : Nat) (hf : num < fuel) : ∃ p, numpart fuel lvl num = p ++ [47] := by
  induction fuel generalizing lvl num with
  | zero => omega
  | succ f ih =>
    rw [numpart]
    by_cases hl : lvl > 0
    · rw [if_pos hl]
      exact ⟨_, (List.append_assoc _ _ _).symm⟩
    · rw [if_neg hl, List.append_nil]
      split
      · exact ih _ _ (by omega)
      · exact ⟨_, rfl⟩

/-- Split at the last slash is unique. -/
theorem slash_split {a b x y : Bytes} (hx : 47 ∉ x) (hy : 47 ∉ y) (h : a ++ [47] ++ x = b ++ [47] ++ y) :
    a = b ∧ x = y := by
  have key : ∀ (p q r t : Bytes), 47 ∉ p → 47 ∉ r → p ++ 47 :: q = r ++ 47 :: t → p = r ∧ q = t := by
    intro p
    induction p with
    | nil =>
      intro q r t _ hr h
      cases r with
      | nil => simpa using h
      | cons z zs =>
        simp only [List.nil_append, List.cons_append, List.cons.injEq] at h
        exfalso; apply hr; simp [h.1]
    | cons z zs ih =>
      intro q r t hp hr h
      cases r with
      | nil =>
        simp only [List.nil_append, List.cons_append, List.cons.injEq] at h
        exfalso; apply hp; simp [h.1]
      | cons w ws =>
        simp only [List.cons_append, List.cons.injEq] at h
        obtain ⟨e1, e2⟩ := ih q ws t (fun hc => hp (by simp [hc])) (fun hc => hr (by simp [hc])) h.2
        exact ⟨by rw [h.1, e1], e2⟩
  have h' : x.reverse ++ 47 :: a.reverse = y.reverse ++ 47 :: b.reverse := by
    have := congrArg List.reverse h
    simpa using this
  obtain ⟨e1, e2⟩ := key _ _ _ _ (by simpa using hx) (by simpa using hy) h'
  exact ⟨List.reverse_inj.1 e2, List.reverse_inj.1 e1⟩

end Verif.Silo
