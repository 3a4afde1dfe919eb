import Verif.Basic.CStr

namespace Verif

theorem u8_lt_irrefl (a : UInt8) : ¬ a < a := by
  intro h
  have h' : a.toNat < a.toNat := h
  omega

theorem u8_lt_asymm {a b : UInt8} (h : a < b) : ¬ b < a := by
  intro g
  have h' : a.toNat < b.toNat := h
  have g' : b.toNat < a.toNat := g
  omega

theorem u8_eq_of_not_lt {a b : UInt8} (h : ¬ a < b) (g : ¬ b < a) : a = b := by
  have h' : ¬ a.toNat < b.toNat := h
  have g' : ¬ b.toNat < a.toNat := g
  exact UInt8.toNat_inj.1 (by omega)

theorem u8_lt_trans {a b c : UInt8} (h : a < b) (g : b < c) : a < c := by
  have h' : a.toNat < b.toNat := h
  have g' : b.toNat < c.toNat := g
  show a.toNat < c.toNat
  omega

theorem strcmp_refl (a : Bytes) : strcmp a a = .eq := by
  induction a with
  | nil => rfl
  | cons x xs ih => simp [strcmp, u8_lt_irrefl, ih]

theorem strcmp_eq {a b : Bytes} : strcmp a b = .eq ↔ a = b := by
  constructor
  · fun_induction strcmp a b with
    | case1 => simp
    | case2 => simp
    | case3 => simp
    | case4 => simp
    | case5 => simp
    | case6 a as b bs h1 h2 ih =>
      intro h
      rw [ih h, u8_eq_of_not_lt h1 h2]
  · rintro rfl; exact strcmp_refl a

theorem strcmp_swap (a b : Bytes) : strcmp b a = (strcmp a b).swap := by
  fun_induction strcmp a b with
  | case1 => rfl
  | case2 => rfl
  | case3 => rfl
  | case4 a as b bs h => simp [strcmp, h, u8_lt_asymm h]
  | case5 a as b bs h1 h2 => simp [strcmp, h2]
  | case6 a as b bs h1 h2 ih => simp [strcmp, h1, h2, ih]

theorem strcmp_gt {a b : Bytes} : strcmp a b = .gt ↔ strcmp b a = .lt := by
  rw [strcmp_swap a b]
  cases strcmp a b <;> simp

theorem strcmp_lt_trans {a b c : Bytes} (h : strcmp a b = .lt) (g : strcmp b c = .lt) : strcmp a c = .lt := by
  induction a generalizing b c with
  | nil =>
    cases b with
    | nil => simp [strcmp] at h
    | cons y ys =>
      cases c with
      | nil => simp [strcmp] at g
      | cons z zs => rfl
  | cons x xs ih =>
    cases b with
    | nil => simp [strcmp] at h
    | cons y ys =>
      cases c with
      | nil => simp [strcmp] at g
      | cons z zs =>
        simp only [strcmp] at h g ⊢
        by_cases h1 : x < y
        · by_cases h2 : y < z
          · simp [u8_lt_trans h1 h2]
          · by_cases h3 : z < y
            · simp [h2, h3] at g
            · have := u8_eq_of_not_lt h2 h3
              subst this
              simp [h1]
        · by_cases h2 : y < x
          · simp [h1, h2] at h
          · have := u8_eq_of_not_lt h1 h2
            subst this
            simp only [u8_lt_irrefl, if_false] at h
            by_cases h3 : x < z
            · simp [h3]
            · by_cases h4 : z < x
              · simp [h3, h4] at g
              · simp only [h3, h4, if_false] at g ⊢
                exact ih h g

theorem strcasecmp_eq {a b : Bytes} : strcasecmp a b = .eq ↔ a.map toLower = b.map toLower := strcmp_eq

theorem strcasecmp_gt {a b : Bytes} : strcasecmp a b = .gt ↔ strcasecmp b a = .lt := strcmp_gt

theorem strcasecmp_lt_trans {a b c : Bytes} (h : strcasecmp a b = .lt) (g : strcasecmp b c = .lt) :
    strcasecmp a c = .lt := strcmp_lt_trans h g

theorem strcasecmp_congr {a a' b b' : Bytes} (h : a.map toLower = a'.map toLower)
    (g : b.map toLower = b'.map toLower) : strcasecmp a b = strcasecmp a' b' := by
  unfold strcasecmp
  rw [h, g]

theorem strcasecmp_refl (a : Bytes) : strcasecmp a a = .eq := strcmp_refl _

end Verif
