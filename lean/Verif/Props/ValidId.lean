/-
Property C11: ID validation.
-/
import Verif.Model.ValidId

namespace Verif.Props
open Verif Index

/-- Specification: `id` is `pre ++ bare`, where `pre` is the configured prefix in any letter case, or
`pre` is empty and `id` does not start with the prefix in any letter case. -/
def StripsTo (pfx id bare : Bytes) : Prop :=
  (∃ pre, id = pre ++ bare ∧ pre.map toLower = pfx.map toLower) ∨
  ((¬ ∃ pre rest, id = pre ++ rest ∧ pre.map toLower = pfx.map toLower) ∧ bare = id)

theorem strncase_prefix {id pfx : Bytes} :
    strncasecmpEq id pfx pfx.length = true ↔
      ∃ pre rest, id = pre ++ rest ∧ pre.map toLower = pfx.map toLower := by
  simp only [strncasecmpEq, List.take_length, beq_iff_eq]
  constructor
  · intro h
    exact ⟨id.take pfx.length, id.drop pfx.length, (List.take_append_drop _ _).symm, h⟩
  · rintro ⟨pre, rest, rfl, h⟩
    have hl : pre.length = pfx.length := by simpa using congrArg List.length h
    rw [← hl, List.take_left, h]

theorem skipPrefix_spec (pfx id bare : Bytes) : skipPrefix pfx id = bare ↔ StripsTo pfx id bare := by
  unfold skipPrefix StripsTo
  by_cases h : strncasecmpEq id pfx pfx.length = true
  · rw [if_pos h]
    have h' := strncase_prefix.1 h
    constructor
    · rintro rfl
      refine .inl ⟨id.take pfx.length, (List.take_append_drop _ _).symm, ?_⟩
      simpa only [strncasecmpEq, List.take_length, beq_iff_eq] using h
    · rintro (⟨pre, rfl, hp⟩ | ⟨hn, _⟩)
      · have hl : pre.length = pfx.length := by simpa using congrArg List.length hp
        rw [← hl, List.drop_left]
      · exact absurd h' hn
  · rw [if_neg h]
    have h' := mt strncase_prefix.2 h
    constructor
    · rintro rfl; exact .inr ⟨h', rfl⟩
    · rintro (⟨pre, rfl, hp⟩ | ⟨_, rfl⟩)
      · exact absurd ⟨pre, bare, rfl, hp⟩ h'
      · rfl

theorem isHex_not_sep {c : UInt8} (h : isHex c = true) : (c == 58 || c == 47) = false := by
  have tbl : ∀ n : Fin 256, isHex (UInt8.ofNat n) = true → (UInt8.ofNat n == 58 || UInt8.ofNat n == 47) = false := by
    set_option maxRecDepth 20000 in decide
  have := tbl ⟨c.toNat, c.toNat_lt⟩
  simp only [UInt8.ofNat_toNat] at this
  exact this h

/-- C11: an ID is accepted, with bare form `bare`, exactly if it strips to `bare` and `bare` is made
of exactly `idSize` hex digits.  For all strings, prefixes and sizes. -/
theorem C11_valid_id (pfx : Bytes) (idSize : Nat) (id bare : Bytes) :
    idxValidId pfx idSize id = .ok bare ↔
      StripsTo pfx id bare ∧ (∀ c ∈ bare, isHex c = true) ∧ bare.length = idSize := by
  rw [← skipPrefix_spec]
  unfold idxValidId
  simp only
  generalize skipPrefix pfx id = x
  constructor
  · intro h
    split at h
    · cases h
    split at h
    · cases h
    rename_i h1 h2
    split at h
    · cases h
    split at h
    · cases h
    cases h
    refine ⟨rfl, ?_, by omega⟩
    rw [← List.all_eq_true]
    simpa using h2
  · rintro ⟨rfl, h2, h3⟩
    have hh : x.all isHex = true := List.all_eq_true.2 h2
    have hs : x.any (fun c => c == 58 || c == 47) = false := by
      rw [List.any_eq_false]
      intro c hc
      rw [isHex_not_sep (h2 c hc)]
      simp
    simp [hs, hh, h3]

/-- C11, rejections: which of the four messages a rejected ID gets. -/
theorem C11_errors (pfx : Bytes) (idSize : Nat) (id bare : Bytes) (hs : StripsTo pfx id bare) :
    (idxValidId pfx idSize id = .error .wrongPrefix ↔ 58 ∈ bare ∨ 47 ∈ bare) ∧
    (idxValidId pfx idSize id = .error .nonHex ↔
      (58 ∉ bare ∧ 47 ∉ bare) ∧ ∃ c ∈ bare, isHex c = false) ∧
    (idxValidId pfx idSize id = .error .tooShort ↔
      (∀ c ∈ bare, isHex c = true) ∧ bare.length < idSize) ∧
    (idxValidId pfx idSize id = .error .tooLong ↔
      (∀ c ∈ bare, isHex c = true) ∧ idSize < bare.length) := by
  rw [← skipPrefix_spec] at hs
  unfold idxValidId
  simp only
  rw [hs]
  have hany : bare.any (fun c => c == 58 || c == 47) = true ↔ 58 ∈ bare ∨ 47 ∈ bare := by
    simp only [List.any_eq_true, Bool.or_eq_true, beq_iff_eq]
    constructor
    · rintro ⟨c, hc, rfl | rfl⟩
      · exact .inl hc
      · exact .inr hc
    · rintro (h | h)
      · exact ⟨58, h, .inl rfl⟩
      · exact ⟨47, h, .inr rfl⟩
  by_cases h1 : bare.any (fun c => c == 58 || c == 47) = true
  · have h2 := hany.1 h1
    have h3 : ¬ ∀ c ∈ bare, isHex c = true := by
      intro hc
      obtain ⟨c, hc1, hc2⟩ := List.any_eq_true.1 h1
      rw [isHex_not_sep (hc c hc1)] at hc2
      cases hc2
    have h4 : ¬ (58 ∉ bare ∧ 47 ∉ bare) := by
      rintro ⟨a, b⟩
      exact h2.elim a b
    simp only [h1, if_true, h2, h3, h4, false_and]
    simp
  · have h2 := mt hany.2 h1
    rw [not_or] at h2
    by_cases h4 : bare.all isHex = true
    · have h5 : ∀ c ∈ bare, isHex c = true := List.all_eq_true.1 h4
      have h6 : ¬ ∃ c ∈ bare, isHex c = false := by
        rintro ⟨c, hc, hf⟩
        rw [h5 c hc] at hf
        cases hf
      have hne : ¬ (bare.all isHex = false) := by simp [h4]
      by_cases h7 : bare.length < idSize
      · simp [h1, h2, h4, h6, h7]
        exact ⟨h5, fun _ => by omega⟩
      · by_cases h8 : idSize < bare.length
        · simp [h1, h2, h4, h6, h7, h8]
          exact h5
        · simp [h1, h2, h4, h6, h7, h8]
    · have h5 : ∃ c ∈ bare, isHex c = false := by
        rw [Bool.not_eq_true, List.all_eq_false] at h4
        obtain ⟨c, hc, hf⟩ := h4
        exact ⟨c, hc, by simpa using hf⟩
      have h6 : ¬ ∀ c ∈ bare, isHex c = true := by
        obtain ⟨c, hc, hf⟩ := h5
        intro h
        rw [h c hc] at hf
        cases hf
      simp [h1, h2, h4, h5, h6]

/-- Both spellings of an ID are accepted, upper case is preserved, junk is refused. -/
example : idxValidId b!"http://x/" 4 b!"HTTP://x/00aF" = .ok b!"00aF" ∧
    idxValidId b!"http://x/" 4 b!"00aF" = .ok b!"00aF" ∧
    idxValidId b!"http://x/" 4 b!"http://y/00aF" = .error .wrongPrefix ∧
    idxValidId b!"http://x/" 4 b!"00a" = .error .tooShort := by decide

end Verif.Props
