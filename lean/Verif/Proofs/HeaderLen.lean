/-
Lengths of serialized headers, and what `Header_Set` does to them.
-/
import Verif.Proofs.Header

namespace Verif.Header
open Verif

/-- Length of the text of the fields. -/
def flen (fs : Fields) : Nat := ((fs.map fun f => f.1 ++ b!": " ++ f.2 ++ b!"\r\n").flatten).length

theorem flen_cons (f : Bytes × Bytes) (fs : Fields) : flen (f :: fs) = f.1.length + 2 + f.2.length + 2 + flen fs := by
  simp only [flen, List.map_cons, List.flatten_cons, List.length_append]
  rfl

theorem serialize_length (pfx : Bytes) (h : Hdr) :
    (headerSerialize pfx h).length = 32 + pfx.length + h.id.length + flen h.fields := by
  simp only [headerSerialize, List.length_append, flen]
  have h1 : (b!"WARC/1.1\r\n").length = 10 := rfl
  have h2 : (b!"WARC-Record-ID: <").length = 17 := rfl
  have h3 : (b!">\r\n").length = 3 := rfl
  have h4 : (b!"\r\n").length = 2 := rfl
  have h5 : (b!": ").length = 2 := rfl
  simp only [h1, h2, h3, h4]
  show 10 + 17 + pfx.length + h.id.length + 3 + _ + 2 = _
  omega

theorem takeField_len (name : Bytes) (fs : Fields) :
    (lookup name fs = none ∧ takeField name fs = (name, fs)) ∨
    ∃ g ∈ fs, lookup name fs = some g.2 ∧ (takeField name fs).1 = g.1 ∧
      flen fs = flen (takeField name fs).2 + (g.1.length + 2 + g.2.length + 2) ∧
      ∀ x ∈ (takeField name fs).2, x ∈ fs := by
  induction fs with
  | nil => exact .inl ⟨rfl, rfl⟩
  | cons f fs ih =>
    by_cases h : strcasecmp name f.1 = .eq
    · refine .inr ⟨f, by simp, ?_, ?_, ?_, ?_⟩
      · rw [lookup_cons, if_pos h]
      · simp [takeField, h]
      · simp only [takeField, h, if_true, flen_cons]; omega
      · simp only [takeField, h, if_true]
        intro x hx
        exact List.mem_cons_of_mem _ hx
    · rcases ih with ⟨i1, i2⟩ | ⟨g, g1, g2, g3, g4, g5⟩
      · refine .inl ⟨by rw [lookup_cons, if_neg h, i1], ?_⟩
        simp [takeField, h, i2]
      · refine .inr ⟨g, by simp [g1], by rw [lookup_cons, if_neg h, g2], ?_, ?_, ?_⟩
        · simp only [takeField, h, if_false]; exact g3
        · simp only [takeField, h, if_false, flen_cons]; omega
        · simp only [takeField, h, if_false]
          intro x hx
          rcases List.mem_cons.1 hx with rfl | hx
          · simp
          · exact List.mem_cons_of_mem _ (g5 x hx)

theorem insertField_len (name : Bytes) (f : Bytes × Bytes) (fs r : Fields) (h : insertField name f fs = .ok r) :
    flen r = flen fs + (f.1.length + 2 + f.2.length + 2) ∧ ∀ x ∈ r, x = f ∨ x ∈ fs := by
  induction fs generalizing r with
  | nil => cases h; exact ⟨by rw [flen_cons]; simp only [flen]; simp, by simp⟩
  | cons g gs ih =>
    unfold insertField at h
    cases hc : strcasecmp name g.1 with
    | eq => simp [hc] at h
    | lt =>
      simp only [hc] at h
      cases h
      refine ⟨by simp only [flen_cons]; omega, ?_⟩
      intro x hx
      simpa using hx
    | gt =>
      simp only [hc, Res.bind_eq_ok, Res.pure_eq] at h
      obtain ⟨r', e1, e2⟩ := h
      cases e2
      obtain ⟨i1, i2⟩ := ih r' e1
      refine ⟨by simp only [flen_cons]; omega, ?_⟩
      intro x hx
      rcases List.mem_cons.1 hx with rfl | hx
      · simp
      · rcases i2 x hx with h | h
        · exact .inl h
        · exact .inr (by simp [h])

/-- Everything there is to know about a successful `Header_Set`. -/
theorem headerSet_inv {h h' : Hdr} {n v : Bytes} (hs : SortedF h.fields) (he : headerSet h n v = .ok h') :
    nameOk n = true ∧ h'.id = h.id ∧ SortedF h'.fields ∧
    (∀ m, headerGet h' m = if strcasecmp m n = .eq then some v else headerGet h m) ∧
    (∀ f ∈ h'.fields, f ∈ h.fields ∨ f.2 = v ∧ (f.1 = n ∨ ∃ g ∈ h.fields, g.1 = f.1)) ∧
    (headerGet h n = none ∧ flen h'.fields = flen h.fields + (n.length + 2 + v.length + 2) ∨
      ∃ o, headerGet h n = some o ∧ flen h'.fields + o.length = flen h.fields + v.length) := by
  have hn : nameOk n = true := by
    unfold headerSet at he
    rw [Res.check_bind_eq_ok] at he
    exact he.1
  obtain ⟨h'', e, s1, s2, s3⟩ := headerSet_spec h n v hs hn
  rw [he] at e
  cases e
  refine ⟨hn, s1, s2, s3, ?_⟩
  unfold headerSet at he
  rw [Res.check_bind_eq_ok] at he
  obtain ⟨-, he⟩ := he
  simp only [Res.bind_eq_ok, Res.pure_eq] at he
  obtain ⟨r, e1, e2⟩ := he
  cases e2
  obtain ⟨l1, l2⟩ := insertField_len _ _ _ _ e1
  simp only
  rcases takeField_len n h.fields with ⟨t1, t2⟩ | ⟨g, g1, g2, g3, g4, g5⟩
  · rw [t2] at l1 l2
    refine ⟨?_, .inl ⟨t1, l1⟩⟩
    intro f hf
    rcases l2 f hf with rfl | hf
    · exact .inr ⟨rfl, .inl rfl⟩
    · exact .inl hf
  · refine ⟨?_, .inr ⟨g.2, g2, ?_⟩⟩
    · intro f hf
      rcases l2 f hf with rfl | hf
      · exact .inr ⟨rfl, .inr ⟨g, g1, g3.symm⟩⟩
      · exact .inl (g5 f hf)
    · rw [g3] at l1
      simp only at l1
      omega

end Verif.Header
