import Verif.Proofs.CStr
import Verif.Model.Header

namespace Verif.Header
open Verif

abbrev Fields := List (Bytes × Bytes)

/-- Fields in strictly ascending order of name, ignoring case. -/
def SortedF (fs : Fields) : Prop := fs.Pairwise fun f g => strcasecmp f.1 g.1 = .lt

def lookup (m : Bytes) (fs : Fields) : Option Bytes :=
  (fs.find? fun f => strcasecmp m f.1 == .eq).map (·.2)

theorem headerGet_eq (h : Hdr) (m : Bytes) : headerGet h m = lookup m h.fields := rfl

theorem lookup_cons (m : Bytes) (f : Bytes × Bytes) (fs : Fields) :
    lookup m (f :: fs) = if strcasecmp m f.1 = .eq then some f.2 else lookup m fs := by
  unfold lookup
  rw [List.find?_cons]
  cases h : strcasecmp m f.1 <;> rfl

theorem takeField_spec (name : Bytes) (fs : Fields) (hs : SortedF fs) :
    (takeField name fs).1.map toLower = name.map toLower ∧
    (takeField name fs).2 = fs.filter (fun f => strcasecmp name f.1 != .eq) ∧
    SortedF (takeField name fs).2 := by
  induction fs with
  | nil => exact ⟨rfl, rfl, .nil⟩
  | cons f fs ih =>
    have hs' := List.pairwise_cons.1 hs
    by_cases h : strcasecmp name f.1 = .eq
    · have hk := strcasecmp_eq.1 h
      refine ⟨by simp [takeField, h, hk], ?_, ?_⟩
      · simp only [takeField, h, if_true]
        rw [List.filter_cons_of_neg (by simp [h])]
        symm
        rw [List.filter_eq_self]
        intro g hg
        have := hs'.1 g hg
        rw [strcasecmp_congr hk rfl, this]
        rfl
      · simp only [takeField, h, if_true]
        exact hs'.2
    · obtain ⟨i1, i2, i3⟩ := ih hs'.2
      refine ⟨by simp [takeField, h, i1], ?_, ?_⟩
      · simp only [takeField, h, if_false]
        rw [List.filter_cons_of_pos (by simp [h]), i2]
      · simp only [takeField, h, if_false]
        apply List.pairwise_cons.2
        refine ⟨?_, i3⟩
        intro g hg
        rw [i2] at hg
        exact hs'.1 g ((List.mem_filter.1 hg).1)

theorem lookup_filter (name m : Bytes) (fs : Fields) :
    lookup m (fs.filter (fun f => strcasecmp name f.1 != .eq)) =
      if strcasecmp m name = .eq then none else lookup m fs := by
  induction fs with
  | nil => simp [lookup]
  | cons f fs ih =>
    by_cases h : strcasecmp name f.1 = .eq
    · rw [List.filter_cons_of_neg (by simp [h]), ih, lookup_cons]
      have hk := strcasecmp_eq.1 h
      rw [show strcasecmp m f.1 = strcasecmp m name from strcasecmp_congr rfl hk.symm]
      by_cases hm : strcasecmp m name = .eq <;> simp [hm]
    · rw [List.filter_cons_of_pos (by simp [h]), lookup_cons, lookup_cons, ih]
      by_cases hm : strcasecmp m name = .eq
      · have hk := strcasecmp_eq.1 hm
        rw [show strcasecmp m f.1 = strcasecmp name f.1 from strcasecmp_congr hk rfl]
        simp [h, hm]
      · simp [hm]

theorem insertField_spec (name : Bytes) (f : Bytes × Bytes) (hf : f.1.map toLower = name.map toLower)
    (fs : Fields) (hs : SortedF fs) (hne : ∀ g ∈ fs, strcasecmp name g.1 ≠ .eq) :
    ∃ r, insertField name f fs = .ok r ∧ SortedF r ∧ (∀ x, x ∈ r ↔ x = f ∨ x ∈ fs) ∧
      ∀ m, lookup m r = if strcasecmp m name = .eq then some f.2 else lookup m fs := by
  induction fs with
  | nil =>
    refine ⟨[f], rfl, List.pairwise_singleton _ _, by simp, ?_⟩
    intro m
    rw [lookup_cons, strcasecmp_congr rfl hf]
  | cons g gs ih =>
    have hs' := List.pairwise_cons.1 hs
    cases hc : strcasecmp name g.1 with
    | eq => exact absurd hc (hne g (by simp))
    | lt =>
      refine ⟨f :: g :: gs, by simp [insertField, hc], ?_, by simp, ?_⟩
      · apply List.pairwise_cons.2
        refine ⟨?_, hs⟩
        intro x hx
        rw [strcasecmp_congr hf rfl]
        rcases List.mem_cons.1 hx with rfl | hx
        · exact hc
        · exact strcasecmp_lt_trans hc (hs'.1 x hx)
      · intro m
        rw [lookup_cons, strcasecmp_congr rfl hf]
    | gt =>
      obtain ⟨r, r1, r2, r3, r4⟩ := ih hs'.2 (fun x hx => hne x (by simp [hx]))
      refine ⟨g :: r, by simp [insertField, hc, r1], ?_, ?_, ?_⟩
      · apply List.pairwise_cons.2
        refine ⟨?_, r2⟩
        intro x hx
        rcases (r3 x).1 hx with rfl | hx
        · rw [strcasecmp_congr rfl hf]
          exact strcasecmp_gt.1 hc
        · exact hs'.1 x hx
      · intro x
        simp only [List.mem_cons, r3]
        constructor
        · rintro (h | h | h)
          · exact .inr (.inl h)
          · exact .inl h
          · exact .inr (.inr h)
        · rintro (h | h | h)
          · exact .inr (.inl h)
          · exact .inl h
          · exact .inr (.inr h)
      · intro m
        rw [lookup_cons, lookup_cons, r4]
        by_cases hm : strcasecmp m name = .eq
        · have : strcasecmp m g.1 = .gt := by rw [strcasecmp_congr (strcasecmp_eq.1 hm) rfl, hc]
          simp [hm, this]
        · simp [hm]

theorem headerSet_spec (h : Hdr) (name val : Bytes) (hs : SortedF h.fields) (hn : nameOk name = true) :
    ∃ h', headerSet h name val = .ok h' ∧ h'.id = h.id ∧ SortedF h'.fields ∧
      ∀ m, headerGet h' m = if strcasecmp m name = .eq then some val else headerGet h m := by
  obtain ⟨t1, t2, t3⟩ := takeField_spec name h.fields hs
  obtain ⟨r, r1, r2, r3, r4⟩ := insertField_spec name ((takeField name h.fields).1, val) t1 _ t3 (by
    intro g hg
    rw [t2] at hg
    have := (List.mem_filter.1 hg).2
    simpa using this)
  refine ⟨{ h with fields := r }, ?_, rfl, r2, ?_⟩
  · simp [headerSet, hn, r1]
  · intro m
    rw [headerGet_eq, headerGet_eq]
    simp only
    rw [r4, t2, lookup_filter]
    by_cases hm : strcasecmp m name = .eq <;> simp [hm]

theorem headerDelete_spec (h : Hdr) (name : Bytes) (hs : SortedF h.fields) (hn : nameOk name = true) :
    ∃ h', headerDelete h name = .ok h' ∧ h'.id = h.id ∧ SortedF h'.fields ∧
      ∀ m, headerGet h' m = if strcasecmp m name = .eq then none else headerGet h m := by
  refine ⟨{ h with fields := h.fields.filter fun f => strcasecmp name f.1 != .eq }, by simp [headerDelete, hn],
    rfl, List.Pairwise.sublist List.filter_sublist hs, ?_⟩
  intro m
  exact lookup_filter name m h.fields

theorem headerSet_sorted {h h' : Hdr} {name val : Bytes} (hs : SortedF h.fields)
    (hh : headerSet h name val = .ok h') : SortedF h'.fields := by
  unfold headerSet at hh
  rw [Res.check_bind_eq_ok] at hh
  obtain ⟨h'', e, -, s, -⟩ := headerSet_spec h name val hs hh.1
  unfold headerSet at e
  rw [Res.check_bind_eq_ok] at e
  have := hh.2.symm.trans e.2
  cases this
  exact s

theorem parseId_sorted {pfx r : Bytes} {h h' : Hdr} (hs : SortedF h.fields)
    (hh : parseId pfx h r = .ok h') : SortedF h'.fields := by
  unfold parseId at hh
  simp only [Res.bind_eq_ok] at hh
  obtain ⟨_, _, ⟨_, _⟩, _, _, _, ⟨_, _⟩, _, _, _, e⟩ := hh
  cases e
  exact hs

theorem parseLine_sorted {pfx line : Bytes} {h h' : Hdr} (hs : SortedF h.fields)
    (hh : parseLine pfx h line = .ok h') : SortedF h'.fields := by
  unfold parseLine at hh
  simp only [Res.bind_eq_ok] at hh
  obtain ⟨⟨p, r⟩, _, r', _, e⟩ := hh
  simp only at e
  split at e
  · exact headerSet_sorted hs e
  · exact parseId_sorted hs e

theorem parseLoop_sorted {pfx : Bytes} {fuel : Nat} {h h' : Hdr} {p : Bytes} (hs : SortedF h.fields)
    (hh : parseLoop pfx fuel h p = .ok h') : SortedF h'.fields := by
  induction fuel generalizing h p with
  | zero => simp [parseLoop] at hh
  | succ n ih =>
    unfold parseLoop at hh
    split at hh
    · cases hh; exact hs
    · simp only [Res.bind_eq_ok] at hh
      obtain ⟨⟨line, q⟩, _, q', _, e⟩ := hh
      simp only at e
      split at e
      · simp only [Res.bind_eq_ok] at e
        obtain ⟨_, _, e⟩ := e
        cases e; exact hs
      · rw [Res.bind_eq_ok] at e
        obtain ⟨h1, e1, e2⟩ := e
        exact ih (parseLine_sorted hs e1) e2

theorem headerParse_sorted {pfx p : Bytes} {h : Hdr} (hh : headerParse pfx p = .ok h) : SortedF h.fields := by
  unfold headerParse at hh
  rw [Res.check_bind_eq_ok] at hh
  obtain ⟨_, hh⟩ := hh
  rw [Res.bind_eq_ok] at hh
  obtain ⟨⟨_, q⟩, _, e⟩ := hh
  exact parseLoop_sorted (by exact List.Pairwise.nil) e

/-! ### Round trip -/

theorem cut_append {c : UInt8} {a b : Bytes} (h : c ∉ a) : cut c (a ++ c :: b) = some (a, b) := by
  induction a with
  | nil => simp [cut]
  | cons x xs ih =>
    simp only [List.mem_cons, not_or] at h
    simp [cut, Ne.symm h.1, ih h.2]

theorem cutLast_append {c : UInt8} {a b : Bytes} (h : c ∉ b) : cutLast c (a ++ c :: b) = some (a ++ [c], b) := by
  unfold cutLast
  have : (a ++ c :: b).reverse = b.reverse ++ c :: a.reverse := by simp
  rw [this, cut_append (by simpa using h)]
  simp

/-- Setting a field with the greatest name appends it. -/
theorem headerSet_last (h : Hdr) (name val : Bytes) (hn : nameOk name = true)
    (hl : ∀ f ∈ h.fields, strcasecmp f.1 name = .lt) :
    headerSet h name val = .ok { h with fields := h.fields ++ [(name, val)] } := by
  have ht : ∀ fs : Fields, (∀ f ∈ fs, strcasecmp f.1 name = .lt) → takeField name fs = (name, fs) := by
    intro fs
    induction fs with
    | nil => intro _; rfl
    | cons f fs ih =>
      intro hf
      have h1 : strcasecmp name f.1 = .gt := strcasecmp_gt.2 (hf f (by simp))
      simp [takeField, h1, ih (fun g hg => hf g (by simp [hg]))]
  have hi : ∀ fs : Fields, (∀ f ∈ fs, strcasecmp f.1 name = .lt) →
      insertField name (name, val) fs = .ok (fs ++ [(name, val)]) := by
    intro fs
    induction fs with
    | nil => intro _; rfl
    | cons f fs ih =>
      intro hf
      have h1 : strcasecmp name f.1 = .gt := strcasecmp_gt.2 (hf f (by simp))
      simp [insertField, h1, ih (fun g hg => hf g (by simp [hg]))]
  simp [headerSet, hn, ht _ hl, hi _ hl]

theorem nameOk_parts {name : Bytes} (h : nameOk name = true) : (58 : UInt8) ∉ name ∧ name ≠ RECORD_ID := by
  simp only [nameOk, Bool.and_eq_true, Bool.not_eq_true', List.contains_eq_mem, decide_eq_false_iff_not, bne_iff_ne,
    ne_eq] at h
  refine ⟨h.1, ?_⟩
  rintro rfl
  exact h.2 (strcasecmp_refl _)

/-- The loop over the serialised fields. -/
theorem parseLoop_fields (pfx : Bytes) (fs : Fields) (hok : ∀ f ∈ fs, nameOk f.1 = true ∧ 13 ∉ f.1 ∧ 13 ∉ f.2)
    (h : Hdr) (hs : SortedF (h.fields ++ fs)) (fuel : Nat) (hfuel : fs.length < fuel) :
    parseLoop pfx fuel h ((fs.map fun f => f.1 ++ b!": " ++ f.2 ++ b!"\r\n").flatten ++ b!"\r\n") =
      .ok { h with fields := h.fields ++ fs } := by
  induction fs generalizing h fuel with
  | nil =>
    cases fuel with
    | zero => omega
    | succ n => simp [parseLoop, cutOrFail, cut, expect]
  | cons f fs ih =>
    cases fuel with
    | zero => omega
    | succ n =>
      obtain ⟨o1, o2, o3⟩ := hok f (by simp)
      obtain ⟨p1, p2⟩ := nameOk_parts o1
      have hrest : ((f :: fs).map fun f => f.1 ++ b!": " ++ f.2 ++ b!"\r\n").flatten ++ b!"\r\n" =
          (f.1 ++ b!": " ++ f.2) ++ 13 :: 10 ::
            ((fs.map fun f => f.1 ++ b!": " ++ f.2 ++ b!"\r\n").flatten ++ b!"\r\n") := by
        simp [List.append_assoc]
      rw [hrest]
      have hcr : (13 : UInt8) ∉ f.1 ++ b!": " ++ f.2 := by
        simp [o2, o3]
      have hcut := cut_append (b := 10 :: ((fs.map fun f => f.1 ++ b!": " ++ f.2 ++ b!"\r\n").flatten ++ b!"\r\n")) hcr
      have hne : f.1 ++ b!": " ++ f.2 ≠ [] := by simp
      have hlt : ∀ g ∈ h.fields, strcasecmp g.1 f.1 = .lt := by
        intro g hg
        exact (List.pairwise_append.1 hs).2.2 g hg f (by simp)
      have hline : parseLine pfx h (f.1 ++ b!": " ++ f.2) = .ok { h with fields := h.fields ++ [f] } := by
        have h1 : f.1 ++ b!": " ++ f.2 = f.1 ++ 58 :: (32 :: f.2) := by simp
        unfold parseLine
        simp only [cutOrFail, h1, cut_append p1, Res.ok_bind, expect, if_true, p2, ne_eq, not_false_eq_true]
        exact headerSet_last h f.1 f.2 o1 hlt
      rw [parseLoop, if_neg (by simp)]
      simp only [cutOrFail, hcut, Res.ok_bind, expect, if_true, hne, if_false, hline]
      rw [ih (fun g hg => hok g (by simp [hg])) _ (by simpa [List.append_assoc] using hs) n
        (by simp only [List.length_cons] at hfuel; omega)]
      simp

theorem fields_len (fs : Fields) :
    fs.length ≤ ((fs.map fun f => f.1 ++ b!": " ++ f.2 ++ b!"\r\n").flatten).length := by
  induction fs with
  | nil => simp
  | cons f fs ih => simp only [List.map_cons, List.flatten_cons, List.length_append, List.length_cons] at *; omega

end Verif.Header
