/-
Property C14, the other way round: what has been parsed can be printed and parsed again.
-/
import Verif.Props.Header

namespace Verif.Props
open Verif Header

theorem cut_inv {c : UInt8} : ∀ {l a b : Bytes}, cut c l = some (a, b) → l = a ++ c :: b ∧ c ∉ a := by
  intro l
  induction l with
  | nil => intro a b h; cases h
  | cons x xs ih =>
    intro a b h
    rw [cut] at h
    by_cases hx : x = c
    · rw [if_pos hx] at h
      cases h
      exact ⟨by rw [hx]; rfl, by simp⟩
    · rw [if_neg hx] at h
      cases hc : cut c xs with
      | none => rw [hc] at h; cases h
      | some p =>
        rw [hc] at h
        simp only [Option.map_some, Option.some.injEq, Prod.mk.injEq] at h
        obtain ⟨rfl, rfl⟩ := h
        obtain ⟨h1, h2⟩ := ih (a := p.1) (b := p.2) hc
        refine ⟨by rw [h1]; rfl, ?_⟩
        simp only [List.mem_cons, not_or]
        exact ⟨fun h => hx h.symm, h2⟩

theorem cutOrFail_inv {c : UInt8} {l : Bytes} {p : Bytes × Bytes} (h : cutOrFail c l = .ok p) : l = p.1 ++ c :: p.2 ∧ c ∉ p.1 := by
  unfold cutOrFail at h
  cases hc : cut c l with
  | none => rw [hc] at h; cases h
  | some q =>
    rw [hc] at h
    cases h
    exact cut_inv hc

theorem cutLast_inv {c : UInt8} {l : Bytes} {p : Bytes × Bytes} (h : cutLastOrFail c l = .ok p) : l = p.1 ++ p.2 ∧ (∃ q, p.1 = q ++ [c]) ∧ c ∉ p.2 := by
  unfold cutLastOrFail cutLast at h
  cases hc : cut c l.reverse with
  | none => rw [hc] at h; cases h
  | some q =>
    rw [hc] at h
    cases h
    obtain ⟨h1, h2⟩ := cut_inv hc
    have h3 := congrArg List.reverse h1
    rw [List.reverse_reverse] at h3
    refine ⟨by rw [h3]; simp, ⟨q.2.reverse, by simp⟩, by simpa using h2⟩

theorem expect_inv {c : UInt8} {l m : Bytes} (h : expect c l = .ok m) : l = c :: m := by
  cases l with
  | nil => cases h
  | cons x xs =>
    rw [expect] at h
    split at h
    · rename_i hx
      cases h
      rw [hx]
    · cases h

/-- Fields as parsing makes them. -/
def ParsedFields (h : Hdr) : Prop := ∀ f ∈ h.fields, GoodName f.1 ∧ 13 ∉ f.1 ∧ 13 ∉ f.2

theorem takeField_mem (name : Bytes) : ∀ fs : List (Bytes × Bytes), ((takeField name fs).1 = name ∨ ∃ f ∈ fs, f.1 = (takeField name fs).1) ∧
    ∀ g ∈ (takeField name fs).2, g ∈ fs := by
  intro fs
  induction fs with
  | nil => exact ⟨.inl rfl, fun g hg => hg⟩
  | cons f fs ih =>
    rw [takeField]
    split
    · exact ⟨.inr ⟨f, by simp, rfl⟩, fun g hg => List.mem_cons_of_mem _ hg⟩
    · refine ⟨?_, ?_⟩
      · rcases ih.1 with h | ⟨g, h1, h2⟩
        · exact .inl h
        · exact .inr ⟨g, by simp [h1], h2⟩
      · intro g hg
        rcases List.mem_cons.1 hg with rfl | hg
        · simp
        · exact List.mem_cons_of_mem _ (ih.2 g hg)

theorem insertField_mem {name : Bytes} {f : Bytes × Bytes} : ∀ {fs r : List (Bytes × Bytes)}, insertField name f fs = .ok r → ∀ g ∈ r, g = f ∨ g ∈ fs := by
  intro fs
  induction fs with
  | nil =>
    intro r h g hg
    cases h
    simpa using hg
  | cons x fs ih =>
    intro r h g hg
    rw [insertField] at h
    split at h
    · cases h
      simpa using hg
    · cases h
    · rw [Res.bind_eq_ok] at h
      obtain ⟨r', h1, h2⟩ := h
      cases h2
      rcases List.mem_cons.1 hg with rfl | hg
      · simp
      · rcases ih h1 g hg with h | h
        · exact .inl h
        · exact .inr (List.mem_cons_of_mem _ h)

theorem set_parsed {h h' : Hdr} {n v : Bytes} (hp : ParsedFields h) (e : headerSet h n v = .ok h') (hn : 13 ∉ n) (hv : 13 ∉ v) :
    ParsedFields h' ∧ h'.id = h.id := by
  unfold headerSet at e
  simp only [Res.bind_eq_ok, Res.check_eq_ok, exists_const, Res.pure_eq, Res.ok.injEq] at e
  obtain ⟨e1, fs, e2, rfl⟩ := e
  refine ⟨?_, rfl⟩
  obtain ⟨t1, t2⟩ := takeField_mem n h.fields
  intro f hf
  rcases insertField_mem e2 f hf with rfl | hf
  · rcases t1 with t1 | ⟨g, g1, g2⟩
    · simp only [t1]
      exact ⟨(nameOk_iff n).1 e1, hn, hv⟩
    · simp only [← g2]
      exact ⟨(hp g g1).1, (hp g g1).2.1, hv⟩
  · exact hp f (t2 f hf)

/-- What is known once the ID has been parsed. -/
def ParsedId (pfx : Bytes) (h : Hdr) : Prop := (∃ p, pfx = p ++ [47]) ∧ (62 ∉ pfx ∧ 13 ∉ pfx) ∧ 47 ∉ h.id ∧ 62 ∉ h.id ∧ 13 ∉ h.id

theorem parseId_inv {pfx r : Bytes} {h h' : Hdr} (hr : 13 ∉ r) (e : parseId pfx h r = .ok h') : ParsedId pfx h' ∧ h'.fields = h.fields := by
  unfold parseId at e
  simp only [Res.bind_eq_ok, Res.check_eq_ok, exists_const, Res.pure_eq, Res.ok.injEq] at e
  obtain ⟨r1, e1, ⟨r2, s⟩, e2, -, ⟨p, id⟩, e3, e4, rfl⟩ := e
  have e4 := of_decide_eq_true e4
  simp only at e4 e3 ⊢
  subst e4
  have a1 := expect_inv e1
  obtain ⟨a2, a3⟩ := cutOrFail_inv e2
  obtain ⟨a4, a5, a6⟩ := cutLast_inv e3
  simp only at a2 a3 a4 a5 a6
  rw [a1, a2, a4] at hr
  rw [a4] at a3
  simp only [List.mem_cons, List.mem_append, not_or] at hr a3
  exact ⟨⟨a5, ⟨a3.1, hr.2.1.1⟩, a6, a3.2, hr.2.1.2⟩, trivial⟩

theorem parseLine_inv {pfx line : Bytes} {h h' : Hdr} (hl : 13 ∉ line) (hp : ParsedFields h) (e : parseLine pfx h line = .ok h') :
    ParsedFields h' ∧ (ParsedId pfx h → ParsedId pfx h') ∧ (∀ q, line = RECORD_ID ++ 58 :: q → ParsedId pfx h') := by
  unfold parseLine at e
  simp only [Res.bind_eq_ok] at e
  obtain ⟨⟨p, r⟩, e1, r', e2, e3⟩ := e
  obtain ⟨a1, a2⟩ := cutOrFail_inv e1
  have a3 := expect_inv e2
  simp only at a1 a2 a3 e3
  rw [a1, a3] at hl
  simp only [List.mem_cons, List.mem_append, not_or] at hl
  by_cases hn : p = RECORD_ID
  · rw [if_neg (by simp [hn])] at e3
    obtain ⟨b1, b2⟩ := parseId_inv hl.2.2.2 e3
    refine ⟨?_, fun _ => b1, fun _ _ => b1⟩
    intro f hf
    rw [b2] at hf
    exact hp f hf
  · rw [if_pos hn] at e3
    obtain ⟨b1, b2⟩ := set_parsed hp e3 hl.1 hl.2.2.2
    refine ⟨b1, fun hi => ?_, fun q hq => ?_⟩
    · unfold ParsedId at hi ⊢
      rw [b2]
      exact hi
    · exfalso
      have hc : cut 58 line = some (RECORD_ID, q) := by rw [hq]; exact cut_append (by decide)
      unfold cutOrFail at e1
      rw [hc] at e1
      simp only [Res.ok.injEq, Prod.mk.injEq] at e1
      exact hn e1.1.symm

theorem parseLoop_inv {pfx : Bytes} : ∀ (fuel : Nat) {h h' : Hdr} {p : Bytes}, ParsedFields h → parseLoop pfx fuel h p = .ok h' →
    ParsedFields h' ∧ (ParsedId pfx h → ParsedId pfx h') ∧ ((b!"WARC-Record-ID: <").isPrefixOf p = true → ParsedId pfx h') := by
  intro fuel
  induction fuel with
  | zero => intro h h' p _ e; cases e
  | succ fuel ih =>
    intro h h' p hp e
    rw [parseLoop] at e
    by_cases h0 : p = []
    · rw [if_pos h0] at e
      cases e
      exact ⟨hp, id, fun h => by rw [h0] at h; cases h⟩
    · rw [if_neg h0] at e
      simp only [Res.bind_eq_ok] at e
      obtain ⟨⟨line, q⟩, e1, q', e2, e3⟩ := e
      obtain ⟨a1, a2⟩ := cutOrFail_inv e1
      simp only at a1 a2 e2 e3
      have hpre : (b!"WARC-Record-ID: <").isPrefixOf p = true → ∃ q, line = RECORD_ID ++ 58 :: q := by
        intro hm
        rw [List.isPrefixOf_iff_prefix] at hm
        obtain ⟨t, ht⟩ := hm
        have hc : cut 13 p = some (line, q) := by rw [a1]; exact cut_append a2
        have hc2 : cut 13 p = (cut 13 t).map fun x => (b!"WARC-Record-ID: <" ++ x.1, x.2) := by
          rw [← ht]
          have : ∀ (l t : Bytes), (13 : UInt8) ∉ l → cut 13 (l ++ t) = (cut 13 t).map fun x => (l ++ x.1, x.2) := by
            intro l t hl
            induction l with
            | nil => simp
            | cons y l ih2 =>
              simp only [List.mem_cons, not_or] at hl
              rw [List.cons_append, cut, if_neg (fun h => hl.1 h.symm), ih2 hl.2]
              cases cut 13 t <;> simp
          exact this _ _ (by decide)
        rw [hc] at hc2
        cases ht2 : cut 13 t with
        | none => rw [ht2] at hc2; cases hc2
        | some x =>
          rw [ht2] at hc2
          simp only [Option.map_some, Option.some.injEq, Prod.mk.injEq] at hc2
          exact ⟨32 :: 60 :: x.1, by rw [hc2.1]; rfl⟩
      by_cases hl : line = []
      · rw [if_pos hl] at e3
        simp only [Res.bind_eq_ok, Res.check_eq_ok, exists_const, Res.pure_eq, Res.ok.injEq] at e3
        obtain ⟨-, rfl⟩ := e3
        refine ⟨hp, id, fun h => ?_⟩
        obtain ⟨q, hq⟩ := hpre h
        rw [hl] at hq
        cases hq
      · rw [if_neg hl] at e3
        simp only [Res.bind_eq_ok] at e3
        obtain ⟨h1, e4, e5⟩ := e3
        obtain ⟨b1, b2, b3⟩ := parseLine_inv a2 hp e4
        obtain ⟨c1, c2, -⟩ := ih b1 e5
        refine ⟨c1, fun h => c2 (b2 h), fun h => ?_⟩
        obtain ⟨q, hq⟩ := hpre h
        exact c2 (b3 q hq)

/-- A header that has been parsed is printable. -/
theorem parse_printable {pfx t : Bytes} {h : Hdr} (e : headerParse pfx t = .ok h) : Printable pfx h := by
  unfold headerParse at e
  simp only [Res.bind_eq_ok, Res.check_eq_ok, exists_const] at e
  obtain ⟨e1, ⟨l, p⟩, e2, e3⟩ := e
  obtain ⟨a1, a2⟩ := cutOrFail_inv e2
  simp only at a1 a2 e3
  have hpre : (b!"WARC-Record-ID: <").isPrefixOf p = true := by
    simp only [Bool.or_eq_true, List.isPrefixOf_iff_prefix] at e1 ⊢
    have key : ∀ m : Bytes, (10 : UInt8) ∉ m → m ++ 10 :: b!"WARC-Record-ID: <" <+: t → b!"WARC-Record-ID: <" <+: p := by
      intro m hm hx
      obtain ⟨s, hs⟩ := hx
      have h1 : cut 10 t = some (m, b!"WARC-Record-ID: <" ++ s) := by
        rw [← hs, List.append_assoc, List.cons_append]
        exact cut_append hm
      have h2 : cut 10 t = some (l, p) := by rw [a1]; exact cut_append a2
      rw [h1] at h2
      simp only [Option.some.injEq, Prod.mk.injEq] at h2
      exact ⟨s, h2.2⟩
    rcases e1 with h | h
    · exact key b!"WARC/1.0\r" (by decide) h
    · exact key b!"WARC/1.1\r" (by decide) h
  obtain ⟨b1, -, b3⟩ := parseLoop_inv _ (h := { id := [], fields := [] }) (fun f hf => (by cases hf)) e3
  obtain ⟨c1, c2, c3⟩ := b3 hpre
  exact ⟨c1, c2, c3, b1⟩

/-- C14: whatever text was parsed, printing the header and parsing the print gives the same header. -/
theorem C14_parse_serialize (pfx t : Bytes) (h : Hdr) (e : headerParse pfx t = .ok h) : headerParse pfx (headerSerialize pfx h) = .ok h :=
  serialize_parse pfx h (headerParse_sorted e) (parse_printable e)

/-- A text that is not what printing makes: version 1.0, fields in another order, the ID in the middle again. -/
example : headerParse b!"x/" b!"WARC/1.0\r\nWARC-Record-ID: <x/01>\r\nB: 1\r\nWARC-Record-ID: <x/02>\r\nA: 2\r\n\r\n" =
    .ok ⟨b!"02", [(b!"A", b!"2"), (b!"B", b!"1")]⟩ := by decide +kernel

end Verif.Props
