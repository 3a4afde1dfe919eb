/-
Helper lemmas for the filter: the walk over the sorted candidates.
-/
import Verif.Model.Filter
import Verif.Proofs.CStr
import Verif.Props.Index

namespace Verif.Filter
open Verif Header Index

/-- `a` does not sort behind `b`. -/
def Le (a b : Bytes) : Prop := strcmp a b ≠ .gt

theorem Le.refl (a : Bytes) : Le a a := by unfold Le; rw [strcmp_refl]; decide

theorem lt_or_le (a b : Bytes) : strcmp a b = .lt ∨ Le b a := by
  unfold Le
  rw [ne_eq, strcmp_gt]
  by_cases h : strcmp a b = .lt
  · exact .inl h
  · exact .inr h

theorem le_iff (a b : Bytes) : Le a b ↔ strcmp a b = .lt ∨ a = b := by
  unfold Le
  rw [← strcmp_eq]
  cases strcmp a b <;> simp

theorem lt_of_lt_le {a b c : Bytes} (h : strcmp a b = .lt) (g : Le b c) : strcmp a c = .lt := by
  rcases (le_iff b c).1 g with g | g
  · exact strcmp_lt_trans h g
  · exact g ▸ h

theorem lt_of_le_lt {a b c : Bytes} (h : Le a b) (g : strcmp b c = .lt) : strcmp a c = .lt := by
  rcases (le_iff a b).1 h with h | h
  · exact strcmp_lt_trans h g
  · exact h ▸ g

theorem Le.trans {a b c : Bytes} (h : Le a b) (g : Le b c) : Le a c := by
  rcases (le_iff a b).1 h with h | h
  · exact (le_iff a c).2 (.inl (lt_of_lt_le h g))
  · exact h ▸ g

/-- A string does not sort before its beginning. -/
theorem le_append (k x : Bytes) : Le k (k ++ x) := by
  induction k with
  | nil => unfold Le; cases x <;> simp [strcmp]
  | cons a k ih =>
    unfold Le at ih ⊢
    simp only [List.cons_append, strcmp, u8_lt_irrefl, if_false]
    exact ih

/-- What sorts between a string and one that begins with it, begins with it. -/
theorem prefix_between {k a b : Bytes} (h1 : Le k a) (h2 : Le a b) (h3 : k <+: b) : k <+: a := by
  induction k generalizing a b with
  | nil => exact List.nil_prefix
  | cons c k ih =>
    obtain ⟨t, rfl⟩ := h3
    cases a with
    | nil => exact absurd rfl h1
    | cons d a =>
      unfold Le at h1 h2
      simp only [List.cons_append, strcmp] at h1 h2
      by_cases hcd : c < d
      · have : ¬ d < c := u8_lt_asymm hcd
        simp [this, hcd] at h2
      · by_cases hdc : d < c
        · simp [hcd, hdc] at h1
        · have : c = d := u8_eq_of_not_lt hcd hdc
          subst this
          simp only [u8_lt_irrefl, if_false] at h1 h2
          exact (List.prefix_cons_inj c).2 (ih h1 h2 (List.prefix_append k t))

theorem not_lt_of_prefix {k a : Bytes} (h : k <+: a) : strcmp a k ≠ .lt := by
  obtain ⟨t, rfl⟩ := h
  intro h
  exact le_append k t (strcmp_gt.2 h)

/-- A string that begins with `l` sorts before a string of the same length as `l` that is behind `l`. -/
theorem prefix_lt {l k a : Bytes} (h : l <+: a) (hl : l.length = k.length) (hk : strcmp l k = .lt) : strcmp a k = .lt := by
  rcases lt_or_le a k with g | g
  · exact g
  · exfalso
    obtain ⟨t, rfl⟩ := h
    -- `k` sorts between `l` and `l ++ t`, so it begins with `l`
    have := prefix_between ((le_iff l k).2 (.inl hk)) g (List.prefix_append l t)
    have : l = k := this.eq_of_length hl
    rw [this, strcmp_refl] at hk
    cases hk

theorem strncmp_prefix (k a : Bytes) : strncmpEq k a k.length = true ↔ k <+: a := by
  unfold strncmpEq
  rw [List.take_length, beq_iff_eq, List.prefix_iff_eq_take]

theorem skipBelow_spec (key : Bytes) (back : List Elem) : ∀ front,
    ∃ m b, skipBelow key front back = (front ++ m, b) ∧ back = m ++ b ∧ (∀ c ∈ m, strcmp c.2 key = .lt) ∧
      ∀ c bs, b = c :: bs → strcmp c.2 key ≠ .lt := by
  induction back with
  | nil => intro front; exact ⟨[], [], by simp [skipBelow], rfl, by simp, by simp⟩
  | cons c back ih =>
    intro front
    by_cases h : strcmp c.2 key = .lt
    · obtain ⟨m, b, e1, e2, e3, e4⟩ := ih (front ++ [c])
      refine ⟨c :: m, b, ?_, by rw [e2]; rfl, ?_, e4⟩
      · rw [skipBelow, if_pos h, e1, List.append_assoc]; rfl
      · intro x hx
        rcases List.mem_cons.1 hx with rfl | hx
        · exact h
        · exact e3 x hx
    · refine ⟨[], c :: back, ?_, rfl, by simp, ?_⟩
      · rw [skipBelow, if_neg h, List.append_nil]
      · intro x bs e; rw [← (List.cons.inj e).1]; exact h

/-- The loop over the candidates that begin with the key, if the outcome of the check is `P`. -/
theorem matchLoop_spec {chk : Bytes → Res Bool} {P : Bytes → Bool} (key : Bytes) (back : List Elem) : ∀ front found,
    (∀ c ∈ back, key <+: c.2 → chk c.2 = .ok (P c.2)) →
    ∃ m b, matchLoop chk key front back found = .ok (front ++ m.filter (fun c => !P c.2), b, found ++ (m.filter (fun c => P c.2)).map (·.1)) ∧
      back = m ++ b ∧ (∀ c ∈ m, key <+: c.2) ∧ ∀ c bs, b = c :: bs → ¬ key <+: c.2 := by
  induction back with
  | nil => intro front found _; exact ⟨[], [], by simp [matchLoop], rfl, by simp, by simp⟩
  | cons c back ih =>
    intro front found hc
    by_cases h : key <+: c.2
    · have hch := hc c (by simp) h
      have h' := (strncmp_prefix key c.2).2 h
      cases hp : P c.2 with
      | true =>
        obtain ⟨m, b, e1, e2, e3, e4⟩ := ih front (found ++ [c.1]) (fun x hx => hc x (by simp [hx]))
        refine ⟨c :: m, b, ?_, by rw [e2]; rfl, ?_, e4⟩
        · rw [matchLoop, if_pos h', hch, hp]
          simp only [Res.ok_bind, if_true, e1]
          simp [hp]
        · intro x hx
          rcases List.mem_cons.1 hx with rfl | hx
          · exact h
          · exact e3 x hx
      | false =>
        obtain ⟨m, b, e1, e2, e3, e4⟩ := ih (front ++ [c]) found (fun x hx => hc x (by simp [hx]))
        refine ⟨c :: m, b, ?_, by rw [e2]; rfl, ?_, e4⟩
        · rw [matchLoop, if_pos h', hch, hp]
          simp only [Res.ok_bind, Bool.false_eq_true, if_false, e1]
          simp [hp]
        · intro x hx
          rcases List.mem_cons.1 hx with rfl | hx
          · exact h
          · exact e3 x hx
    · refine ⟨[], c :: back, ?_, rfl, by simp, ?_⟩
      · rw [matchLoop, if_neg (fun g => h ((strncmp_prefix key c.2).1 g))]
        simp
      · intro x bs e; rw [← (List.cons.inj e).1]; exact h

/-- The list is sorted. -/
def Sorted (l : List Elem) : Prop := l.Pairwise fun a b => Le a.2 b.2

/-- Which candidates are in front of `next_cand`: those that sort before the last key, and if there are checks also those
that begin with it and were not found. -/
def Behind (s : Bool) (st : St) : Prop :=
  st.back ≠ [] → ∀ c ∈ st.front, strcmp c.2 st.last = .lt ∨ (s = true ∧ st.last <+: c.2)

/-- What one index entry does. -/
theorem filterStep_spec {chk : Entry → Bytes → Res Bool} {P : Entry → Bytes → Bool} {s : Bool} {st : St} {e : Entry}
    (hs : Sorted (st.front ++ st.back)) (hb : Behind s st) (hl : e.key.length ≤ 64)
    (hc : ∀ c ∈ st.front ++ st.back, e.key <+: c.2 → chk e c.2 = .ok (P e c.2))
    (hP : s = false → ∀ c ∈ st.front ++ st.back, P e c.2 = true)
    (hk : s = true → st.back ≠ [] → st.last.length = e.key.length ∧ st.last ≠ e.key) :
    ∃ st', filterStep chk st e = .ok st' ∧ st'.last = e.key ∧ Behind s st' ∧
      st'.front ++ st'.back = (st.front ++ st.back).filter (fun c => !(e.key.isPrefixOf c.2 && P e c.2)) ∧
      ∀ n, n ∈ st'.found ↔ n ∈ st.found ∨ ∃ c ∈ st.front ++ st.back, c.1 = n ∧ e.key <+: c.2 ∧ P e c.2 = true := by
  -- after rewinding, everything in front sorts before the key
  obtain ⟨fr, bk, e1, e2, e3⟩ : ∃ fr bk, rewind e.key st = { st with front := fr, back := bk } ∧ fr ++ bk = st.front ++ st.back ∧
      ∀ c ∈ fr, strcmp c.2 e.key = .lt := by
    unfold rewind
    by_cases h : st.back = [] ∨ strcmp e.key st.last = .lt
    · exact ⟨[], st.front ++ st.back, by rw [if_pos h], rfl, by simp⟩
    · refine ⟨st.front, st.back, by rw [if_neg h], rfl, ?_⟩
      intro c hc1
      rw [not_or] at h
      have hle : Le st.last e.key := by
        rcases lt_or_le e.key st.last with g | g
        · exact absurd g h.2
        · exact g
      rcases hb h.1 c hc1 with g | ⟨g1, g2⟩
      · exact lt_of_lt_le g hle
      · obtain ⟨k1, k2⟩ := hk g1 h.1
        rcases (le_iff _ _).1 hle with g | g
        · exact prefix_lt g2 k1 g
        · exact absurd g k2
  obtain ⟨m1, b1, s1, s2, s3, s4⟩ := skipBelow_spec e.key bk fr
  obtain ⟨m2, b2, t1, t2, t3, t4⟩ := matchLoop_spec (chk := chk e) (P := P e) e.key b1 (fr ++ m1) st.found
    (fun c hc1 => hc c (by rw [← e2, s2]; simp [hc1]))
  have hall : st.front ++ st.back = fr ++ m1 ++ (m2 ++ b2) := by rw [← e2, s2, t2, List.append_assoc]
  have hlow : ∀ c ∈ fr ++ m1, strcmp c.2 e.key = .lt := by
    intro c hc1
    rcases List.mem_append.1 hc1 with h | h
    · exact e3 c h
    · exact s3 c h
  have hhigh : ∀ c ∈ b2, ¬ e.key <+: c.2 := by
    intro c hc1 hp
    cases b2 with
    | nil => cases hc1
    | cons x xs =>
      have hx := t4 x xs rfl
      rw [hall] at hs
      have hs2 : (x :: xs).Pairwise fun a b => Le a.2 b.2 := (List.pairwise_append.1 (List.pairwise_append.1 hs).2.1).2.1
      have hsorted : Le x.2 c.2 := by
        rcases List.mem_cons.1 hc1 with rfl | h
        · exact Le.refl _
        · exact (List.pairwise_cons.1 hs2).1 c h
      -- `x` does not sort before the key
      have hxk : Le e.key x.2 := by
        cases hm : m2 with
        | nil =>
          have := s4 x xs (by rw [t2, hm]; rfl)
          rcases lt_or_le x.2 e.key with g | g
          · exact absurd g this
          · exact g
        | cons y ys =>
          have hy : y ∈ m2 := by rw [hm]; simp
          obtain ⟨t, ht⟩ := t3 y hy
          have h1 : Le e.key y.2 := ht ▸ le_append e.key t
          have h2 : Le y.2 x.2 := (List.pairwise_append.1 (List.pairwise_append.1 hs).2.1).2.2 y hy x (by simp)
          exact h1.trans h2
      exact hx (prefix_between hxk hsorted hp)
  refine ⟨{ front := fr ++ m1 ++ m2.filter (fun c => !P e c.2), back := b2, last := e.key,
            found := st.found ++ (m2.filter (fun c => P e c.2)).map (·.1) }, ?_, rfl, ?_, ?_, ?_⟩
  · unfold filterStep
    simp only [e1, s1, t1, Res.ok_bind, Res.pure_eq, List.take_of_length_le hl]
  · intro _ c hc1
    rcases List.mem_append.1 hc1 with h | h
    · exact .inl (hlow c h)
    · rw [List.mem_filter] at h
      refine .inr ⟨?_, t3 c h.1⟩
      cases hsv : s with
      | true => rfl
      | false =>
        have := hP hsv c (by rw [hall]; simp [h.1])
        rw [this] at h
        exact absurd h.2 (by decide)
  · show fr ++ m1 ++ m2.filter (fun c => !P e c.2) ++ b2 = _
    rw [hall]
    simp only [List.filter_append]
    have f0 : ∀ l : List Elem, (∀ c ∈ l, ¬ e.key <+: c.2) → l.filter (fun c => !(e.key.isPrefixOf c.2 && P e c.2)) = l := by
      intro l hl
      rw [List.filter_eq_self]
      intro c hc1
      have : e.key.isPrefixOf c.2 = false := by
        rw [← Bool.not_eq_true, List.isPrefixOf_iff_prefix]
        exact hl c hc1
      simp [this]
    have f1 := f0 (fr ++ m1) (fun c hc1 hp => not_lt_of_prefix hp (hlow c hc1))
    rw [List.filter_append] at f1
    rw [f1, f0 b2 hhigh]
    have f2 : m2.filter (fun c => !(e.key.isPrefixOf c.2 && P e c.2)) = m2.filter (fun c => !P e c.2) := by
      apply List.filter_congr
      intro c hc1
      rw [List.isPrefixOf_iff_prefix.2 (t3 c hc1), Bool.true_and]
    rw [f2, List.append_assoc]
  · intro n
    show n ∈ st.found ++ _ ↔ _
    rw [List.mem_append, List.mem_map]
    constructor
    · rintro (h | ⟨c, h1, h2⟩)
      · exact .inl h
      · rw [List.mem_filter] at h1
        exact .inr ⟨c, by rw [hall]; simp [h1.1], h2, t3 c h1.1, h1.2⟩
    · rintro (h | ⟨c, h1, h2, h3, h4⟩)
      · exact .inl h
      · refine .inr ⟨c, List.mem_filter.2 ⟨?_, h4⟩, h2⟩
        rw [hall] at h1
        rcases List.mem_append.1 h1 with h | h
        · exact absurd (hlow c h) (not_lt_of_prefix h3)
        · rcases List.mem_append.1 h with h | h
          · exact h
          · exact absurd h3 (hhigh c h)

/-- The whole walk: what is found are the candidates that begin with the key of an entry and pass the check. -/
theorem deliver_filter {chk : Entry → Bytes → Res Bool} {P : Entry → Bytes → Bool} {s : Bool} (es : List Entry) : ∀ st : St,
    Sorted (st.front ++ st.back) → Behind s st →
    (∀ e ∈ es, e.key.length = 24) → (s = true → st.back ≠ [] → st.last.length = 24 ∧ ∀ e, es.head? = some e → st.last ≠ e.key) →
    (s = true → ∀ pre a b post, es = pre ++ a :: b :: post → a.key ≠ b.key) →
    (∀ e ∈ es, ∀ c ∈ st.front ++ st.back, e.key <+: c.2 → chk e c.2 = .ok (P e c.2)) →
    (s = false → ∀ e ∈ es, ∀ c ∈ st.front ++ st.back, P e c.2 = true) →
    ∃ st', (Spec.deliver (filterIter chk) es (.ok st)).1 = .ok st' ∧
      ∀ n, n ∈ st'.found ↔ n ∈ st.found ∨ ∃ e ∈ es, ∃ c ∈ st.front ++ st.back, c.1 = n ∧ e.key <+: c.2 ∧ P e c.2 = true := by
  induction es with
  | nil => intro st _ _ _ _ _ _ _; exact ⟨st, rfl, by simp⟩
  | cons e es ih =>
    intro st hs hb hl hk hch hc hP
    by_cases h0 : st.front ++ st.back = []
    · refine ⟨st, ?_, ?_⟩
      · rw [Spec.deliver, filterIter, if_pos h0]; rfl
      · intro n; rw [h0]; simp
    · obtain ⟨st1, a1, a2, a3, a4, a5⟩ := filterStep_spec (chk := chk) (P := P) (s := s) (e := e) hs hb (by have := hl e (by simp); omega)
        (hc e (by simp)) (fun h => hP h e (by simp))
        (fun h h2 => by
          obtain ⟨g1, g2⟩ := hk h h2
          exact ⟨by rw [g1, hl e (by simp)], g2 e rfl⟩)
      have hsub : ∀ c, c ∈ st1.front ++ st1.back → c ∈ st.front ++ st.back := by
        intro c h; rw [a4] at h; exact (List.mem_filter.1 h).1
      obtain ⟨st2, b1, b2⟩ := ih st1 (by rw [a4]; exact hs.filter _) a3 (fun x hx => hl x (by simp [hx]))
        (fun h _ => by
          rw [a2]
          refine ⟨hl e (by simp), fun x hx => ?_⟩
          cases es with
          | nil => cases hx
          | cons y ys =>
            cases hx
            exact hch h [] e _ ys rfl)
        (fun h pre a b post he => hch h (e :: pre) a b post (by rw [he]; rfl))
        (fun x hx c hc1 => hc x (by simp [hx]) c (hsub c hc1)) (fun h x hx c hc1 => hP h x (by simp [hx]) c (hsub c hc1))
      refine ⟨st2, ?_, ?_⟩
      · rw [Spec.deliver, filterIter, if_neg h0, a1]
        exact b1
      · intro n
        rw [b2, a5]
        constructor
        · rintro ((h | ⟨c, h1, h2⟩) | ⟨x, h1, c, h2, h3⟩)
          · exact .inl h
          · exact .inr ⟨e, by simp, c, h1, h2⟩
          · exact .inr ⟨x, by simp [h1], c, hsub c h2, h3⟩
        · rintro (h | ⟨x, h1, c, h2, h3, h4, h5⟩)
          · exact .inl (.inl h)
          · rcases List.mem_cons.1 h1 with rfl | h1
            · exact .inl (.inr ⟨c, h2, h3, h4, h5⟩)
            · by_cases hm : c ∈ st1.front ++ st1.back
              · exact .inr ⟨x, h1, c, hm, h3, h4, h5⟩
              · refine .inl (.inr ⟨c, h2, h3, ?_⟩)
                rw [a4, List.mem_filter, not_and] at hm
                have := hm h2
                simp only [Bool.not_eq_true', Bool.not_eq_false, Bool.and_eq_true, List.isPrefixOf_iff_prefix] at this
                exact this

end Verif.Filter
