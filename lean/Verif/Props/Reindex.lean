/-
Property C39: reindexing links the segments of an object, in whatever order they are met.
-/
import Verif.Proofs.Reindex
import Mathlib.Data.List.Perm.Subperm

namespace Verif.Props
open Verif Reindex

/-! ### Specification -/

/-- Segments number `i`, `i + 1`, ... of the object `p`, the last one marked as last; `n` is the length of IDs. -/
def SegChain (n : Nat) (p : Bytes) : Nat → List Seg → Prop
  | _, [] => False
  | i, [s] => s.segno = i ∧ s.parent.take n = p ∧ s.used = decide (i = 1) ∧ s.done = true
  | i, s :: t :: l => s.segno = i ∧ s.parent.take n = p ∧ s.used = decide (i = 1) ∧ s.done = false ∧ SegChain n p (i + 1) (t :: l)

/-- All segments of an object, from the first to the last; there are at least two. -/
def SegObject (n : Nat) (p : Bytes) (o : List Seg) : Prop := SegChain n p 1 o ∧ 2 ≤ o.length

/-- The index entries of an object: each names the ID of the next segment. -/
def links : List Seg → List Call
  | [] => []
  | [s] => [⟨s.id, s.flg, s.silo, s.off, none⟩]
  | s :: t :: l => ⟨s.id, s.flg, s.silo, s.off, some t.id⟩ :: links (t :: l)

/-- Segments are met one after the other. -/
def meet (n : Nat) : List Seg → List Seg → Res (List Call × List Seg)
  | [], segs => .ok ([], segs)
  | s :: l, segs => do
    let r ← addSeg n segs s
    let q ← meet n l r.2
    return (r.1 ++ q.1, q.2)

/-! ### Proof -/

theorem meet_append (n : Nat) (a b : List Seg) : ∀ segs, meet n (a ++ b) segs = do
    let r ← meet n a segs
    let q ← meet n b r.2
    return (r.1 ++ q.1, q.2) := by
  induction a with
  | nil =>
    intro segs
    simp only [meet, List.nil_append, Res.ok_bind]
    cases meet n b segs <;> rfl
  | cons s a ih =>
    intro segs
    simp only [meet, List.cons_append]
    cases addSeg n segs s with
    | ok r =>
      simp only [Res.ok_bind, ih]
      cases meet n a r.2 with
      | ok q =>
        cases hb : meet n b q.2 <;> simp [hb]
      | fail => rfl
      | ub => rfl
    | fail => rfl
    | ub => rfl

theorem meet_inv {n : Nat} (S : List Seg) : Raw n S → ∃ C L, meet n S.reverse [] = .ok (C, L) ∧ Inv n S L C := by
  induction S with
  | nil => exact fun _ => ⟨[], [], rfl, List.Pairwise.nil, fun x => by simp, .refl _⟩
  | cons r S ih =>
    intro hr
    obtain ⟨C, L, h1, h2⟩ := ih ⟨(List.pairwise_cons.1 hr.uniq).2, fun s hs => hr.used s (by simp [hs]), fun s hs => hr.pos s (by simp [hs]),
      fun s hs t ht => hr.last s (by simp [hs]) t (by simp [ht]), fun s hs => hr.two s (by simp [hs])⟩
    obtain ⟨C', L', h3, h4⟩ := inv_step hr h2
    refine ⟨C ++ C', L', ?_, h4⟩
    rw [List.reverse_cons, meet_append, h1]
    simp only [Res.ok_bind, meet]
    rw [h3]
    simp

theorem sameKey_symm {n : Nat} {a b : Seg} (h : SameKey n a b) : SameKey n b a := ⟨h.1.symm, h.2.symm⟩

theorem raw_perm {n : Nat} {a b : List Seg} (hp : a.Perm b) (h : Raw n a) : Raw n b :=
  ⟨(hp.pairwise_iff fun h k => h (sameKey_symm k)).1 h.uniq, fun s hs => h.used s (hp.mem_iff.2 hs), fun s hs => h.pos s (hp.mem_iff.2 hs),
    fun s hs t ht => h.last s (hp.mem_iff.2 hs) t (hp.mem_iff.2 ht), fun s hs => h.two s (hp.mem_iff.2 hs)⟩

theorem perm_flatMap {α β : Type} {f : α → List β} {a b : List α} (h : a.Perm b) : (a.flatMap f).Perm (b.flatMap f) := by
  induction h with
  | nil => exact .refl _
  | cons x _ ih => simp only [List.flatMap_cons]; exact List.Perm.append_left _ ih
  | swap x y l =>
    simp only [List.flatMap_cons, ← List.append_assoc]
    exact List.Perm.append_right _ List.perm_append_comm
  | trans _ _ i1 i2 => exact i1.trans i2

theorem due_perm {n : Nat} {a b : List Seg} (h : a.Perm b) (s : Seg) : (due n a s).Perm (due n b s) :=
  List.Perm.append_left _ ((h.filter _).map _)

/-- The segments of a chain. -/
theorem chain_mem {n : Nat} {p : Bytes} (o : List Seg) : ∀ {i : Nat}, SegChain n p i o → ∀ s ∈ o, s.parent.take n = p ∧ i ≤ s.segno ∧ s.segno < i + o.length ∧
    s.used = decide (s.segno = 1) ∧ (s.done = true ↔ s.segno + 1 = i + o.length) := by
  induction o with
  | nil => intro i h; cases h
  | cons s o ih =>
    intro i h x hx
    cases o with
    | nil =>
      obtain ⟨h1, h2, h3, h4⟩ := h
      rw [List.mem_singleton] at hx
      subst hx
      refine ⟨h2, by omega, by simp [h1], by rw [h1]; exact h3, ?_⟩
      simp [h4, h1]
    | cons t l =>
      obtain ⟨h1, h2, h3, h4, h5⟩ := h
      rcases List.mem_cons.1 hx with rfl | hx
      · refine ⟨h2, by omega, by simp [h1], by rw [h1]; exact h3, ?_⟩
        rw [h4, h1]
        simp only [List.length_cons, Bool.false_eq_true, false_iff]
        omega
      · obtain ⟨k1, k2, k3, k4, k5⟩ := ih h5 x hx
        simp only [List.length_cons] at *
        refine ⟨k1, by omega, by omega, k4, ?_⟩
        rw [k5]
        omega

/-- A chain has every number. -/
theorem chain_number {n : Nat} {p : Bytes} (o : List Seg) : ∀ {i : Nat}, SegChain n p i o → ∀ j, i ≤ j → j < i + o.length → ∃ s ∈ o, s.segno = j := by
  induction o with
  | nil => intro i h; cases h
  | cons s o ih =>
    intro i h j h1 h2
    by_cases e : j = i
    · refine ⟨s, by simp, ?_⟩
      cases o with
      | nil => rw [e]; exact h.1
      | cons t l => rw [e]; exact h.1
    · cases o with
      | nil => simp at h2; omega
      | cons t l =>
        obtain ⟨x, hx, hx2⟩ := ih h.2.2.2.2 j (by omega) (by simp only [List.length_cons] at *; omega)
        exact ⟨x, by simp [hx], hx2⟩

theorem chain_uniq {n : Nat} {p : Bytes} (o : List Seg) : ∀ {i : Nat}, SegChain n p i o → o.Pairwise fun a b => ¬ SameKey n a b := by
  induction o with
  | nil => intro i h; cases h
  | cons s o ih =>
    intro i h
    cases o with
    | nil => simp
    | cons t l =>
      refine List.pairwise_cons.2 ⟨?_, ih h.2.2.2.2⟩
      intro b hb hk
      have := (chain_mem _ h.2.2.2.2 b hb).2.1
      have := h.1
      have := hk.2
      omega

theorem chain_due {n : Nat} {p : Bytes} {S : List Seg} (hr : Raw n S) (o : List Seg) : ∀ {i : Nat}, SegChain n p i o → (∀ s ∈ o, s ∈ S) →
    o.flatMap (due n S) = links o := by
  induction o with
  | nil => intro i h; cases h
  | cons s o ih =>
    intro i h hm
    cases o with
    | nil =>
      obtain ⟨h1, h2, h3, h4⟩ := h
      have hs := hm s (by simp)
      simp only [List.flatMap_cons, List.flatMap_nil, List.append_nil, links, due, h4, if_true]
      rw [List.filter_eq_nil_iff.2]
      · rfl
      · intro t ht hn
        exact hr.last s hs t ht h4 (by simpa using hn)
    | cons t l =>
      obtain ⟨h1, h2, h3, h4, h5⟩ := h
      have ht : t ∈ S := hm t (by simp)
      have htm : t.parent.take n = p ∧ t.segno = i + 1 := by
        cases l with
        | nil => exact ⟨h5.2.1, h5.1⟩
        | cons _ _ => exact ⟨h5.2.1, h5.1⟩
      have hn : Next n s t := ⟨by rw [h2, htm.1], by omega⟩
      rw [List.flatMap_cons, ih h5 (fun x hx => hm x (by simp [hx])), links]
      unfold due
      rw [filter_unique (R := SameKey n) hr.uniq ht (by simpa using hn)]
      · rw [h4]
        rfl
      · intro b hb hpb
        have hb2 : Next n s b := by simpa using hpb
        have k : SameKey n t b := ⟨hn.1.symm.trans hb2.1, by have := hn.2; have := hb2.2; omega⟩
        exact ⟨k, sameKey_symm k⟩

/-- At most one call is due for a segment. -/
theorem due_length {n : Nat} {S : List Seg} (hr : Raw n S) {s : Seg} (hs : s ∈ S) : (due n S s).length ≤ 1 := by
  unfold due
  by_cases hd : s.done = true
  · rw [if_pos hd, List.filter_eq_nil_iff.2]
    · simp
    · intro t ht hn
      exact hr.last s hs t ht hd (by simpa using hn)
  · rw [if_neg hd, List.nil_append, List.length_map]
    by_cases h : ∃ t ∈ S, Next n s t
    · obtain ⟨t, ht, hn⟩ := h
      rw [filter_unique (R := SameKey n) hr.uniq ht (by simpa using hn)]
      · simp
      · intro b hb hpb
        have hb2 : Next n s b := by simpa using hpb
        have k : SameKey n t b := ⟨hn.1.symm.trans hb2.1, by have := hn.2; have := hb2.2; omega⟩
        exact ⟨k, sameKey_symm k⟩
    · rw [List.filter_eq_nil_iff.2]
      · simp
      · intro t ht hn
        exact h ⟨t, ht, by simpa using hn⟩

theorem dues_length {n : Nat} {S : List Seg} (hr : Raw n S) (l : List Seg) (hl : ∀ s ∈ l, s ∈ S) : (l.flatMap (due n S)).length ≤ l.length := by
  induction l with
  | nil => simp
  | cons s l ih =>
    rw [List.flatMap_cons, List.length_append, List.length_cons]
    have := ih fun s hs => hl s (by simp [hs])
    have := due_length hr (hl s (by simp))
    omega

/-- The segments of complete objects and others. -/
structure Mixed (n : Nat) (objs : List (Bytes × List Seg)) (others : List Seg) : Prop where
  objects : ∀ o ∈ objs, SegObject n o.1 o.2
  distinct : objs.Pairwise fun a b => a.1 ≠ b.1
  apart : ∀ o ∈ objs, ∀ s ∈ others, s.parent.take n ≠ o.1
  others : Raw n others

theorem mixed_raw {n : Nat} (objs : List (Bytes × List Seg)) : ∀ {others : List Seg}, Mixed n objs others → Raw n ((objs.map (·.2)).flatten ++ others) := by
  induction objs with
  | nil => intro others h; exact h.others
  | cons o objs ih =>
    intro others h
    obtain ⟨d1, d2⟩ := List.pairwise_cons.1 h.distinct
    have hi := ih (others := others) ⟨fun o ho => h.objects o (by simp [ho]), d2, fun o ho => h.apart o (by simp [ho]), h.others⟩
    obtain ⟨hc, hl⟩ := h.objects o (by simp)
    have hm := chain_mem o.2 hc
    -- the rest is of other objects
    have hne : ∀ s ∈ (objs.map (·.2)).flatten ++ others, s.parent.take n ≠ o.1 := by
      intro s hs
      rcases List.mem_append.1 hs with hs | hs
      · obtain ⟨l, hl, hs⟩ := List.mem_flatten.1 hs
        obtain ⟨o', ho', rfl⟩ := List.mem_map.1 hl
        have := (chain_mem o'.2 (h.objects o' (by simp [ho'])).1 s hs).1
        rw [this]
        exact fun e => d1 o' ho' e.symm
      · exact h.apart o (by simp) s hs
    rw [List.map_cons, List.flatten_cons, List.append_assoc]
    generalize (objs.map (·.2)).flatten ++ others = R at hi hne
    refine ⟨?_, ?_, ?_, ?_, ?_⟩
    · rw [List.pairwise_append]
      refine ⟨chain_uniq _ hc, hi.uniq, ?_⟩
      intro a ha b hb hk
      exact hne b hb (hk.1 ▸ (hm a ha).1)
    · intro s hs hu
      rcases List.mem_append.1 hs with hs | hs
      · rw [(hm s hs).2.2.2.1] at hu
        have := of_decide_eq_true hu
        omega
      · exact hi.used s hs hu
    · intro s hs
      rcases List.mem_append.1 hs with hs | hs
      · exact (hm s hs).2.1
      · exact hi.pos s hs
    · intro s hs t ht hd hn
      rcases List.mem_append.1 hs with hs | hs <;> rcases List.mem_append.1 ht with ht | ht
      · have := (hm s hs).2.2.2.2.1 hd
        have := (hm t ht).2.2.1
        have := hn.2
        omega
      · exact hne t ht (hn.1 ▸ (hm s hs).1)
      · exact hne s hs (hn.1 ▸ (hm t ht).1)
      · exact hi.last s hs t ht hd hn
    · intro s hs
      rcases List.mem_append.1 hs with hs | hs
      · rintro ⟨h1, h2⟩
        rw [(hm s hs).2.2.2.1] at h1
        have := of_decide_eq_true h1
        have := (hm s hs).2.2.2.2.1 h2
        omega
      · exact hi.two s hs

/-- C39: whatever the order, and whatever other segments there are, each segment of each complete object gets exactly one
index entry, which names the next segment, and nothing of these objects is left over. -/
theorem C39_links {n : Nat} {objs : List (Bytes × List Seg)} {others order : List Seg} (h : Mixed n objs others)
    (ho : order.Perm ((objs.map (·.2)).flatten ++ others)) :
    ∃ C C' L, meet n order [] = .ok (C, L) ∧ C.Perm ((objs.map fun o => links o.2).flatten ++ C') ∧
      (∀ c ∈ C', ∃ s ∈ others, c.id = s.id ∧ c.flags = s.flg ∧ c.silo = s.silo ∧ c.off = s.off ∧ ∀ k, c.cont = some k → ∃ t ∈ order, k = t.id) ∧
      (∀ x ∈ L, ∃ s ∈ others, x.id = s.id ∧ x.flg = s.flg ∧ x.silo = s.silo ∧ x.off = s.off) ∧
      C'.length ≤ others.length ∧ L.length ≤ others.length := by
  have hraw := mixed_raw objs h
  have hro : Raw n order.reverse := raw_perm (ho.symm.trans (List.reverse_perm order).symm) hraw
  obtain ⟨C, L, h1, h2⟩ := meet_inv order.reverse hro
  rw [List.reverse_reverse] at h1
  have hperm : order.reverse.Perm ((objs.map (·.2)).flatten ++ others) := (List.reverse_perm order).trans ho
  obtain ⟨S, hS⟩ : ∃ S, (objs.map (·.2)).flatten ++ others = S := ⟨_, rfl⟩
  rw [hS] at hperm hraw
  have hleft : ∀ x ∈ L, ∃ s ∈ others, x = mark n order.reverse s := by
    intro x hx
    obtain ⟨s, hs, rfl, hb⟩ := (h2.mem x).1 hx
    have hs' := hperm.mem_iff.1 hs
    rw [← hS] at hs'
    rcases List.mem_append.1 hs' with hs' | hs'
    · exfalso
      obtain ⟨l, hl, hs'⟩ := List.mem_flatten.1 hs'
      obtain ⟨o, ho', rfl⟩ := List.mem_map.1 hl
      obtain ⟨hc, -⟩ := h.objects o ho'
      obtain ⟨m1, m2, m3, m4, m5⟩ := chain_mem o.2 hc s hs'
      have inO : ∀ t ∈ o.2, t ∈ order.reverse := fun t ht =>
        hperm.mem_iff.2 (by rw [← hS]; exact List.mem_append_left _ (List.mem_flatten.2 ⟨o.2, List.mem_map.2 ⟨o, ho', rfl⟩, ht⟩))
      refine hb ⟨?_, ?_⟩
      · show (s.used || hasPrev n order.reverse s) = true
        rw [Bool.or_eq_true]
        by_cases e : s.segno = 1
        · left; rw [m4]; simpa using e
        · right
          obtain ⟨t, ht, ht2⟩ := chain_number o.2 hc (s.segno - 1) (by omega) (by omega)
          exact hasPrev_iff.2 ⟨t, inO t ht, by rw [(chain_mem o.2 hc t ht).1, m1], by omega⟩
      · show (s.done || hasNext n order.reverse s) = true
        rw [Bool.or_eq_true]
        by_cases e : s.segno + 1 = 1 + o.2.length
        · exact .inl (m5.2 e)
        · right
          obtain ⟨t, ht, ht2⟩ := chain_number o.2 hc (s.segno + 1) (by omega) (by omega)
          exact hasNext_iff.2 ⟨t, inO t ht, by rw [(chain_mem o.2 hc t ht).1, m1], by omega⟩
    · exact ⟨s, hs', rfl⟩
  refine ⟨C, others.flatMap (due n S), L, h1, ?_, ?_, ?_, dues_length hraw _ (fun s hs => by rw [← hS]; exact List.mem_append_right _ hs), ?_⟩
  · refine h2.calls.trans ?_
    refine (flatMap_perm _ fun s _ => due_perm hperm s).trans ((perm_flatMap hperm).trans ?_)
    have e : S.flatMap (due n S) = (objs.map (·.2)).flatten.flatMap (due n S) ++ others.flatMap (due n S) := by
      rw [← List.flatMap_append, hS]
    show (S.flatMap (due n S)).Perm _
    rw [e]
    refine List.Perm.append_right _ ?_
    have : ∀ os : List (Bytes × List Seg), (∀ o ∈ os, o ∈ objs) → (os.map (·.2)).flatten.flatMap (due n S) = (os.map fun o => links o.2).flatten := by
      intro os
      induction os with
      | nil => intro _; rfl
      | cons o os ih =>
        intro hos
        rw [List.map_cons, List.flatten_cons, List.flatMap_append, ih (fun o ho => hos o (by simp [ho])), List.map_cons, List.flatten_cons]
        rw [chain_due hraw o.2 (h.objects o (hos o (by simp))).1]
        intro s hs
        rw [← hS]
        refine List.mem_append_left _ (List.mem_flatten.2 ⟨o.2, List.mem_map.2 ⟨o, hos o (by simp), rfl⟩, hs⟩)
    rw [this objs fun _ h => h]
  · intro c hc
    obtain ⟨s, hs, hc⟩ := List.mem_flatMap.1 hc
    refine ⟨s, hs, ?_⟩
    rcases List.mem_append.1 hc with hc | hc
    · split at hc
      · rw [List.mem_singleton] at hc
        subst hc
        exact ⟨rfl, rfl, rfl, rfl, fun k hk => (by cases hk)⟩
      · cases hc
    · obtain ⟨t, ht, rfl⟩ := List.mem_map.1 hc
      refine ⟨rfl, rfl, rfl, rfl, fun k hk => ⟨t, ?_, by cases hk; rfl⟩⟩
      exact (List.reverse_perm order).mem_iff.1 (hperm.mem_iff.2 (List.mem_filter.1 ht).1)
  · intro x hx
    obtain ⟨s, hs, rfl⟩ := hleft x hx
    exact ⟨s, hs, rfl, rfl, rfl, rfl⟩
  · have hnd : L.Nodup := h2.sorted.imp fun h e => by
      subst e
      have := lt_same h rfl
      omega
    have := (hnd.subperm (l₂ := others.map (mark n order.reverse)) (fun x hx => by
      obtain ⟨s, hs, rfl⟩ := hleft x hx
      exact List.mem_map_of_mem hs)).length_le
    rwa [List.length_map] at this

/-- C39 for complete objects only: nothing is left over. -/
theorem C39_complete {n : Nat} {objs : List (Bytes × List Seg)} {order : List Seg} (h1 : ∀ o ∈ objs, SegObject n o.1 o.2)
    (h2 : objs.Pairwise fun a b => a.1 ≠ b.1) (ho : order.Perm (objs.map (·.2)).flatten) :
    ∃ C, meet n order [] = .ok (C, []) ∧ C.Perm (objs.map fun o => links o.2).flatten := by
  have hmix : Mixed n objs [] := ⟨h1, h2, fun _ _ s hs => (by cases hs), List.Pairwise.nil, fun s hs => (by cases hs), fun s hs => (by cases hs),
    fun s hs => (by cases hs), fun s hs => (by cases hs)⟩
  obtain ⟨C, C', L, e1, e2, e3, e4, -⟩ := C39_links (order := order) hmix (by rw [List.append_nil]; exact ho)
  have hL : L = [] := List.eq_nil_iff_forall_not_mem.2 fun x hx => by obtain ⟨s, hs, -⟩ := e4 x hx; cases hs
  have hC : C' = [] := List.eq_nil_iff_forall_not_mem.2 fun x hx => by obtain ⟨s, hs, -⟩ := e3 x hx; cases hs
  subst hL hC
  rw [List.append_nil] at e2
  exact ⟨C, e1, e2⟩

/-! ### Examples -/

/-- Segment `i` of three of object `p`. -/
def exSeg (p : Bytes) (i : Nat) : Seg :=
  { id := p ++ dec i, flg := 16, parent := p, silo := i, off := 7, segno := i, used := decide (i = 1), done := decide (i = 3) }

example : SegObject 2 b!"aa" [exSeg b!"aa" 1, exSeg b!"aa" 2, exSeg b!"aa" 3] := by unfold SegObject SegChain SegChain SegChain; decide

example : meet 2 [exSeg b!"bb" 2, exSeg b!"aa" 3, exSeg b!"bb" 3, exSeg b!"aa" 1, exSeg b!"bb" 1, exSeg b!"aa" 2] [] =
    .ok ([⟨b!"aa3", 16, 3, 7, none⟩, ⟨b!"bb3", 16, 3, 7, none⟩, ⟨b!"bb2", 16, 2, 7, some b!"bb3"⟩, ⟨b!"bb1", 16, 1, 7, some b!"bb2"⟩,
      ⟨b!"aa1", 16, 1, 7, some b!"aa2"⟩, ⟨b!"aa2", 16, 2, 7, some b!"aa3"⟩], []) := by decide

/-- A segment stored twice makes the reindex abort. -/
theorem C39_counterexample_twice : meet 2 [exSeg b!"aa" 1, exSeg b!"aa" 2, exSeg b!"aa" 1] [] = .fail := by decide

end Verif.Props
