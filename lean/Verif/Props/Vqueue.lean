/-
C80: the tail queues of vqueue.h are lists.
-/
import Verif.Model.Vqueue

namespace Verif.Props
open Verif Vqueue

/-! ## Specification -/

/-- The last slot of a chain that begins at `s`. -/
def endS (s : Slot) : List Nat → Slot
  | [] => s
  | e :: l => endS (.elem e) l

/-- The pointers of the chain: forth from each slot to the next element, and back from it. -/
def Seg (m : Mem) (s : Slot) : List Nat → Prop
  | [] => True
  | e :: l => m.nxt s = some e ∧ m.prv (.elem e) = s ∧ Seg m (.elem e) l

/-- The memory of a queue with these elements. -/
structure IsQ (m : Mem) (h : Nat) (l : List Nat) : Prop where
  seg : Seg m (.head h) l
  fin : m.nxt (endS (.head h) l) = none
  tail : m.prv (.head h) = endS (.head h) l
  nodup : l.Nodup

/-- Several queues, given as lists, that have no element in common. -/
structure Queues (m : Mem) (Q : Nat → List Nat) : Prop where
  each : ∀ h, IsQ m h (Q h)
  apart : ∀ h h' e, e ∈ Q h → e ∈ Q h' → h = h'

/-! ## Lemmas about chains -/

theorem endS_append (s : Slot) (a b : List Nat) : endS s (a ++ b) = endS (endS s a) b := by
  induction a generalizing s with
  | nil => rfl
  | cons e a ih => exact ih _

theorem seg_append (m : Mem) (s : Slot) (a b : List Nat) : Seg m s (a ++ b) ↔ Seg m s a ∧ Seg m (endS s a) b := by
  induction a generalizing s with
  | nil => simp [Seg, endS]
  | cons e a ih => simp only [List.cons_append, Seg, ih, endS, and_assoc]

theorem endS_mem (s : Slot) (a : List Nat) : endS s a = s ∨ ∃ e ∈ a, endS s a = .elem e := by
  induction a generalizing s with
  | nil => exact Or.inl rfl
  | cons e a ih =>
    rcases ih (.elem e) with h | ⟨x, hx, h⟩
    · exact Or.inr ⟨e, by simp, h⟩
    · exact Or.inr ⟨x, by simp [hx], h⟩

theorem endS_ne {h : Nat} {a : List Nat} {e : Nat} (he : e ∉ a) : endS (.head h) a ≠ .elem e := by
  rcases endS_mem (.head h) a with h1 | ⟨x, hx, h1⟩
  · rw [h1]; simp
  · rw [h1]
    intro hh
    cases hh
    exact he hx

theorem endS_ne_head {h h' : Nat} {a : List Nat} (hh : h ≠ h') : endS (.head h) a ≠ .head h' := by
  rcases endS_mem (.head h) a with h1 | ⟨x, _, h1⟩
  · rw [h1]; simpa using hh
  · rw [h1]; simp

/-- A chain does not change when other slots do; its last slot may. -/
theorem seg_frame {m m' : Mem} {s : Slot} {a : List Nat} (hseg : Seg m s a) (hnd : a.Nodup)
    (hs : ∀ e ∈ a, s ≠ .elem e)
    (hn : ∀ p, (p = s ∨ ∃ e ∈ a, p = .elem e) → p ≠ endS s a → m'.nxt p = m.nxt p)
    (hp : ∀ e ∈ a, m'.prv (.elem e) = m.prv (.elem e)) : Seg m' s a := by
  induction a generalizing s with
  | nil => trivial
  | cons e a ih =>
    obtain ⟨h1, h2, h3⟩ := hseg
    rw [List.nodup_cons] at hnd
    refine ⟨?_, ?_, ih h3 hnd.2 ?_ ?_ (fun x hx => hp x (by simp [hx]))⟩
    · rw [hn s (Or.inl rfl), h1]
      rcases endS_mem (.elem e) a with h | ⟨x, hx, h⟩
      · rw [endS, h]; exact hs e (by simp)
      · rw [endS, h]; exact hs x (by simp [hx])
    · rw [hp e (by simp), h2]
    · intro x hx hh
      cases hh
      exact hnd.1 hx
    · intro p hpp hne
      refine hn p ?_ hne
      rcases hpp with h | ⟨x, hx, h⟩
      · exact Or.inr ⟨e, by simp, h⟩
      · exact Or.inr ⟨x, by simp [hx], h⟩

/-- A queue does not change when other slots do. -/
theorem queue_frame {m m' : Mem} {h : Nat} {l : List Nat} (hq : IsQ m h l)
    (hh : m'.nxt (.head h) = m.nxt (.head h) ∧ m'.prv (.head h) = m.prv (.head h))
    (he : ∀ e ∈ l, m'.nxt (.elem e) = m.nxt (.elem e) ∧ m'.prv (.elem e) = m.prv (.elem e)) : IsQ m' h l := by
  refine ⟨seg_frame hq.seg hq.nodup (by simp) ?_ (fun e h => (he e h).2), ?_, ?_, hq.nodup⟩
  · rintro p (rfl | ⟨e, hm, rfl⟩) _
    · exact hh.1
    · exact (he e hm).1
  · rw [← hq.fin]
    rcases endS_mem (.head h) l with h1 | ⟨x, hx, h1⟩
    · rw [h1]; exact hh.1
    · rw [h1]; exact (he x hx).1
  · rw [hh.2, hq.tail]

/-- A chain whose slots are all unchanged. -/
theorem seg_same {m m' : Mem} {s : Slot} {a : List Nat} (hseg : Seg m s a)
    (hn : m'.nxt s = m.nxt s) (he : ∀ e ∈ a, m'.nxt (.elem e) = m.nxt (.elem e))
    (hp : ∀ e ∈ a, m'.prv (.elem e) = m.prv (.elem e)) : Seg m' s a := by
  induction a generalizing s with
  | nil => trivial
  | cons e a ih =>
    obtain ⟨h1, h2, h3⟩ := hseg
    exact ⟨by rw [hn, h1], by rw [hp e (by simp), h2],
      ih h3 (he e (by simp)) (fun x hx => he x (by simp [hx])) (fun x hx => hp x (by simp [hx]))⟩

/-! ## The operations on one queue -/

theorem setNxt_nxt (m : Mem) (p x : Slot) (v : Option Nat) :
    (m.setNxt p v).nxt x = if x = p then v else m.nxt x := rfl
theorem setNxt_prv (m : Mem) (p x : Slot) (v : Option Nat) : (m.setNxt p v).prv x = m.prv x := rfl
theorem setPrv_prv (m : Mem) (p x v : Slot) : (m.setPrv p v).prv x = if x = p then v else m.prv x := rfl
theorem setPrv_nxt (m : Mem) (p x v : Slot) : (m.setPrv p v).nxt x = m.nxt x := rfl

theorem init_isQ (m : Mem) (h : Nat) : IsQ (init m h) h [] := by
  refine ⟨trivial, ?_, ?_, List.nodup_nil⟩
  · simp [init, endS, setPrv_nxt, setNxt_nxt]
  · simp [init, endS, setPrv_prv]

theorem insertTail_isQ {m : Mem} {h e : Nat} {l : List Nat} (hq : IsQ m h l) (he : e ∉ l) :
    IsQ (insertTail m h e) h (l ++ [e]) := by
  have hne : endS (.head h) l ≠ .elem e := endS_ne he
  have hnx : ∀ x, (insertTail m h e).nxt x =
      if x = endS (.head h) l then some e else if x = .elem e then none else m.nxt x := by
    intro x
    simp [insertTail, setPrv_nxt, setNxt_nxt, setNxt_prv, setPrv_prv, hq.tail]
  have hpr : ∀ x, (insertTail m h e).prv x =
      if x = .head h then .elem e else if x = .elem e then endS (.head h) l else m.prv x := by
    intro x
    simp [insertTail, setNxt_prv, setPrv_prv, hq.tail]
  have hE : endS (.head h) (l ++ [e]) = .elem e := by rw [endS_append]; rfl
  refine ⟨?_, ?_, ?_, ?_⟩
  · rw [seg_append]
    refine ⟨seg_frame hq.seg hq.nodup (by simp) ?_ ?_, ?_, ?_, trivial⟩
    · rintro p hp hpe
      rw [hnx, if_neg hpe, if_neg]
      rcases hp with rfl | ⟨x, hx, rfl⟩
      · simp
      · intro hh; cases hh; exact he hx
    · intro x hx
      rw [hpr, if_neg (by simp), if_neg]
      intro hh; cases hh; exact he hx
    · rw [hnx, if_pos rfl]
    · rw [hpr, if_neg (by simp), if_pos rfl]
  · rw [hE, hnx, if_neg (Ne.symm hne), if_pos rfl]
  · rw [hE, hpr, if_pos rfl]
  · rw [List.nodup_append]
    exact ⟨hq.nodup, by simp, by intro a ha b hb; simp at hb; subst hb; intro hh; subst hh; exact he ha⟩

theorem nodup_mid {a b : List Nat} {e : Nat} (h : (a ++ e :: b).Nodup) :
    a.Nodup ∧ b.Nodup ∧ e ∉ a ∧ e ∉ b ∧ ∀ x ∈ a, x ∉ b := by
  rw [List.nodup_append, List.nodup_cons] at h
  obtain ⟨h1, ⟨h2, h3⟩, h4⟩ := h
  refine ⟨h1, h3, ?_, h2, ?_⟩
  · intro hm; exact h4 e hm e (by simp) rfl
  · intro x hx hb; exact h4 x hx x (by simp [hb]) rfl

theorem insertBefore_isQ {m : Mem} {h f e : Nat} {a b : List Nat} (hq : IsQ m h (a ++ f :: b))
    (he : e ∉ a ++ f :: b) : IsQ (insertBefore m f e) h (a ++ e :: f :: b) := by
  have hea : e ∉ a := fun hm => he (by simp [hm])
  have hef : e ≠ f := fun hm => he (by simp [hm])
  have heb : e ∉ b := fun hm => he (by simp [hm])
  obtain ⟨na, nb, fa, fb, ab⟩ := nodup_mid hq.nodup
  have hs := (seg_append _ _ _ _).mp hq.seg
  obtain ⟨s1, s2, s3, s4⟩ := hs
  have hne : endS (.head h) a ≠ .elem e := endS_ne hea
  have hnf : endS (.head h) a ≠ .elem f := endS_ne fa
  have hnx : ∀ x, (insertBefore m f e).nxt x =
      if x = endS (.head h) a then some e else if x = .elem e then some f else m.nxt x := by
    intro x
    simp [insertBefore, setPrv_nxt, setNxt_nxt, setNxt_prv, setPrv_prv, s3, Ne.symm hef]
  have hpr : ∀ x, (insertBefore m f e).prv x =
      if x = .elem f then .elem e else if x = .elem e then endS (.head h) a else m.prv x := by
    intro x
    simp [insertBefore, setNxt_prv, setPrv_prv, s3]
  have hE : endS (.head h) (a ++ e :: f :: b) = endS (.head h) (a ++ f :: b) := by
    rw [endS_append, endS_append]; rfl
  have hEe : endS (.elem f) b ≠ endS (.head h) a := by
    rcases endS_mem (.elem f) b with h1 | ⟨x, hx, h1⟩
    · rw [h1]; exact Ne.symm hnf
    · rw [h1]; exact Ne.symm (endS_ne (fun hm => ab x hm hx))
  have hEe2 : endS (.elem f) b ≠ .elem e := by
    rcases endS_mem (.elem f) b with h1 | ⟨x, hx, h1⟩
    · rw [h1]; simp [Ne.symm hef]
    · rw [h1]; intro hh; cases hh; exact heb hx
  have hEq : endS (.head h) (a ++ f :: b) = endS (.elem f) b := by rw [endS_append]; rfl
  refine ⟨?_, ?_, ?_, ?_⟩
  · rw [seg_append]
    refine ⟨seg_frame s1 na (by simp) ?_ ?_, ?_, ?_, ?_, ?_, ?_⟩
    · rintro p hp hpe
      rw [hnx, if_neg hpe, if_neg]
      rcases hp with rfl | ⟨x, hx, rfl⟩
      · simp
      · intro hh; cases hh; exact hea hx
    · intro x hx
      rw [hpr, if_neg, if_neg]
      · intro hh; cases hh; exact hea hx
      · intro hh; cases hh; exact fa hx
    · rw [hnx, if_pos rfl]
    · rw [hpr, if_neg (by simp [hef]), if_pos rfl]
    · rw [hnx, if_neg (Ne.symm hne), if_pos rfl]
    · rw [hpr, if_pos rfl]
    · refine seg_same s4 ?_ ?_ ?_
      · rw [hnx, if_neg (Ne.symm hnf), if_neg (by simp [Ne.symm hef])]
      · intro x hx
        rw [hnx, if_neg (Ne.symm (endS_ne (fun hm => ab x hm hx))), if_neg]
        intro hh; cases hh; exact heb hx
      · intro x hx
        rw [hpr, if_neg, if_neg]
        · intro hh; cases hh; exact heb hx
        · intro hh; cases hh; exact fb hx
  · rw [hE, hEq, hnx, if_neg hEe, if_neg hEe2, ← hEq, hq.fin]
  · rw [hE, hpr, if_neg (by simp), if_neg (by simp), hq.tail]
  · have := hq.nodup
    rw [List.nodup_append, List.nodup_cons] at this ⊢
    obtain ⟨h1, h2, h4⟩ := this
    refine ⟨h1, ⟨by simp [hef, heb], by rw [List.nodup_cons]; exact h2⟩, ?_⟩
    intro x hx y hy
    rw [List.mem_cons] at hy
    rcases hy with rfl | hy
    · intro hh; subst hh; exact hea hx
    · exact h4 x hx y hy

theorem remove_isQ {m : Mem} {h e : Nat} {a b : List Nat} (hq : IsQ m h (a ++ e :: b)) :
    IsQ (remove m h e) h (a ++ b) := by
  obtain ⟨na, nb, ea, eb, ab⟩ := nodup_mid hq.nodup
  obtain ⟨s1, s2, s3, s4⟩ := (seg_append _ _ _ _).mp hq.seg
  have hnd : (a ++ b).Nodup := by
    rw [List.nodup_append]
    exact ⟨na, nb, fun x hx y hy hh => by subst hh; exact ab x hx hy⟩
  cases b with
  | nil =>
    have hn : m.nxt (.elem e) = none := by
      have := hq.fin
      rw [endS_append] at this
      exact this
    have hnx : ∀ x, (remove m h e).nxt x = if x = endS (.head h) a then none else m.nxt x := by
      intro x
      simp [remove, backFrom, hn, setPrv_nxt, setNxt_nxt, setPrv_prv, s3]
    have hpr : ∀ x, (remove m h e).prv x = if x = .head h then endS (.head h) a else m.prv x := by
      intro x
      simp [remove, backFrom, hn, setNxt_prv, setPrv_prv, s3]
    rw [List.append_nil] at hnd ⊢
    refine ⟨seg_frame s1 na (by simp) ?_ ?_, ?_, ?_, hnd⟩
    · rintro p _ hpe
      rw [hnx, if_neg hpe]
    · intro x _
      rw [hpr, if_neg (by simp)]
    · rw [hnx, if_pos rfl]
    · rw [hpr, if_pos rfl]
  | cons g b =>
    obtain ⟨t1, t2, t3⟩ := s4
    have ga : g ∉ a := fun hm => ab g hm (by simp)
    have gb : g ∉ b := (List.nodup_cons.mp nb).1
    have eg : e ≠ g := fun hm => eb (by simp [hm])
    have hnx : ∀ x, (remove m h e).nxt x = if x = endS (.head h) a then some g else m.nxt x := by
      intro x
      simp [remove, backFrom, t1, setPrv_nxt, setNxt_nxt, setPrv_prv, s3, eg]
    have hpr : ∀ x, (remove m h e).prv x = if x = .elem g then endS (.head h) a else m.prv x := by
      intro x
      simp [remove, backFrom, t1, setNxt_prv, setPrv_prv, s3]
    have hE : endS (.head h) (a ++ g :: b) = endS (.head h) (a ++ e :: g :: b) := by
      rw [endS_append, endS_append]; rfl
    have hEe : endS (.elem g) b ≠ endS (.head h) a := by
      rcases endS_mem (.elem g) b with h1 | ⟨x, hx, h1⟩
      · rw [h1]; exact Ne.symm (endS_ne ga)
      · rw [h1]; exact Ne.symm (endS_ne (fun hm => ab x hm (by simp [hx])))
    have hEq : endS (.head h) (a ++ e :: g :: b) = endS (.elem g) b := by rw [endS_append]; rfl
    refine ⟨?_, ?_, ?_, hnd⟩
    · rw [seg_append]
      refine ⟨seg_frame s1 na (by simp) ?_ ?_, ?_, ?_, ?_⟩
      · rintro p _ hpe
        rw [hnx, if_neg hpe]
      · intro x hx
        rw [hpr, if_neg]
        intro hh; cases hh; exact ga hx
      · rw [hnx, if_pos rfl]
      · rw [hpr, if_pos rfl]
      · refine seg_same t3 ?_ ?_ ?_
        · rw [hnx, if_neg (Ne.symm (endS_ne ga))]
        · intro x hx
          rw [hnx, if_neg (Ne.symm (endS_ne (fun hm => ab x hm (by simp [hx]))))]
        · intro x hx
          rw [hpr, if_neg]
          intro hh; cases hh; exact gb hx
    · rw [hE, hEq, hnx, if_neg hEe, ← hEq, hq.fin]
    · rw [hE, hpr, if_neg (by simp), hq.tail]

/-! ## Several queues -/

/-- The queue `h` becomes `l`. -/
def upd1 (Q : Nat → List Nat) (h : Nat) (l : List Nat) : Nat → List Nat := fun x => if x = h then l else Q x

/-- What the operations mean for lists, and when they may be used: an element that is put in a
    queue is in none, one that is removed is in that queue. -/
inductive QStep : (Nat → List Nat) → Op → (Nat → List Nat) → Prop
  | init (Q : Nat → List Nat) (h : Nat) : QStep Q (.init h) (upd1 Q h [])
  | tail (Q : Nat → List Nat) (h e : Nat) : (∀ h', e ∉ Q h') → QStep Q (.tail h e) (upd1 Q h (Q h ++ [e]))
  | before (Q : Nat → List Nat) (h f e : Nat) (a b : List Nat) : (∀ h', e ∉ Q h') → Q h = a ++ f :: b →
      QStep Q (.before f e) (upd1 Q h (a ++ e :: f :: b))
  | remove (Q : Nat → List Nat) (h e : Nat) (a b : List Nat) : Q h = a ++ e :: b →
      QStep Q (.remove h e) (upd1 Q h (a ++ b))

/-- Several operations. -/
inductive QSteps : (Nat → List Nat) → List Op → (Nat → List Nat) → Prop
  | nil (Q : Nat → List Nat) : QSteps Q [] Q
  | cons (Q Q' Q'' : Nat → List Nat) (o : Op) (os : List Op) : QStep Q o Q' → QSteps Q' os Q'' →
      QSteps Q (o :: os) Q''

/-- One queue changes to `l`, which has nothing new but elements that are in no queue. -/
theorem queues_upd {m m' : Mem} {Q : Nat → List Nat} {h : Nat} {l : List Nat} (hQ : Queues m Q)
    (h1 : IsQ m' h l) (h2 : ∀ e ∈ l, e ∈ Q h ∨ ∀ h', e ∉ Q h')
    (h3 : ∀ h', h' ≠ h → m'.nxt (.head h') = m.nxt (.head h') ∧ m'.prv (.head h') = m.prv (.head h'))
    (h4 : ∀ h' e, h' ≠ h → e ∈ Q h' →
      m'.nxt (.elem e) = m.nxt (.elem e) ∧ m'.prv (.elem e) = m.prv (.elem e)) :
    Queues m' (upd1 Q h l) := by
  constructor
  · intro x
    by_cases hx : x = h
    · subst hx
      simpa [upd1] using h1
    · have : upd1 Q h l x = Q x := by simp [upd1, hx]
      rw [this]
      exact queue_frame (hQ.each x) (h3 x hx) (fun e he => h4 x e hx he)
  · have one : ∀ x e, x ≠ h → e ∈ l → e ∈ Q x → False := by
      intro x e hx hl hq
      rcases h2 e hl with h | h
      · exact hx (hQ.apart x _ e hq h)
      · exact h x hq
    intro x y e hx hy
    unfold upd1 at hx hy
    split at hx <;> split at hy
    · simp_all
    · next _ hy' => exact absurd hy (fun hy => one y e hy' hx hy)
    · next hx' _ => exact absurd hx (fun hx => one x e hx' hy hx)
    · exact hQ.apart x y e hx hy

/-- The last slot of a queue is in no other one. -/
theorem endS_other {m : Mem} {Q : Nat → List Nat} (hQ : Queues m Q) {h h' : Nat} (hne : h' ≠ h) {a : List Nat}
    (ha : ∀ e ∈ a, e ∈ Q h) : endS (.head h) a ≠ .head h' ∧ ∀ e ∈ Q h', endS (.head h) a ≠ .elem e := by
  refine ⟨endS_ne_head (Ne.symm hne), fun e he => endS_ne (fun hm => hne (hQ.apart h' h e he (ha e hm)))⟩

theorem step_refines {m : Mem} {Q Q' : Nat → List Nat} {o : Op} (hQ : Queues m Q) (hs : QStep Q o Q') :
    Queues (apply m o) Q' := by
  cases hs with
  | init h =>
    refine queues_upd hQ (init_isQ m h) (by simp) ?_ ?_
    · intro h' hne
      simp [apply, Vqueue.init, setPrv_nxt, setPrv_prv, setNxt_nxt, setNxt_prv, hne]
    · intro h' e _ _
      simp [apply, Vqueue.init, setPrv_nxt, setPrv_prv, setNxt_nxt, setNxt_prv]
  | tail h e he =>
    have hq := hQ.each h
    refine queues_upd hQ (insertTail_isQ hq (he h)) ?_ ?_ ?_
    · intro x hx
      rw [List.mem_append, List.mem_singleton] at hx
      rcases hx with hx | rfl
      · exact Or.inl hx
      · exact Or.inr he
    · intro h' hne
      have h1 := (endS_other hQ hne (a := Q h) (fun _ h => h)).1
      simp [apply, insertTail, setPrv_nxt, setPrv_prv, setNxt_nxt, setNxt_prv, hne, hq.tail, Ne.symm h1]
    · intro h' x hne hx
      have h1 := (endS_other hQ hne (a := Q h) (fun _ h => h)).2 x hx
      have h2 : x ≠ e := fun hh => he h' (hh ▸ hx)
      simp [apply, insertTail, setPrv_nxt, setPrv_prv, setNxt_nxt, setNxt_prv, hq.tail, Ne.symm h1, h2]
  | before h f e a b he hh =>
    have hq := hQ.each h
    rw [hh] at hq
    have hsub : ∀ x ∈ a, x ∈ Q h := fun x hx => by rw [hh]; simp [hx]
    have hf : f ∈ Q h := by rw [hh]; simp
    have hef : f ≠ e := fun hx => he h (hx ▸ hf)
    obtain ⟨_, _, s3, _⟩ := (seg_append _ _ _ _).mp hq.seg
    refine queues_upd hQ (insertBefore_isQ hq (by rw [← hh]; exact he h)) ?_ ?_ ?_
    · intro x hx
      rw [List.mem_append, List.mem_cons] at hx
      rcases hx with hx | rfl | hx
      · exact Or.inl (hsub x hx)
      · exact Or.inr he
      · exact Or.inl (by rw [hh]; simp only [List.mem_append]; exact Or.inr hx)
    · intro h' hne
      have h1 := (endS_other hQ hne hsub).1
      simp [apply, insertBefore, setPrv_nxt, setPrv_prv, setNxt_nxt, setNxt_prv, s3, Ne.symm h1, hef]
    · intro h' x hne hx
      have h1 := (endS_other hQ hne hsub).2 x hx
      have h2 : x ≠ e := fun hh => he h' (hh ▸ hx)
      have h3 : x ≠ f := fun hh => hne (hQ.apart h' h x hx (hh ▸ hf))
      simp [apply, insertBefore, setPrv_nxt, setPrv_prv, setNxt_nxt, setNxt_prv, s3, Ne.symm h1, h2, h3, hef]
  | remove h e a b hh =>
    have hq := hQ.each h
    rw [hh] at hq
    have hsub : ∀ x ∈ a, x ∈ Q h := fun x hx => by rw [hh]; simp [hx]
    obtain ⟨_, _, s3, s4⟩ := (seg_append _ _ _ _).mp hq.seg
    have eb : e ∉ b := (nodup_mid hq.nodup).2.2.2.1
    refine queues_upd hQ (remove_isQ hq) ?_ ?_ ?_
    · intro x hx
      rw [List.mem_append] at hx
      refine Or.inl ?_
      rw [hh]
      simp only [List.mem_append, List.mem_cons]
      rcases hx with hx | hx
      · exact Or.inl hx
      · exact Or.inr (Or.inr hx)
    all_goals cases b with
      | nil =>
        have hn : m.nxt (.elem e) = none := by
          have := hq.fin
          rw [endS_append] at this
          exact this
        first
          | intro h' hne
            have h1 := (endS_other hQ hne hsub).1
            simp [apply, Vqueue.remove, backFrom, hn, setPrv_nxt, setPrv_prv, setNxt_nxt, setNxt_prv, s3,
              Ne.symm h1, hne]
            done
          | intro h' x hne hx
            have h1 := (endS_other hQ hne hsub).2 x hx
            simp [apply, Vqueue.remove, backFrom, hn, setPrv_nxt, setPrv_prv, setNxt_nxt, setNxt_prv, s3,
              Ne.symm h1]
      | cons g b =>
        have hn : m.nxt (.elem e) = some g := s4.1
        have hg : g ∈ Q h := by rw [hh]; simp
        have eg : e ≠ g := fun hm => eb (by simp [hm])
        first
          | intro h' hne
            have h1 := (endS_other hQ hne hsub).1
            simp [apply, Vqueue.remove, backFrom, hn, setPrv_nxt, setPrv_prv, setNxt_nxt, setNxt_prv, s3,
              Ne.symm h1, eg]
            done
          | intro h' x hne hx
            have h1 := (endS_other hQ hne hsub).2 x hx
            have h3 : x ≠ g := fun hh => hne (hQ.apart h' h x hx (hh ▸ hg))
            simp [apply, Vqueue.remove, backFrom, hn, setPrv_nxt, setPrv_prv, setNxt_nxt, setNxt_prv, s3,
              Ne.symm h1, h3, eg]

/-- C80.  Whatever operations are done on tail queues, within the rules, the pointers are those of
    the queues that the same operations on lists give; nothing happens to other queues. -/
theorem C80_refines (os : List Op) (m : Mem) (Q Q' : Nat → List Nat) (hQ : Queues m Q) (hs : QSteps Q os Q') :
    Queues (os.foldl apply m) Q' := by
  induction hs generalizing m with
  | nil Q => exact hQ
  | cons Q Q1 Q2 o os h1 _ ih => exact ih (apply m o) (step_refines hQ h1)

/-- C80.  Heads that have been initialised (`VTAILQ_INIT`, `VTAILQ_HEAD_INITIALIZER`) are empty queues. -/
theorem C80_init (m : Mem) (h : ∀ x, m.nxt (.head x) = none ∧ m.prv (.head x) = .head x) :
    Queues m (fun _ => []) :=
  ⟨fun x => ⟨trivial, (h x).1, (h x).2, List.nodup_nil⟩, by simp⟩

/-! ## What is read -/

theorem seg_head {m : Mem} {s : Slot} {l : List Nat} (h : Seg m s l) (hf : m.nxt (endS s l) = none) :
    m.nxt s = l.head? := by
  cases l with
  | nil => exact hf
  | cons e l => exact h.1

theorem end_before {m : Mem} {h : Nat} {a : List Nat} {t : Slot} (hs : Seg m (.head h) a) (ht : m.prv (.head h) = t)
    (hf : m.nxt t = none) : m.nxt (m.prv (endS (.head h) a)) = a.getLast? := by
  rcases List.eq_nil_or_concat a with rfl | ⟨b, e, rfl⟩
  · simp [endS, ht, hf]
  · rw [List.concat_eq_append] at hs ⊢
    obtain ⟨_, s1, s2, _⟩ := (seg_append _ _ _ _).mp hs
    rw [endS_append]
    simp only [endS]
    rw [s2, s1]
    simp

/-- C80.  First, last, next and previous element are those of the list. -/
theorem C80_reads (m : Mem) (Q : Nat → List Nat) (hQ : Queues m Q) (h : Nat) :
    first m h = (Q h).head? ∧ empty m h = decide (Q h = []) ∧ last m h = (Q h).getLast? ∧
    ∀ a e b, Q h = a ++ e :: b → next m e = b.head? ∧ prev m e = a.getLast? := by
  have hq := hQ.each h
  have hfirst : first m h = (Q h).head? := seg_head hq.seg hq.fin
  refine ⟨hfirst, ?_, ?_, ?_⟩
  · rw [empty, hfirst]
    cases Q h <;> simp
  · rw [last, hq.tail]
    exact end_before hq.seg hq.tail hq.fin
  · intro a e b hab
    rw [hab] at hq
    obtain ⟨s1, s2, s3, s4⟩ := (seg_append _ _ _ _).mp hq.seg
    have hf := hq.fin
    rw [endS_append] at hf
    refine ⟨seg_head s4 hf, ?_⟩
    rw [prev, s3]
    exact end_before s1 hq.tail hq.fin

theorem walk_suffix {m : Mem} {h : Nat} (l : List Nat) (hq : ∀ a e b, l = a ++ e :: b → next m e = b.head?) :
    ∀ (b a : List Nat) (fuel : Nat), l = a ++ b → b.length ≤ fuel → walk m fuel b.head? = some b := by
  intro b
  induction b with
  | nil => intro a fuel _ _; cases fuel <;> rfl
  | cons e b ih =>
    intro a fuel hl hf
    obtain ⟨k, rfl⟩ : ∃ k, fuel = k + 1 := ⟨fuel - 1, by simp at hf; omega⟩
    show (walk m k (next m e)).map (e :: ·) = _
    rw [hq a e b hl, ih (a ++ [e]) k (by rw [hl]; simp) (by simp at hf; omega)]
    rfl

theorem walkBack_prefix {m : Mem} (l : List Nat) (hq : ∀ a e b, l = a ++ e :: b → prev m e = a.getLast?) :
    ∀ (n : Nat) (a b : List Nat) (fuel : Nat), a.length = n → l = a ++ b → n ≤ fuel →
      walkBack m fuel a.getLast? = some a.reverse := by
  intro n
  induction n with
  | zero =>
    intro a b fuel ha _ _
    rw [List.length_eq_zero_iff] at ha
    subst ha
    cases fuel <;> rfl
  | succ n ih =>
    intro a b fuel ha hl hf
    obtain ⟨k, rfl⟩ : ∃ k, fuel = k + 1 := ⟨fuel - 1, by omega⟩
    rcases List.eq_nil_or_concat a with rfl | ⟨c, e, rfl⟩
    · simp at ha
    · rw [List.concat_eq_append] at ha hl ⊢
      have hc : c.length = n := by simpa using ha
      have hl' : l = c ++ e :: b := by rw [hl]; simp
      rw [List.getLast?_append]
      show (walkBack m k (prev m e)).map (e :: ·) = _
      rw [hq c e b hl', ih c (e :: b) k hc hl' (by omega)]
      simp

/-- C80.  The loops visit every element once, in order, or in the reverse order, and end. -/
theorem C80_loops (m : Mem) (Q : Nat → List Nat) (hQ : Queues m Q) (h fuel : Nat) (hf : (Q h).length ≤ fuel) :
    walk m fuel (first m h) = some (Q h) ∧ walkBack m fuel (last m h) = some (Q h).reverse := by
  obtain ⟨r1, _, r3, r4⟩ := C80_reads m Q hQ h
  rw [r1, r3]
  exact ⟨walk_suffix (h := h) (Q h) (fun a e b hl => (r4 a e b hl).1) (Q h) [] fuel rfl hf,
    walkBack_prefix (Q h) (fun a e b hl => (r4 a e b hl).2) (Q h).length (Q h) [] fuel rfl (by simp) hf⟩

theorem upd1_self (Q : Nat → List Nat) (h : Nat) (l : List Nat) : upd1 Q h l h = l := by simp [upd1]

theorem upd1_upd1 (Q : Nat → List Nat) (h : Nat) (l l' : List Nat) : upd1 (upd1 Q h l) h l' = upd1 Q h l' := by
  funext x
  simp only [upd1]
  split <;> rfl

/-- C80.  A loop with `VTAILQ_FOREACH_SAFE` may remove the element it is at: every element is visited,
    and those not removed are left, in order. -/
theorem C80_safe (m : Mem) (Q : Nat → List Nat) (hQ : Queues m Q) (h : Nat) (p : Nat → Bool) :
    ∃ m', walkSafe h p (Q h).length m (first m h) = some (Q h, m') ∧
      Queues m' (upd1 Q h ((Q h).filter (fun e => !p e))) := by
  have key : ∀ (b a : List Nat) (m : Mem), Queues m (upd1 Q h (a ++ b)) →
      ∃ m', walkSafe h p b.length m b.head? = some (b, m') ∧
        Queues m' (upd1 Q h (a ++ b.filter (fun e => !p e))) := by
    intro b
    induction b with
    | nil => intro a m hm; exact ⟨m, rfl, by simpa using hm⟩
    | cons e b ih =>
      intro a m hm
      have hn : next m e = b.head? :=
        ((C80_reads m _ hm h).2.2.2 a e b (upd1_self _ _ _)).1
      by_cases hp : p e = true
      · have h1 := step_refines hm (QStep.remove _ h e a b (upd1_self _ _ _))
        rw [upd1_upd1] at h1
        obtain ⟨m', e1, e2⟩ := ih a (Vqueue.remove m h e) h1
        refine ⟨m', ?_, ?_⟩
        · show (walkSafe h p b.length (if p e then Vqueue.remove m h e else m) (next m e)).map _ = _
          rw [if_pos hp, hn, e1]
          rfl
        · simpa [List.filter_cons, hp] using e2
      · obtain ⟨m', e1, e2⟩ := ih (a ++ [e]) m (by simpa using hm)
        refine ⟨m', ?_, ?_⟩
        · show (walkSafe h p b.length (if p e then Vqueue.remove m h e else m) (next m e)).map _ = _
          rw [if_neg hp, hn, e1]
          rfl
        · simpa [List.filter_cons, hp] using e2
  have h0 : upd1 Q h ([] ++ Q h) = Q := by
    funext x
    simp only [upd1, List.nil_append]
    split
    · next hx => rw [hx]
    · rfl
  obtain ⟨m', e1, e2⟩ := key (Q h) [] m (by rw [h0]; exact hQ)
  rw [(C80_reads m Q hQ h).1]
  exact ⟨m', e1, e2⟩

/-! ## Examples -/

/-- Memory with all heads initialised. -/
def mem0 : Mem := ⟨fun _ => none, fun s => s⟩

/-- Two queues: 5, 7, 6 and 8, after the insertion of 7 in front of 6 and the removal of 9. -/
def exampleMem : Mem :=
  [Op.tail 0 5, .tail 0 6, .tail 1 9, .tail 1 8, .before 6 7, .remove 1 9].foldl apply mem0

example : walk exampleMem 9 (first exampleMem 0) = some [5, 7, 6] := by decide
example : walkBack exampleMem 9 (last exampleMem 0) = some [6, 7, 5] := by decide
example : walk exampleMem 9 (first exampleMem 1) = some [8] ∧ last exampleMem 1 = some 8 ∧ prev exampleMem 8 = none := by
  decide
example : Queues mem0 (fun _ => []) := C80_init mem0 (fun _ => ⟨rfl, rfl⟩)
example : QSteps (fun _ => []) [Op.tail 0 5, .remove 0 5] (upd1 (upd1 (fun _ => []) 0 [5]) 0 []) :=
  .cons _ _ _ _ _ (.tail _ 0 5 (by simp)) (.cons _ _ _ _ _ (.remove _ 0 5 [] [] rfl) (.nil _))

/-- C80.  The rules are needed: an element that is put in a second queue without being removed from
    the first one makes the first one end early, so that an element is lost. -/
theorem C80_counterexample_twice :
    walk ([Op.tail 0 5, .tail 0 6, .tail 1 5].foldl apply mem0) 9
      (first ([Op.tail 0 5, .tail 0 6, .tail 1 5].foldl apply mem0) 0) = some [5] := by decide

end Verif.Props
