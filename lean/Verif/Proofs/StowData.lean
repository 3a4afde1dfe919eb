/-
Lemmas for property C62: the whole of one stow job.
-/
import Verif.Model.StowData
import Verif.Props.Stow

namespace Verif.StowData
open Verif Stow
open _root_.Verif.Rsilo (cstr)

/-! ### The messages of one kind -/

def fMsgs (l : List Msg) : List Bytes := l.filterMap fun m => match m with | .filter p => some p | _ => none
def dMsgs (l : List Msg) : List Bytes := l.filterMap fun m => match m with | .data p => some p | _ => none
def iMsgs (l : List Msg) : List Bytes := l.filterMap fun m => match m with | .info p => some p | _ => none

@[simp] theorem fMsgs_nil : fMsgs [] = [] := rfl
@[simp] theorem dMsgs_nil : dMsgs [] = [] := rfl
@[simp] theorem iMsgs_nil : iMsgs [] = [] := rfl
@[simp] theorem fMsgs_f (p : Bytes) (l : List Msg) : fMsgs (.filter p :: l) = p :: fMsgs l := rfl
@[simp] theorem fMsgs_d (p : Bytes) (l : List Msg) : fMsgs (.data p :: l) = fMsgs l := rfl
@[simp] theorem fMsgs_i (p : Bytes) (l : List Msg) : fMsgs (.info p :: l) = fMsgs l := rfl
@[simp] theorem dMsgs_f (p : Bytes) (l : List Msg) : dMsgs (.filter p :: l) = dMsgs l := rfl
@[simp] theorem dMsgs_d (p : Bytes) (l : List Msg) : dMsgs (.data p :: l) = p :: dMsgs l := rfl
@[simp] theorem dMsgs_i (p : Bytes) (l : List Msg) : dMsgs (.info p :: l) = dMsgs l := rfl
@[simp] theorem iMsgs_f (p : Bytes) (l : List Msg) : iMsgs (.filter p :: l) = iMsgs l := rfl
@[simp] theorem iMsgs_d (p : Bytes) (l : List Msg) : iMsgs (.data p :: l) = iMsgs l := rfl
@[simp] theorem iMsgs_i (p : Bytes) (l : List Msg) : iMsgs (.info p :: l) = p :: iMsgs l := rfl
@[simp] theorem fMsgs_append (a b : List Msg) : fMsgs (a ++ b) = fMsgs a ++ fMsgs b := List.filterMap_append
@[simp] theorem dMsgs_append (a b : List Msg) : dMsgs (a ++ b) = dMsgs a ++ dMsgs b := List.filterMap_append
@[simp] theorem iMsgs_append (a b : List Msg) : iMsgs (a ++ b) = iMsgs a ++ iMsgs b := List.filterMap_append
@[simp] theorem fMsgs_filter (l : List Bytes) : fMsgs (l.map .filter) = l := by induction l with | nil => rfl | cons a l ih => simp [ih]
@[simp] theorem fMsgs_info (l : List Bytes) : fMsgs (l.map .info) = [] := by induction l with | nil => rfl | cons a l ih => simp [ih]
@[simp] theorem dMsgs_filter (l : List Bytes) : dMsgs (l.map .filter) = [] := by induction l with | nil => rfl | cons a l ih => simp [ih]
@[simp] theorem dMsgs_info (l : List Bytes) : dMsgs (l.map .info) = [] := by induction l with | nil => rfl | cons a l ih => simp [ih]
@[simp] theorem iMsgs_filter (l : List Bytes) : iMsgs (l.map .filter) = [] := by induction l with | nil => rfl | cons a l ih => simp [ih]
@[simp] theorem iMsgs_info (l : List Bytes) : iMsgs (l.map .info) = l := by induction l with | nil => rfl | cons a l ih => simp [ih]

/-- The filter exchange in it. -/
def filt (s : Sys) : Stow.Sys := ⟨s.cl, s.sv, fMsgs s.up, fMsgs s.down, s.known, s.log⟩

/-! ### The stream of data -/

/-- What the server has got of a file, the messages on the way, and what is still to be sent are these contents. -/
def Flow : (got : Option Bytes) → (ups : List Bytes) → (send : Option Bytes) → (cs : List Bytes) → Prop
  | none, [], none, cs => cs = []
  | none, [], some r, cs => cs = [r] ∧ r ≠ []
  | some b, [], some r, cs => cs = [b ++ r]
  | some _, [], none, _ => False
  | got, p :: ups, send, cs =>
    if p = [] then ∃ b cs', got = some b ∧ cs = b :: cs' ∧ Flow none ups send cs'
    else Flow (some (got.getD [] ++ p)) ups send cs

theorem flow_nil_iff (got send : Option Bytes) (cs : List Bytes) : Flow got [] send cs ↔
    (got = none ∧ send = none ∧ cs = []) ∨ (got = none ∧ ∃ r, send = some r ∧ r ≠ [] ∧ cs = [r]) ∨
    (∃ b r, got = some b ∧ send = some r ∧ cs = [b ++ r]) := by
  cases got <;> cases send <;> simp [Flow, and_comm]

theorem flow_cons_iff (got send : Option Bytes) (p : Bytes) (ups cs : List Bytes) : Flow got (p :: ups) send cs ↔
    if p = [] then ∃ b cs', got = some b ∧ cs = b :: cs' ∧ Flow none ups send cs' else Flow (some (got.getD [] ++ p)) ups send cs := by
  cases got <;> cases send <;> simp only [Flow]

theorem flow_piece {ups : List Bytes} : ∀ {got : Option Bytes} {cs : List Bytes} {p r : Bytes}, p ≠ [] → Flow got ups (some (p ++ r)) cs →
    Flow got (ups ++ [p]) (some r) cs := by
  induction ups with
  | nil =>
    intro got cs p r hp h
    rw [List.nil_append, flow_cons_iff, if_neg hp, flow_nil_iff]
    refine .inr (.inr ⟨_, r, rfl, rfl, ?_⟩)
    rcases (flow_nil_iff _ _ _).1 h with ⟨-, k, -⟩ | ⟨rfl, r', k, -, rfl⟩ | ⟨b, r', rfl, k, rfl⟩
    · cases k
    · rw [← Option.some.inj k]; rfl
    · rw [← Option.some.inj k]; simp
  | cons q ups ih =>
    intro got cs p r hp h
    rw [flow_cons_iff] at h
    rw [List.cons_append, flow_cons_iff]
    split
    · rename_i hq
      rw [if_pos hq] at h
      obtain ⟨b, cs', h1, h2, h3⟩ := h
      exact ⟨b, cs', h1, h2, ih hp h3⟩
    · rename_i hq
      rw [if_neg hq] at h
      exact ih hp h

theorem flow_end {ups : List Bytes} : ∀ {got : Option Bytes} {cs : List Bytes}, Flow got ups (some []) cs → Flow got (ups ++ [[]]) none cs := by
  induction ups with
  | nil =>
    intro got cs h
    rw [List.nil_append, flow_cons_iff, if_pos rfl]
    rcases (flow_nil_iff _ _ _).1 h with ⟨-, k, -⟩ | ⟨rfl, r', k, h', rfl⟩ | ⟨b, r', rfl, k, rfl⟩
    · cases k
    · exact absurd (Option.some.inj k).symm h'
    · exact ⟨b, [], rfl, by rw [← Option.some.inj k]; simp, by simp [flow_nil_iff]⟩
  | cons q ups ih =>
    intro got cs h
    rw [flow_cons_iff] at h
    rw [List.cons_append, flow_cons_iff]
    split
    · rename_i hq
      rw [if_pos hq] at h
      obtain ⟨b, cs', h1, h2, h3⟩ := h
      exact ⟨b, cs', h1, h2, ih h3⟩
    · rename_i hq
      rw [if_neg hq] at h
      exact ih h

theorem flow_open {ups : List Bytes} : ∀ {got : Option Bytes} {cs : List Bytes} {c : Bytes}, c ≠ [] → Flow got ups none cs →
    Flow got ups (some c) (cs ++ [c]) := by
  induction ups with
  | nil =>
    intro got cs c hc h
    rcases (flow_nil_iff _ _ _).1 h with ⟨rfl, -, rfl⟩ | ⟨-, r', h, -⟩ | ⟨-, r', -, h, -⟩
    · exact (flow_nil_iff _ _ _).2 (.inr (.inl ⟨rfl, c, rfl, hc, rfl⟩))
    · cases h
    · cases h
  | cons q ups ih =>
    intro got cs c hc h
    rw [flow_cons_iff] at h ⊢
    split
    · rename_i hq
      rw [if_pos hq] at h
      obtain ⟨b, cs', h1, rfl, h3⟩ := h
      exact ⟨b, cs' ++ [c], h1, rfl, ih hc h3⟩
    · rename_i hq
      rw [if_neg hq] at h
      exact ih hc h

theorem flow_none {ups : List Bytes} : ∀ {got send : Option Bytes}, Flow got ups send [] → got = none ∧ ups = [] ∧ send = none := by
  induction ups with
  | nil =>
    intro got send h
    rcases (flow_nil_iff _ _ _).1 h with ⟨rfl, rfl, -⟩ | ⟨-, r', -, -, k⟩ | ⟨b, r', -, -, k⟩
    · exact ⟨rfl, rfl, rfl⟩
    · cases k
    · cases k
  | cons q ups ih =>
    intro got send h
    rw [flow_cons_iff] at h
    split at h
    · obtain ⟨b, cs', -, h, -⟩ := h
      cases h
    · have := (ih h).1
      cases this

/-! ### The client's lists -/

/-- `sj->meta` after these items have been flushed -/
def infoAfter : Option Item → List Item → Option Item
  | i, [] => i
  | i, x :: l => infoAfter (if x.isFile = false ∧ x.digest ≠ [] then some x else i) l

theorem infoAfter_append (i : Option Item) (l m : List Item) : infoAfter i (l ++ m) = infoAfter (infoAfter i l) m := by
  induction l generalizing i with
  | nil => rfl
  | cons x l ih => exact ih _

theorem infoAfter_keep {i : Option Item} {l : List Item} (h : ∀ x ∈ l, x.isFile = true ∨ x.digest = []) : infoAfter i l = i := by
  induction l with
  | nil => rfl
  | cons x l ih =>
    rw [infoAfter, if_neg]
    · exact ih (fun y hy => h y (by simp [hy]))
    · rcases h x (by simp) with h | h <;> simp [h]

/-- What `filterResp` does to the lists. -/
structure Grows (c c' : Client) (G F : List Item) : Prop where
  get : c'.get = c.get ++ G
  flushed : c'.flushed = c.flushed ++ F
  info : c'.info = infoAfter c.info F
  subj : c'.subj = c.subj

theorem flushAll_grows : ∀ (w : List Item) (c : Client), Grows c (flushAll w c) [] w
  | [], c => ⟨by simp [flushAll], by simp [flushAll], rfl, rfl⟩
  | x :: w, c => by
    have h := flushAll_grows w (subjFlush c x w)
    rw [flushAll]
    exact ⟨by rw [h.get]; simp [subjFlush], by rw [h.flushed]; simp [subjFlush], by rw [h.info]; rfl, by rw [h.subj]; rfl⟩

theorem flushN_grows : ∀ (u : Nat) (w : List Item) (c c' : Client), flushN u w c = .ok c' → ∃ F, Grows c c' [] F
  | 0, w, c, c', h => by
    cases h
    exact ⟨[], by simp, by simp, rfl, rfl⟩
  | u + 1, [], c, c', h => by cases h
  | u + 1, x :: w, c, c', h => by
    obtain ⟨F, h⟩ := flushN_grows u w (subjFlush c x w) c' h
    exact ⟨x :: F, by rw [h.get]; simp [subjFlush], by rw [h.flushed]; simp [subjFlush], by rw [h.info]; rfl, by rw [h.subj]; rfl⟩

theorem flushTo_grows (p : Bytes) : ∀ (w : List Item) (c c' : Client), flushTo p w c = .ok c' → ∃ G F, Grows c c' G F ∧ G.length ≤ 1
  | [], c, c', h => by cases h
  | x :: w, c, c', h => by
    rw [flushTo, Res.bind_eq_ok] at h
    obtain ⟨-, -, h⟩ := h
    split at h
    · cases h
      exact ⟨[x], [], ⟨rfl, by simp, rfl, rfl⟩, Nat.le_refl _⟩
    · obtain ⟨G, F, h, hG⟩ := flushTo_grows p w (subjFlush c x w) c' h
      exact ⟨G, x :: F, ⟨by rw [h.get]; simp [subjFlush], by rw [h.flushed]; simp [subjFlush], by rw [h.info]; rfl, by rw [h.subj]; rfl⟩, hG⟩

theorem filterResp_grows {c c' : Client} {p : Bytes} (h : filterResp c p = .ok c') : ∃ G F, Grows c c' G F ∧ G.length ≤ 1 := by
  unfold filterResp at h
  split at h
  · cases h
    exact ⟨_, _, flushAll_grows _ _, by simp⟩
  · split at h
    · obtain ⟨F, h⟩ := flushN_grows _ _ _ _ h
      exact ⟨_, F, h, by simp⟩
    · split at h
      · obtain ⟨G, F, h, hG⟩ := flushTo_grows _ _ _ _ h
        exact ⟨G, F, ⟨h.get, h.flushed, h.info, h.subj⟩, hG⟩
      · cases h

end Verif.StowData
