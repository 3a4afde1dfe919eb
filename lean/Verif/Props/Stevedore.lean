/-
C86: what a client of `stevedore` can do by what it sends, and by going away.
-/
import Verif.Model.Stevedore

namespace Verif.Props
open _root_.Verif.Stevedore (Srv Out Filt FJob Pend Cfg readAll batch startFilter kick inputFilter inputData inputMeta inputOther inputMsg idLine settle)
open Verif Proto
open _root_.Verif.Rsilo (cstr)

namespace Client

/-! ### What the client has sent -/

/-- `Frames s ms e`: the stream `s` begins with the complete messages `ms`; `e` is the rest of it. -/
inductive Frames : Bytes → List (Nat × Bytes) → Bytes → Prop
  | nil (s : Bytes) : Frames s [] s
  | snoc {s e r : Bytes} {ms : List (Nat × Bytes)} {c l : Nat} : Frames s ms e → protoIn e = .hdr c l r → l ≤ r.length →
      Frames s (ms ++ [(c, r.take l)]) (r.drop l)

/-- The payloads of the messages with one command. -/
def payloads (c : Nat) (ms : List (Nat × Bytes)) : List Bytes := (ms.filter (fun m => m.1 == c)).map (·.2)

/-- The stream ends inside the message that comes next, of which `p` has arrived. -/
def CutIn (c : Nat) (e p : Bytes) : Prop := ∃ l, protoIn e = .hdr c l p ∧ p.length < l

/-- `Objects ps os rest`: the pieces `ps` are those of the objects `os`, each followed by an empty one, and then the pieces `rest` of an object
that has no end. -/
def Objects (ps : List Bytes) (os : List (List Bytes)) (rest : List Bytes) : Prop :=
  ps = (os.map (fun o => o ++ [[]])).flatten ++ rest ∧ (∀ o ∈ os, o ≠ [] ∧ [] ∉ o) ∧ [] ∉ rest

/-- The same for metadata, where a reference comes first; `r` is what there is of one that has no end. -/
def Metas (ps : List Bytes) (os : List (Bytes × List Bytes)) (r : Option (Bytes × List Bytes)) : Prop :=
  ps = (os.map (fun o => o.1 :: o.2 ++ [[]])).flatten ++ (match r with | none => [] | some x => x.1 :: x.2) ∧
    (∀ o ∈ os, [] ∉ o.2) ∧ (∀ x, r = some x → [] ∉ x.2)

/-- The last state of the server. -/
def lastOf : Out → Option Srv
  | .go s => some s
  | .exit _ s => some s
  | .abort s => some s
  | .ub => none

/-! ### Reading in pieces -/

theorem readAll_eq {cap : Nat} (hc : 0 < cap) (cs : Nat → Nat) : ∀ (fuel i need : Nat) (s : Bytes), need ≤ fuel →
    readAll cap cs fuel i need s = (s.take need, s.drop need, decide (need ≤ s.length))
  | 0, i, need, s, h => by
    have : need = 0 := by omega
    subst this
    simp [readAll]
  | fuel + 1, i, need, s, h => by
    unfold readAll
    by_cases h0 : need = 0
    · subst h0; simp
    · rw [if_neg h0]
      by_cases hs : s = []
      · subst hs; simp; omega
      · rw [if_neg hs]
        have hl : 0 < s.length := List.length_pos_iff.2 hs
        generalize hk : min (min (cs i + 1) (min need cap)) s.length = k
        have h1 : 0 < k := by omega
        have h2 : k ≤ need := by omega
        have h3 : k ≤ s.length := by omega
        have ih := readAll_eq hc cs fuel (i + 1) (need - k) (s.drop k) (by omega)
        simp only [ih, List.drop_drop, List.length_drop]
        refine Prod.ext ?_ (Prod.ext ?_ ?_)
        · show s.take k ++ (s.drop k).take (need - k) = s.take need
          rw [← List.take_add]
          congr 1; omega
        · show s.drop (k + (need - k)) = s.drop need
          congr 1; omega
        · show decide (need - k ≤ s.length - k) = decide (need ≤ s.length)
          congr 1
          apply propext
          omega

/-- What the server does with a message does not depend on the pieces in which it arrives. -/
theorem C86_pieces (n max : Nat) (msg : Nat → Nat → Bytes) (cs cs' : Nat → Nat) (s : Srv) :
    Stevedore.input n max msg cs s = Stevedore.input n max msg cs' s := by
  unfold Stevedore.input
  cases protoIn s.inp with
  | eof => rfl
  | err => rfl
  | hdr c l r =>
    have e1 : readAll 8192 cs l 0 l r = readAll 8192 cs' l 0 l r := by
      rw [readAll_eq (by omega) _ _ _ _ _ (Nat.le_refl _), readAll_eq (by omega) _ _ _ _ _ (Nat.le_refl _)]
    have e2 : 0 < l → readAll l cs l 0 l r = readAll l cs' l 0 l r := fun h => by
      rw [readAll_eq h _ _ _ _ _ (Nat.le_refl _), readAll_eq h _ _ _ _ _ (Nat.le_refl _)]
    have e3 : readAll l cs l 0 l r = readAll l cs' l 0 l r := by
      rcases Nat.eq_zero_or_pos l with h | h
      · subst h; rfl
      · exact e2 h
    simp only [inputMsg, inputFilter, inputData, inputMeta, inputOther, e1, e3]

theorem readAll_self (cs : Nat → Nat) (l : Nat) (r : Bytes) : readAll l cs l 0 l r = (r.take l, r.drop l, decide (l ≤ r.length)) := by
  rcases Nat.eq_zero_or_pos l with h | h
  · subst h; simp [readAll]
  · exact readAll_eq h _ _ _ _ _ (Nat.le_refl _)

theorem readAll_buf (cs : Nat → Nat) (l : Nat) (r : Bytes) : readAll 8192 cs l 0 l r = (r.take l, r.drop l, decide (l ≤ r.length)) :=
  readAll_eq (by omega) _ _ _ _ _ (Nat.le_refl _)

/-! ### What the jobs get -/

/-- The part of the state that says what the jobs have got. -/
def SameData (s s' : Srv) : Prop :=
  s'.inp = s.inp ∧ s'.given = s.given ∧ s'.store = s.store ∧ s'.info = s.info ∧ s'.infos = s.infos ∧ (s'.ev = none → s.ev = none)

theorem SameData.refl (s : Srv) : SameData s s := ⟨rfl, rfl, rfl, rfl, rfl, id⟩

theorem SameData.trans {a b c : Srv} (h : SameData a b) (k : SameData b c) : SameData a c :=
  ⟨k.1.trans h.1, k.2.1.trans h.2.1, k.2.2.1.trans h.2.2.1, k.2.2.2.1.trans h.2.2.2.1, k.2.2.2.2.1.trans h.2.2.2.2.1,
    fun e => h.2.2.2.2.2 (k.2.2.2.2.2 e)⟩

def Keeps (s : Srv) (o : Out) : Prop := ∀ s', lastOf o = some s' → SameData s s'

theorem startFilter_exit (max : Nat) : ∀ (q : List Filt) (s : Srv) (c : Nat) (s' : Srv), startFilter max q s ≠ .exit c s'
  | [], s, c, s' => by intro h; cases h
  | f :: q, s, c, s' => by
    unfold startFilter
    split
    · intro h; cases h
    · split
      · exact startFilter_exit max q _ c s'
      · split
        · intro h; cases h
        · split
          · intro h; cases h
          · split <;> (intro h; cases h)

theorem kick_exit (max : Nat) (s : Srv) (c : Nat) (s' : Srv) : kick max s ≠ .exit c s' := by
  unfold kick
  split
  · intro h; cases h
  · exact startFilter_exit max _ _ _ _

theorem keeps_go {s s' : Srv} (h : SameData s s') : Keeps s (.go s') := by
  intro x hx; cases hx; exact h

theorem keeps_abort {s s' : Srv} (h : SameData s s') : Keeps s (.abort s') := by
  intro x hx; cases hx; exact h

theorem keeps_ub (s : Srv) : Keeps s .ub := by
  intro x hx; cases hx

theorem startFilter_keeps (max : Nat) : ∀ (q : List Filt) (s0 s : Srv), SameData s0 s → Keeps s0 (startFilter max q s)
  | [], s0, s, h => keeps_go (h.trans ⟨rfl, rfl, rfl, rfl, rfl, id⟩)
  | f :: q, s0, s, h => by
    unfold startFilter
    split
    · exact keeps_ub _
    · split
      · exact startFilter_keeps max q s0 _ (h.trans ⟨rfl, rfl, rfl, rfl, rfl, id⟩)
      · split
        · exact keeps_abort h
        · split
          · exact keeps_ub _
          · split
            · exact keeps_abort h
            · exact keeps_go (h.trans ⟨rfl, rfl, rfl, rfl, rfl, id⟩)

theorem kick_keeps (max : Nat) {s0 s : Srv} (h : SameData s0 s) : Keeps s0 (kick max s) := by
  unfold kick
  split
  · exact keeps_go h
  · exact startFilter_keeps max _ _ _ h

/-- Nothing but standard input is being waited for. -/
def Alone (s : Srv) : Prop := s.fjob = none ∧ s.store = none ∧ s.info = none ∧ s.pend = []

theorem settle_cases (s : Srv) : settle (.go s) = .go s ∨ (settle (.go s) = .exit 0 s ∧ Alone s ∧ s.ev = none) ∨
    (settle (.go s) = .abort s ∧ Alone s ∧ s.ev = some false) := by
  by_cases hc : (s.fjob.isSome || s.store.isSome || s.info.isSome || decide (s.pend ≠ [])) = true
  · left
    show (if _ then _ else _) = _
    rw [if_pos hc]
  · have hA : Alone s := by
      simp only [Bool.or_eq_true, not_or, decide_eq_true_eq, ne_eq, Classical.not_not, Option.not_isSome_iff_eq_none] at hc
      exact ⟨hc.1.1.1, hc.1.1.2, hc.1.2, hc.2⟩
    have e : settle (.go s) = match s.ev with | none => .exit 0 s | some false => .abort s | some true => .go s := by
      show (if _ then _ else _) = _
      rw [if_neg hc]
      rcases s.ev with _ | _ | _ <;> rfl
    rw [e]
    cases h : s.ev with
    | none => exact .inr (.inl ⟨rfl, hA, rfl⟩)
    | some b =>
      cases b with
      | false => exact .inr (.inr ⟨rfl, hA, rfl⟩)
      | true => exact .inl rfl

/-- What the server has got is what was sent: between two messages. -/
structure Got (n : Nat) (inp : Bytes) (s : Srv) (ms : List (Nat × Bytes)) (e : Bytes) : Prop where
  frames : Frames inp ms e
  at_ : s.inp = e ∨ (s.inp = [] ∧ ∃ c p, CutIn c e p)
  over : s.ev = none → s.inp = []
  objs : ∃ os rest, Objects (payloads 2 ms) os rest ∧ s.given = os.map List.flatten ∧
    ((s.store = none ∧ rest = []) ∨ (s.store = some rest.flatten ∧ rest ≠ []))
  metas : ∃ os r, Metas (payloads 3 ms) os r ∧ s.infos = os.map (fun o => ((cstr o.1).take n, o.2.flatten)) ∧
    s.info = r.map (fun x => ((cstr x.1).take n, x.2.flatten))

theorem Got.same {n : Nat} {inp : Bytes} {s s' : Srv} {ms : List (Nat × Bytes)} {e : Bytes} (h : Got n inp s ms e) (k : SameData s s') :
    Got n inp s' ms e := by
  obtain ⟨k1, k2, k3, k4, k5, k6⟩ := k
  refine ⟨h.frames, ?_, ?_, ?_, ?_⟩
  · rw [k1]; exact h.at_
  · intro e'; rw [k1]; exact h.over (k6 e')
  · rw [k2, k3]; exact h.objs
  · rw [k4, k5]; exact h.metas

/-- What the server has got is what was sent: at its end, also inside a message. -/
structure GotEnd (n : Nat) (inp : Bytes) (s : Srv) (ms : List (Nat × Bytes)) (e : Bytes) : Prop where
  frames : Frames inp ms e
  objs : ∃ os rest, Objects (payloads 2 ms) os rest ∧ s.given = os.map List.flatten ∧
    ((s.store = none ∧ rest = []) ∨ (s.store = some rest.flatten ∧ rest ≠ []) ∨ (∃ p, CutIn 2 e p ∧ s.store = some (rest.flatten ++ p)))
  metas : ∃ os r, Metas (payloads 3 ms) os r ∧ s.infos = os.map (fun o => ((cstr o.1).take n, o.2.flatten)) ∧
    ∃ p, (p = [] ∨ CutIn 3 e p) ∧ s.info = r.map (fun x => ((cstr x.1).take n, x.2.flatten ++ p))

theorem Got.end_ {n : Nat} {inp : Bytes} {s : Srv} {ms : List (Nat × Bytes)} {e : Bytes} (h : Got n inp s ms e) : GotEnd n inp s ms e := by
  refine ⟨h.frames, ?_, ?_⟩
  · obtain ⟨os, rest, h1, h2, h3⟩ := h.objs
    exact ⟨os, rest, h1, h2, h3.elim .inl (fun h => .inr (.inl h))⟩
  · obtain ⟨os, r, h1, h2, h3⟩ := h.metas
    exact ⟨os, r, h1, h2, [], .inl rfl, by simpa using h3⟩

theorem payloads_snoc (c : Nat) (ms : List (Nat × Bytes)) (d : Nat) (p : Bytes) :
    payloads c (ms ++ [(d, p)]) = if d = c then payloads c ms ++ [p] else payloads c ms := by
  unfold payloads
  rw [List.filter_append, List.map_append]
  by_cases h : d = c
  · subst h; simp
  · simp [h]

/-- A message was read that says nothing to the store and metadata jobs. -/
theorem Got.next {n : Nat} {inp : Bytes} {s s' : Srv} {ms : List (Nat × Bytes)} {e r : Bytes} {c l : Nat} (h : Got n inp s ms e) (he : protoIn e = .hdr c l r)
    (hl : l ≤ r.length) (h2 : c ≠ 2) (h3 : c ≠ 3) (hi : s'.inp = r.drop l) (hev : s'.ev ≠ none) (hk : s'.given = s.given ∧ s'.store = s.store ∧ s'.info = s.info ∧ s'.infos = s.infos) :
    Got n inp s' (ms ++ [(c, r.take l)]) (r.drop l) := by
  refine ⟨.snoc h.frames he hl, .inl hi, fun x => absurd x hev, ?_, ?_⟩
  · rw [payloads_snoc, if_neg h2, hk.1, hk.2.1]; exact h.objs
  · rw [payloads_snoc, if_neg h3, hk.2.2.1, hk.2.2.2]; exact h.metas

/-- The next message is cut, and it says nothing to the store and metadata jobs. -/
theorem Got.cut {n : Nat} {inp : Bytes} {s s' : Srv} {ms : List (Nat × Bytes)} {e r : Bytes} {c l : Nat} (h : Got n inp s ms e) (he : protoIn e = .hdr c l r)
    (hl : r.length < l) (hi : s'.inp = []) (hk : s'.given = s.given ∧ s'.store = s.store ∧ s'.info = s.info ∧ s'.infos = s.infos) :
    Got n inp s' ms e := by
  refine ⟨h.frames, .inr ⟨hi, c, r, l, he, hl⟩, fun _ => hi, ?_, ?_⟩
  · rw [hk.1, hk.2.1]; exact h.objs
  · rw [hk.2.2.1, hk.2.2.2]; exact h.metas

/-- What can be said after a handler. -/
def After (n : Nat) (inp : Bytes) (o : Out) : Prop :=
  match o with
  | .go s => ∃ ms e, Got n inp s ms e
  | .exit c s => ∃ ms e, GotEnd n inp s ms e ∧ (c = 0 → Got n inp s ms e ∧ Alone s ∧ s.ev = none) ∧ (c ≠ 0 → protoIn e = .err ∨ ∃ c p, CutIn c e p)
  | .abort s => ∃ ms e, GotEnd n inp s ms e
  | .ub => True

theorem after_keeps {n : Nat} {inp : Bytes} {s : Srv} {o : Out} {ms : List (Nat × Bytes)} {e : Bytes} (h : Got n inp s ms e) (k : Keeps s o) (h0 : ∀ c s', o ≠ .exit c s') :
    After n inp o := by
  cases o with
  | go s' => exact ⟨ms, e, h.same (k s' rfl)⟩
  | exit c s' => exact absurd rfl (h0 c s')
  | abort s' => exact ⟨ms, e, (h.same (k s' rfl)).end_⟩
  | ub => trivial

theorem after_settle {n : Nat} {inp : Bytes} {o : Out} (h : After n inp o) : After n inp (settle o) := by
  cases o with
  | go s =>
    obtain ⟨ms, e, hg⟩ := h
    rcases settle_cases s with h | ⟨h, ha, hn⟩ | ⟨h, _⟩ <;> rw [h]
    · exact ⟨ms, e, hg⟩
    · exact ⟨ms, e, hg.end_, fun _ => ⟨hg, ha, hn⟩, fun x => absurd rfl x⟩
    · exact ⟨ms, e, hg.end_⟩
  | _ => exact h

theorem after_input {n max : Nat} {msg : Nat → Nat → Bytes} {cs : Nat → Nat} {inp : Bytes} {s : Srv} {ms : List (Nat × Bytes)} {e : Bytes}
    (h : Got n inp s ms e) (hev : s.ev = some true) : After n inp (Stevedore.input n max msg cs s) := by
  rcases h.at_ with hat | ⟨hat, hcut⟩
  case inr =>
    unfold Stevedore.input
    rw [hat]
    exact ⟨ms, e, h.frames, .inr ⟨rfl, hcut⟩, fun _ => rfl, h.objs, h.metas⟩
  unfold Stevedore.input
  rw [hat]
  cases hp : protoIn e with
  | eof =>
    have : e = [] := by
      cases e with
      | nil => rfl
      | cons u r =>
        exfalso
        unfold protoIn at hp
        dsimp only at hp
        repeat' (first | contradiction | split at hp)
    exact ⟨ms, e, h.frames, .inl this.symm, fun _ => rfl, h.objs, h.metas⟩
  | err => exact ⟨ms, e, ⟨h.frames, h.end_.objs, h.end_.metas⟩, (fun x => by cases x), fun _ => .inl hp⟩
  | hdr c l r =>
    show After n inp (inputMsg n max msg cs c l { s with inp := r })
    unfold inputMsg
    by_cases c0 : c = 0
    · rw [if_pos c0]
      exact ⟨ms, e, h.frames, h.end_.objs, h.end_.metas⟩
    rw [if_neg c0]
    by_cases c1 : c = 1
    · rw [if_pos c1]
      subst c1
      unfold inputFilter
      rw [readAll_self]
      by_cases l0 : l = 0
      · rw [if_pos l0]
        subst l0
        exact after_keeps (h.next (s' := { s with inp := r, queue := s.queue ++ [⟨[], false⟩] }) hp (Nat.zero_le _) (by decide) (by decide) rfl
          (by rw [hev]; simp) ⟨rfl, rfl, rfl, rfl⟩) (kick_keeps max ⟨rfl, rfl, rfl, rfl, rfl, id⟩) (kick_exit max _)
      rw [if_neg l0]
      by_cases hb : n ≤ l ∧ l ≤ 64
      · rw [if_neg (by simpa using hb), if_neg (by simp; omega)]
        dsimp only
        by_cases hl : l ≤ r.length
        · rw [if_neg (by simpa using hl)]
          exact after_keeps (h.next (s' := { s with inp := r.drop l, queue := s.queue ++ [⟨cstr (r.take l ++ [10]), false⟩] }) hp hl (by decide) (by decide) rfl
            (by rw [hev]; simp) ⟨rfl, rfl, rfl, rfl⟩) (kick_keeps max ⟨rfl, rfl, rfl, rfl, rfl, id⟩) (kick_exit max _)
        · rw [if_pos (by simpa using hl)]
          exact ⟨ms, e, h.cut hp (by omega) (List.drop_eq_nil_of_le (by omega)) ⟨rfl, rfl, rfl, rfl⟩⟩
      · rw [if_pos hb]
        exact ⟨ms, e, h.frames, h.end_.objs, h.end_.metas⟩
    rw [if_neg c1]
    by_cases c2 : c = 2
    · rw [if_pos c2]
      subst c2
      unfold inputData
      rw [readAll_buf]
      obtain ⟨os, rest, h1, h2, h3⟩ := h.objs
      by_cases l0 : l = 0
      · rw [if_pos l0]
        subst l0
        rcases h3 with ⟨h3, h4⟩ | ⟨h3, h4⟩
        · dsimp only
          have ho := h.end_.objs
          rw [h3] at ho ⊢
          exact ⟨ms, e, h.frames, ho, h.end_.metas⟩
        · dsimp only
          rw [h3]
          dsimp only [Stevedore.ctl]
          rw [hev]
          refine ⟨ms ++ [(2, r.take 0)], r.drop 0, .snoc h.frames hp (Nat.zero_le _), .inl rfl, by simp, ?_, ?_⟩
          · refine ⟨os ++ [rest], [], ⟨?_, ?_, by simp⟩, ?_, .inl ⟨rfl, rfl⟩⟩
            · rw [payloads_snoc, if_pos rfl, h1.1]; simp
            · intro o ho
              rcases List.mem_append.1 ho with ho | ho
              · exact h1.2.1 o ho
              · rw [List.mem_singleton.1 ho]; exact ⟨h4, h1.2.2⟩
            · simp [h2]
          · rw [payloads_snoc, if_neg (by decide)]; exact h.metas
      · rw [if_neg l0]
        dsimp only
        by_cases hl : l ≤ r.length
        · rw [if_neg (by simpa using hl)]
          refine ⟨ms ++ [(2, r.take l)], r.drop l, .snoc h.frames hp hl, .inl rfl, fun x => ?_, ?_, ?_⟩
          · rw [show s.ev = none from x] at hev; cases hev
          · refine ⟨os, rest ++ [r.take l], ⟨?_, h1.2.1, ?_⟩, h2, .inr ⟨?_, by simp⟩⟩
            · rw [payloads_snoc, if_pos rfl, h1.1]; simp
            · intro hm
              rcases List.mem_append.1 hm with hm | hm
              · exact h1.2.2 hm
              · have := congrArg List.length (List.mem_singleton.1 hm)
                simp at this
                omega
            · rcases h3 with ⟨h3, h4⟩ | ⟨h3, h4⟩
              · dsimp only; rw [h3, h4]; simp
              · dsimp only; rw [h3]; simp
          · rw [payloads_snoc, if_neg (by decide)]; exact h.metas
        · rw [if_pos (by simpa using hl)]
          have ht : r.take l = r := List.take_of_length_le (by omega)
          refine ⟨ms, e, ⟨h.frames, ⟨os, rest, h1, h2, .inr (.inr ⟨r, ⟨l, hp, by omega⟩, ?_⟩)⟩, h.end_.metas⟩, (fun x => by cases x), fun _ => .inr ⟨2, r, l, hp, by omega⟩⟩
          dsimp only
          rw [ht]
          rcases h3 with ⟨h3, h4⟩ | ⟨h3, h4⟩
          · rw [h3, h4]; simp
          · rw [h3]; simp
    rw [if_neg c2]
    by_cases c3 : c = 3
    · rw [if_pos c3]
      subst c3
      unfold inputMeta
      rw [readAll_buf, readAll_self]
      obtain ⟨os, x, h1, h2, h3⟩ := h.metas
      cases x with
      | none =>
        have h3' : s.info = none := by simpa using h3
        dsimp only
        rw [h3']
        dsimp only
        by_cases hb : l + 1 < 8192
        · rw [if_neg (by omega)]
          by_cases hl : l ≤ r.length
          · rw [if_neg (by simpa using hl)]
            refine ⟨ms ++ [(3, r.take l)], r.drop l, .snoc h.frames hp hl, .inl rfl, fun y => ?_, ?_, ?_⟩
            · rw [show s.ev = none from y] at hev; cases hev
            · rw [payloads_snoc, if_neg (by decide)]; exact h.objs
            · refine ⟨os, some (r.take l, []), ⟨?_, h1.2.1, ?_⟩, h2, rfl⟩
              · rw [payloads_snoc, if_pos rfl, h1.1]; simp
              · intro y hy; cases hy; simp
          · rw [if_pos (by simpa using hl)]
            exact ⟨ms, e, h.cut hp (by omega) (List.drop_eq_nil_of_le (by omega)) ⟨rfl, rfl, h3'.symm, rfl⟩⟩
        · rw [if_pos hb]
          have hm := h.end_.metas
          rw [h3'] at hm
          exact ⟨ms, e, h.frames, h.end_.objs, hm⟩
      | some x =>
        have h3' : s.info = some ((cstr x.1).take n, x.2.flatten) := h3
        dsimp only
        rw [h3']
        dsimp only
        by_cases l0 : l = 0
        · rw [if_pos l0]
          subst l0
          refine ⟨ms ++ [(3, r.take 0)], r.drop 0, .snoc h.frames hp (Nat.zero_le _), .inl rfl, fun y => ?_, ?_, ?_⟩
          · rw [show s.ev = none from y] at hev; cases hev
          · rw [payloads_snoc, if_neg (by decide)]; exact h.objs
          · refine ⟨os ++ [x], none, ⟨?_, ?_, by simp⟩, ?_, rfl⟩
            · rw [payloads_snoc, if_pos rfl, h1.1]; simp
            · intro o ho
              rcases List.mem_append.1 ho with ho | ho
              · exact h1.2.1 o ho
              · rw [List.mem_singleton.1 ho]; exact h1.2.2 x rfl
            · simp [h2]
        · rw [if_neg l0]
          by_cases hl : l ≤ r.length
          · rw [if_neg (by simpa using hl)]
            refine ⟨ms ++ [(3, r.take l)], r.drop l, .snoc h.frames hp hl, .inl rfl, fun y => ?_, ?_, ?_⟩
            · rw [show s.ev = none from y] at hev; cases hev
            · rw [payloads_snoc, if_neg (by decide)]; exact h.objs
            · refine ⟨os, some (x.1, x.2 ++ [r.take l]), ⟨?_, h1.2.1, ?_⟩, h2, ?_⟩
              · rw [payloads_snoc, if_pos rfl, h1.1]; simp
              · intro y hy
                cases hy
                intro hm
                rcases List.mem_append.1 hm with hm | hm
                · exact h1.2.2 x rfl hm
                · have := congrArg List.length (List.mem_singleton.1 hm)
                  simp at this
                  omega
              · simp
          · rw [if_pos (by simpa using hl)]
            have ht : r.take l = r := List.take_of_length_le (by omega)
            refine ⟨ms, e, ⟨h.frames, h.end_.objs, ⟨os, some x, h1, h2, r, .inr ⟨l, hp, by omega⟩, ?_⟩⟩, (fun x => by cases x), fun _ => .inr ⟨3, r, l, hp, by omega⟩⟩
            dsimp only
            rw [ht]
            rfl
    rw [if_neg c3]
    unfold inputOther
    rw [readAll_buf]
    by_cases hl : l ≤ r.length
    · exact ⟨_, _, h.next hp hl c2 c3 rfl (by rw [hev]; simp) ⟨rfl, rfl, rfl, rfl⟩⟩
    · exact ⟨ms, e, h.cut hp (by omega) (List.drop_eq_nil_of_le (show r.length ≤ l by omega)) ⟨rfl, rfl, rfl, rfl⟩⟩

theorem ctl_keeps (b : Bool) {s0 s : Srv} (h : SameData s0 s) : Keeps s0 (Stevedore.ctl b s) := by
  unfold Stevedore.ctl
  split
  · exact keeps_abort h
  · exact keeps_go (h.trans ⟨rfl, rfl, rfl, rfl, rfl, fun x => by cases x⟩)

theorem ctl_exit (b : Bool) (s : Srv) (c : Nat) (s' : Srv) : Stevedore.ctl b s ≠ .exit c s' := by
  unfold Stevedore.ctl
  split <;> (intro h; cases h)

theorem idLine_keeps (k : Nat) (l : Bytes) (s : Srv) (p : Pend) : Keeps s (idLine k l s p) :=
  ctl_keeps true ⟨rfl, rfl, rfl, rfl, rfl, id⟩

theorem idLine_exit (k : Nat) (l : Bytes) (s : Srv) (p : Pend) (c : Nat) (s' : Srv) : idLine k l s p ≠ .exit c s' :=
  ctl_exit _ _ _ _

theorem filterLine_keeps (n : Nat) (l : Bytes) (s : Srv) (j : FJob) : Keeps s (Stevedore.filterLine n l s j) := by
  unfold Stevedore.filterLine
  split
  · exact keeps_abort (.refl s)
  · split
    · exact keeps_ub s
    · exact keeps_go ⟨rfl, rfl, rfl, rfl, rfl, id⟩

theorem filterLine_exit (n : Nat) (l : Bytes) (s : Srv) (j : FJob) (c : Nat) (s' : Srv) : Stevedore.filterLine n l s j ≠ .exit c s' := by
  unfold Stevedore.filterLine
  split
  · intro h; cases h
  · split <;> (intro h; cases h)

theorem filterEnd_keeps (max : Nat) (ok : Bool) (s : Srv) (j : FJob) : Keeps s (Stevedore.filterEnd max ok s j) := by
  unfold Stevedore.filterEnd
  dsimp only
  split
  · exact keeps_abort ⟨rfl, rfl, rfl, rfl, rfl, id⟩
  · split
    · exact keeps_go ⟨rfl, rfl, rfl, rfl, rfl, id⟩
    · exact startFilter_keeps _ _ _ _ ⟨rfl, rfl, rfl, rfl, rfl, id⟩

theorem filterEnd_exit (max : Nat) (ok : Bool) (s : Srv) (j : FJob) (c : Nat) (s' : Srv) : Stevedore.filterEnd max ok s j ≠ .exit c s' := by
  unfold Stevedore.filterEnd
  dsimp only
  split
  · intro h; cases h
  · split
    · intro h; cases h
    · exact startFilter_exit _ _ _ _ _

theorem after_step {g : Cfg} {inp : Bytes} {s : Srv} {ev : Stevedore.Ev} {o : Out} (h : After g.n inp (.go s)) (hs : Stevedore.step g s ev = some o) :
    After g.n inp o := by
  obtain ⟨ms, e, h⟩ := h
  cases ev with
  | input cs =>
    simp only [Stevedore.step] at hs
    split at hs
    · rename_i hev
      cases hs
      exact after_settle (after_input h hev)
    · cases hs
  | line l =>
    simp only [Stevedore.step] at hs
    split at hs
    · cases hs
    · split at hs
      · cases hs
        apply after_settle
        exact after_keeps h (filterLine_keeps _ _ _ _) (filterLine_exit _ _ _ _)
      · cases hs
  | filterEnd ok =>
    simp only [Stevedore.step] at hs
    split at hs
    · cases hs
    · cases hs
      apply after_settle
      exact after_keeps h (filterEnd_keeps _ _ _ _) (filterEnd_exit _ _ _ _)
  | id k l =>
    simp only [Stevedore.step] at hs
    split at hs
    · cases hs
    · split at hs
      · cases hs
        apply after_settle
        exact after_keeps h (idLine_keeps _ _ _ _) (idLine_exit _ _ _ _)
      · cases hs
  | ended k =>
    simp only [Stevedore.step] at hs
    split at hs
    · cases hs
    · split at hs
      · cases hs
        exact after_settle (after_keeps h (keeps_go ⟨rfl, rfl, rfl, rfl, rfl, id⟩) (by intro c s' h; cases h))
      · cases hs
  | failed =>
    simp only [Stevedore.step] at hs
    split at hs
    · cases hs; exact ⟨ms, e, h.end_⟩
    · cases hs
  | kill =>
    simp only [Stevedore.step] at hs
    cases hs; exact ⟨ms, e, h.end_⟩

theorem after_run {g : Cfg} {inp : Bytes} : ∀ {es : List Stevedore.Ev} {s : Srv} {o : Out}, After g.n inp (.go s) → Stevedore.run g s es = some o →
    After g.n inp o
  | [], s, o, h, hr => by cases hr; exact h
  | e :: es, s, o, h, hr => by
    simp only [Stevedore.run] at hr
    split at hr
    · cases hr
    · rename_i s' hs
      exact after_run (after_step h hs) hr
    · rename_i o' _ hs
      split at hr
      · cases hr; exact after_step h hs
      · cases hr

theorem got_start (n : Nat) (hi no inp : Bytes) (s : Srv) (h : Stevedore.start true hi no inp = .go s) : Got n inp s [] inp := by
  cases h
  exact ⟨.nil inp, .inl rfl, (fun x => by cases x), ⟨[], [], ⟨rfl, by simp, by simp⟩, rfl, .inl ⟨rfl, rfl⟩⟩, ⟨[], none, ⟨rfl, by simp, by simp⟩, rfl, rfl⟩⟩

/-- **C86** (objects).  Whatever a client sends, whatever the jobs do, and whenever it all ends: the store jobs that have come to the end of their input have got the objects
which the client has sent with an end mark, whole and in order.  If the server is gone, there may be one more, with what has arrived of it. -/
theorem C86_objects {g : Cfg} {hi no inp : Bytes} {s0 s : Srv} {es : List Stevedore.Ev} {o : Out} (h0 : Stevedore.start true hi no inp = .go s0)
    (hr : Stevedore.run g s0 es = some o) (ho : lastOf o = some s) :
    ∃ ms e, Frames inp ms e ∧ ∃ os rest, Objects (payloads 2 ms) os rest ∧ s.given = os.map List.flatten ∧
      ((s.store = none ∧ rest = []) ∨ (s.store = some rest.flatten ∧ rest ≠ []) ∨ (∃ p, CutIn 2 e p ∧ s.store = some (rest.flatten ++ p))) := by
  have h := after_run ⟨[], inp, got_start g.n hi no inp s0 h0⟩ hr
  cases o with
  | go s' => cases ho; obtain ⟨ms, e, h⟩ := h; exact ⟨ms, e, h.frames, h.end_.objs⟩
  | exit c s' => cases ho; obtain ⟨ms, e, h, _⟩ := h; exact ⟨ms, e, h.frames, h.objs⟩
  | abort s' => cases ho; obtain ⟨ms, e, h⟩ := h; exact ⟨ms, e, h.frames, h.objs⟩
  | ub => cases ho

/-- **C86** (metadata).  The same for metadata: a metadata job gets the pieces between a reference and an end mark, and the reference as its argument, cut at a zero byte and to the length of an ID. -/
theorem C86_metadata {g : Cfg} {hi no inp : Bytes} {s0 s : Srv} {es : List Stevedore.Ev} {o : Out} (h0 : Stevedore.start true hi no inp = .go s0)
    (hr : Stevedore.run g s0 es = some o) (ho : lastOf o = some s) :
    ∃ ms e, Frames inp ms e ∧ ∃ os r, Metas (payloads 3 ms) os r ∧ s.infos = os.map (fun o => ((cstr o.1).take g.n, o.2.flatten)) ∧
      ∃ p, (p = [] ∨ CutIn 3 e p) ∧ s.info = r.map (fun x => ((cstr x.1).take g.n, x.2.flatten ++ p)) := by
  have h := after_run ⟨[], inp, got_start g.n hi no inp s0 h0⟩ hr
  cases o with
  | go s' => cases ho; obtain ⟨ms, e, h⟩ := h; exact ⟨ms, e, h.frames, h.end_.metas⟩
  | exit c s' => cases ho; obtain ⟨ms, e, h, _⟩ := h; exact ⟨ms, e, h.frames, h.metas⟩
  | abort s' => cases ho; obtain ⟨ms, e, h⟩ := h; exact ⟨ms, e, h.frames, h.metas⟩
  | ub => cases ho

/-- **C86** (status 0).  If the server exits with status 0, then it has used all that the client has sent, up to a last message which is not complete and not one of an object, and everything the store
jobs have got has come with an end mark. -/
theorem C86_zero {g : Cfg} {hi no inp : Bytes} {s0 s : Srv} {es : List Stevedore.Ev} (h0 : Stevedore.start true hi no inp = .go s0)
    (hr : Stevedore.run g s0 es = some (.exit 0 s)) :
    ∃ ms e, Frames inp ms e ∧ (e = [] ∨ ∃ c p, CutIn c e p) ∧ s.pend = [] ∧
      (∃ os, Objects (payloads 2 ms) os [] ∧ s.stored = os.map List.flatten) ∧
      (∃ os, Metas (payloads 3 ms) os none ∧ s.storedInfo = os.map (fun o => ((cstr o.1).take g.n, o.2.flatten))) := by
  obtain ⟨ms, e, _, h, _⟩ := after_run ⟨[], inp, got_start g.n hi no inp s0 h0⟩ hr
  obtain ⟨h, ha, hn⟩ := h rfl
  refine ⟨ms, e, h.frames, ?_, ha.2.2.2, ?_, ?_⟩
  · rcases h.at_ with hat | ⟨_, hc⟩
    · left; rw [← hat]; exact h.over hn
    · exact .inr hc
  · obtain ⟨os, rest, h1, h2, h3⟩ := h.objs
    rcases h3 with ⟨_, h3⟩ | ⟨h3, _⟩
    · subst h3
      exact ⟨os, h1, by unfold Srv.stored; rw [ha.2.1, h2]; simp⟩
    · rw [ha.2.1] at h3; cases h3
  · obtain ⟨os, r, h1, h2, h3⟩ := h.metas
    cases r with
    | none => exact ⟨os, h1, by unfold Srv.storedInfo; rw [ha.2.2.1, h2]; simp⟩
    | some x => rw [ha.2.2.1] at h3; cases h3

/-! ### A client that goes away -/

theorem Frames.grow {s e' : Bytes} {ms' : List (Nat × Bytes)} (h' : Frames s ms' e') : ∀ {ms : List (Nat × Bytes)} {e : Bytes}, Frames s ms e → ms.length ≤ ms'.length →
    ∃ t, ms' = ms ++ t ∧ Frames e t e' := by
  induction h' with
  | nil =>
    intro ms e h hl
    cases h with
    | nil => exact ⟨[], rfl, .nil _⟩
    | snoc h1 h2 h3 => simp at hl
  | snoc h1 h2 h3 ih =>
    rename_i e2 r2 ms2 c2 l2
    intro ms e h hl
    by_cases hq : ms.length ≤ ms2.length
    · obtain ⟨t, h4, h5⟩ := ih h hq
      exact ⟨t ++ [(c2, r2.take l2)], by rw [h4, List.append_assoc], .snoc h5 h2 h3⟩
    · cases h with
      | nil => simp at hq
      | snoc k1 k2 k3 =>
        rename_i e0 r0 ms0 c0 l0
        simp only [List.length_append, List.length_singleton] at hl hq
        obtain ⟨t, h4, h5⟩ := ih k1 (by omega)
        have : t = [] := by
          have := congrArg List.length h4
          simp only [List.length_append] at this
          exact List.length_eq_zero_iff.1 (by omega)
        subst this
        generalize ht : ([] : List (Nat × Bytes)) = t0 at h5
        cases h5 with
        | nil =>
          rw [k2] at h2
          cases h2
          exact ⟨[], by rw [h4]; simp, .nil _⟩
        | snoc _ _ _ => simp at ht

/-- Nothing complete comes next. -/
def Over (e : Bytes) : Prop := ∀ c l r, protoIn e = .hdr c l r → r.length < l

theorem Frames.unique {s e e' : Bytes} {ms ms' : List (Nat × Bytes)} (h : Frames s ms e) (h' : Frames s ms' e') (ho : Over e) (ho' : Over e') : ms = ms' ∧ e = e' := by
  have key : ∀ {x y : Bytes} {t : List (Nat × Bytes)}, Frames x t y → Over x → t = [] ∧ y = x := by
    intro x y t hf hx
    induction hf with
    | nil => exact ⟨rfl, rfl⟩
    | snoc h1 h2 h3 ih =>
      have := hx _ _ _ (ih.2 ▸ h2)
      omega
  rcases Nat.le_total ms.length ms'.length with hl | hl
  · obtain ⟨t, h1, h2⟩ := Frames.grow h' h hl
    obtain ⟨h3, h4⟩ := key h2 ho
    subst h3
    exact ⟨by simpa using h1.symm, h4.symm⟩
  · obtain ⟨t, h1, h2⟩ := Frames.grow h h' hl
    obtain ⟨h3, h4⟩ := key h2 ho'
    subst h3
    exact ⟨by simpa using h1, h4⟩

theorem over_nil : Over [] := by intro c l r h; cases h

theorem over_cut {c : Nat} {e p : Bytes} (h : CutIn c e p) : Over e := by
  obtain ⟨l, h1, h2⟩ := h
  intro c' l' r' h'
  rw [h1] at h'
  cases h'
  exact h2

theorem over_err {e : Bytes} (h : protoIn e = .err) : Over e := by
  intro c l r h'
  rw [h] at h'
  cases h'

theorem objects_last {ps : List Bytes} {os : List (List Bytes)} {rest : List Bytes} (h : Objects ps os rest) (hr : rest ≠ []) : ∃ x, ps.getLast? = some x ∧ x ≠ [] := by
  refine ⟨rest.getLast hr, ?_, fun hx => h.2.2 (hx ▸ List.getLast_mem hr)⟩
  rw [h.1, List.getLast?_append, List.getLast?_eq_some_getLast hr]
  rfl

theorem objects_done {ps : List Bytes} {os : List (List Bytes)} (h : Objects ps os []) : ∀ x, ps.getLast? = some x → x = [] := by
  intro x hx
  rw [h.1, List.append_nil] at hx
  rcases os.eq_nil_or_concat with ho | ⟨os', o, ho⟩
  · subst ho; simp at hx
  · subst ho
    simp at hx
    exact hx

/-- **C86** (a client that goes away between two pieces of an object).  The server never ends by itself: no sequence of events ends in a call of `exit(3)`. -/
theorem C86_open {g : Cfg} {hi no inp : Bytes} {s0 s : Srv} {es : List Stevedore.Ev} {c : Nat} {ms : List (Nat × Bytes)} {os : List (List Bytes)} {rest : List Bytes}
    (h0 : Stevedore.start true hi no inp = .go s0) (hf : Frames inp ms []) (hob : Objects (payloads 2 ms) os rest) (hre : rest ≠ []) :
    Stevedore.run g s0 es ≠ some (.exit c s) := by
  intro hr
  obtain ⟨ms', e, hg, hz, hnz⟩ := after_run ⟨[], inp, got_start g.n hi no inp s0 h0⟩ hr
  have hu : ∀ {e : Bytes}, Frames inp ms' e → Over e → ms' = ms ∧ e = [] := fun h1 h2 => Frames.unique h1 hf h2 over_nil
  by_cases hc : c = 0
  · subst hc
    obtain ⟨ms', e, h1, h2, _, ⟨os', h3, _⟩, _⟩ := C86_zero h0 hr
    have ho : Over e := by
      rcases h2 with h2 | ⟨c, p, h2⟩
      · rw [h2]; exact over_nil
      · exact over_cut h2
    obtain ⟨h4, _⟩ := Frames.unique h1 hf ho over_nil
    subst h4
    obtain ⟨x, h5, h6⟩ := objects_last hob hre
    exact h6 (objects_done h3 x h5)
  · rcases hnz hc with h | ⟨c, p, h⟩
    · rw [(hu hg.frames (over_err h)).2] at h; cases h
    · obtain ⟨l, h1, _⟩ := h
      have := (hu hg.frames (over_cut ⟨l, h1, by assumption⟩)).2
      subst this
      cases h1

/-- In the end nothing happens any more: the server has no event but that of the store job, and that job waits for the rest of its object. -/
theorem C86_stuck {g : Cfg} {s : Srv} {d : Bytes} {e : Stevedore.Ev} (h1 : s.ev = none) (_ : s.store = some d) (h2 : s.fjob = none) (h3 : s.pend = [])
    (h4 : e ≠ .failed) (h5 : e ≠ .kill) : Stevedore.step g s e = none := by
  cases e with
  | input cs => simp only [Stevedore.step]; rw [h1]; rfl
  | line l => simp only [Stevedore.step]; rw [h2]
  | filterEnd ok => simp only [Stevedore.step]; rw [h2]
  | id k l => simp only [Stevedore.step]; rw [h3]; rfl
  | ended k => simp only [Stevedore.step]; rw [h3]; rfl
  | failed => exact absurd rfl h4
  | kill => exact absurd rfl h5

/-! ### What the server waits for, and what it answers -/

/-- The jobs of one kind that have not printed their ID. -/
def owed (info : Bool) (s : Srv) : Nat := s.pend.countP (fun p => p.arg.isSome == info && !p.printed)

/-- The messages with a command that were sent to the client. -/
def told (c : Nat) (s : Srv) : Nat := s.down.countP (fun m => m.1 == c)

structure Ans (s : Srv) : Prop where
  waits : s.ev = some false → ∃ p ∈ s.pend, p.printed = false
  objs : told 2 s + owed false s = s.given.length
  metas : told 3 s + owed true s = s.infos.length

/-- Nothing that matters for the answers. -/
def SameAns (s s' : Srv) : Prop :=
  s'.pend = s.pend ∧ told 2 s' = told 2 s ∧ told 3 s' = told 3 s ∧ s'.given = s.given ∧ s'.infos = s.infos ∧ (s'.ev = some false → s.ev = some false)

theorem SameAns.refl (s : Srv) : SameAns s s := ⟨rfl, rfl, rfl, rfl, rfl, id⟩

theorem SameAns.trans {a b c : Srv} (h : SameAns a b) (k : SameAns b c) : SameAns a c :=
  ⟨k.1.trans h.1, k.2.1.trans h.2.1, k.2.2.1.trans h.2.2.1, k.2.2.2.1.trans h.2.2.2.1, k.2.2.2.2.1.trans h.2.2.2.2.1,
    fun e => h.2.2.2.2.2 (k.2.2.2.2.2 e)⟩

theorem Ans.same {s s' : Srv} (h : Ans s) (k : SameAns s s') : Ans s' := by
  obtain ⟨k1, k2, k3, k4, k5, k6⟩ := k
  refine ⟨fun e => ?_, ?_, ?_⟩
  · rw [k1]; exact h.waits (k6 e)
  · unfold owed; rw [k1, k2, k4]; exact h.objs
  · unfold owed; rw [k1, k3, k5]; exact h.metas

theorem told_snoc (c : Nat) (s : Srv) (d : Nat) (p : Bytes) (h : d ≠ c) : (s.down ++ [(d, p)]).countP (fun m => m.1 == c) = told c s := by
  rw [List.countP_append]
  simp [told, h]

def LastAns (o : Out) : Prop := ∀ s, lastOf o = some s → Ans s

theorem lastAns_go {s : Srv} (h : Ans s) : LastAns (.go s) := by intro s' h'; cases h'; exact h

theorem lastAns_abort {s : Srv} (h : Ans s) : LastAns (.abort s) := by intro s' h'; cases h'; exact h

theorem lastAns_exit {c : Nat} {s : Srv} (h : Ans s) : LastAns (.exit c s) := by intro s' h'; cases h'; exact h

theorem lastAns_ub : LastAns .ub := by intro s' h'; cases h'

theorem startFilter_ans (max : Nat) : ∀ (q : List Filt) (s : Srv), Ans s → LastAns (startFilter max q s)
  | [], s, h => lastAns_go (h.same ⟨rfl, rfl, rfl, rfl, rfl, id⟩)
  | f :: q, s, h => by
    unfold startFilter
    split
    · exact lastAns_ub
    · split
      · exact startFilter_ans max q _ (h.same ⟨rfl, told_snoc 2 s 1 [] (by decide), told_snoc 3 s 1 [] (by decide), rfl, rfl, id⟩)
      · split
        · exact lastAns_abort h
        · split
          · exact lastAns_ub
          · split
            · exact lastAns_abort h
            · exact lastAns_go (h.same ⟨rfl, rfl, rfl, rfl, rfl, id⟩)

theorem kick_ans (max : Nat) {s : Srv} (h : Ans s) : LastAns (kick max s) := by
  unfold kick
  split
  · exact lastAns_go h
  · exact startFilter_ans max _ _ h

theorem settle_ans {o : Out} (h : LastAns o) : LastAns (settle o) := by
  cases o with
  | go s =>
    rcases settle_cases s with e | ⟨e, _⟩ | ⟨e, _⟩ <;> rw [e]
    · exact h
    · exact lastAns_exit (h s rfl)
    · exact lastAns_abort (h s rfl)
  | _ => exact h

theorem input_ans {n max : Nat} {msg : Nat → Nat → Bytes} {cs : Nat → Nat} {s : Srv} (h : Ans s) (hev : s.ev = some true) :
    LastAns (Stevedore.input n max msg cs s) := by
  unfold Stevedore.input
  cases protoIn s.inp with
  | eof => exact lastAns_go (h.same ⟨rfl, rfl, rfl, rfl, rfl, fun x => by cases x⟩)
  | err => exact lastAns_exit (h.same ⟨rfl, rfl, rfl, rfl, rfl, id⟩)
  | hdr c l r =>
    show LastAns (inputMsg n max msg cs c l { s with inp := r })
    unfold inputMsg
    split
    · exact lastAns_abort (h.same ⟨rfl, rfl, rfl, rfl, rfl, id⟩)
    split
    · unfold inputFilter
      split
      · exact kick_ans max (h.same ⟨rfl, rfl, rfl, rfl, rfl, id⟩)
      split
      · exact lastAns_abort (h.same ⟨rfl, rfl, rfl, rfl, rfl, id⟩)
      split
      · exact lastAns_ub
      dsimp only
      split
      · exact lastAns_go (h.same ⟨rfl, rfl, rfl, rfl, rfl, fun x => by cases x⟩)
      · exact kick_ans max (h.same ⟨rfl, rfl, rfl, rfl, rfl, id⟩)
    split
    · unfold inputData
      split
      · split
        · exact lastAns_abort (h.same ⟨rfl, rfl, rfl, rfl, rfl, id⟩)
        · rename_i d hd
          unfold Stevedore.ctl
          dsimp only
          rw [hev]
          refine lastAns_go ⟨fun _ => ⟨_, List.mem_append_right _ (List.mem_singleton_self _), rfl⟩, ?_, ?_⟩
          · have := h.objs
            simp [owed, told, List.countP_append] at this ⊢
            omega
          · have := h.metas
            simp [owed, told, List.countP_append] at this ⊢
            omega
      · dsimp only
        split
        · exact lastAns_exit (h.same ⟨rfl, rfl, rfl, rfl, rfl, fun x => by cases x⟩)
        · exact lastAns_go (h.same ⟨rfl, rfl, rfl, rfl, rfl, id⟩)
    split
    · unfold inputMeta
      split
      · split
        · exact lastAns_abort (h.same ⟨rfl, rfl, rfl, rfl, rfl, id⟩)
        · dsimp only
          split
          · exact lastAns_go (h.same ⟨rfl, rfl, rfl, rfl, rfl, fun x => by cases x⟩)
          · exact lastAns_go (h.same ⟨rfl, rfl, rfl, rfl, rfl, id⟩)
      · split
        · refine lastAns_go ⟨fun x => ?_, ?_, ?_⟩
          · rw [show s.ev = some false from x] at hev; cases hev
          · have := h.objs
            simp [owed, told, List.countP_append] at this ⊢
            omega
          · have := h.metas
            simp [owed, told, List.countP_append] at this ⊢
            omega
        · dsimp only
          split
          · exact lastAns_exit (h.same ⟨rfl, rfl, rfl, rfl, rfl, fun x => by cases x⟩)
          · exact lastAns_go (h.same ⟨rfl, rfl, rfl, rfl, rfl, id⟩)
    rename_i h0 h1 h2 h3
    exact lastAns_go (h.same ⟨rfl, told_snoc 2 s 0 _ (by decide), told_snoc 3 s 0 _ (by decide), rfl, rfl, id⟩)

theorem countP_set_printed {q : Pend → Bool} {p : Pend} : ∀ {L : List Pend} {k : Nat}, L[k]? = some p → ∀ p' : Pend,
    (L.set k p').countP q + (if q p then 1 else 0) = L.countP q + (if q p' then 1 else 0)
  | [], k, h, p' => by simp at h
  | x :: L, 0, h, p' => by
    simp at h
    subst h
    simp only [List.set_cons_zero, List.countP_cons]
    omega
  | x :: L, k + 1, h, p' => by
    have := countP_set_printed (q := q) (L := L) (k := k) (by simpa using h) p'
    simp only [List.set_cons_succ, List.countP_cons]
    omega

theorem countP_erase_printed {q : Pend → Bool} {p : Pend} (hq : q p = false) : ∀ {L : List Pend} {k : Nat}, L[k]? = some p → (L.eraseIdx k).countP q = L.countP q
  | [], k, h => by simp at h
  | x :: L, 0, h => by
    simp at h
    subst h
    simp [hq]
  | x :: L, k + 1, h => by
    have := countP_erase_printed hq (L := L) (k := k) (by simpa using h)
    simp only [List.eraseIdx_cons_succ, List.countP_cons, this]

theorem mem_erase_printed {p x : Pend} : ∀ {L : List Pend} {k : Nat}, L[k]? = some p → x ∈ L → x ≠ p → x ∈ L.eraseIdx k
  | [], k, h, hx, hne => by simp at h
  | y :: L, 0, h, hx, hne => by
    simp at h
    subst h
    rcases List.mem_cons.1 hx with e | e
    · exact absurd e hne
    · exact e
  | y :: L, k + 1, h, hx, hne => by
    rcases List.mem_cons.1 hx with e | e
    · subst e; simp
    · simp only [List.eraseIdx_cons_succ, List.mem_cons]
      exact .inr (mem_erase_printed (by simpa using h) e hne)

theorem step_ans {g : Cfg} {s : Srv} {ev : Stevedore.Ev} {o : Out} (h : Ans s) (hs : Stevedore.step g s ev = some o) : LastAns o := by
  cases ev with
  | input cs =>
    simp only [Stevedore.step] at hs
    split at hs
    · rename_i hev
      cases hs
      exact settle_ans (input_ans h hev)
    · cases hs
  | line l =>
    simp only [Stevedore.step] at hs
    split at hs
    · cases hs
    · split at hs
      · cases hs
        apply settle_ans
        unfold Stevedore.filterLine
        split
        · exact lastAns_abort h
        · split
          · exact lastAns_ub
          · exact lastAns_go (h.same ⟨rfl, told_snoc 2 s 1 _ (by decide), told_snoc 3 s 1 _ (by decide), rfl, rfl, id⟩)
      · cases hs
  | filterEnd ok =>
    simp only [Stevedore.step] at hs
    split at hs
    · cases hs
    · rename_i j hj
      cases hs
      apply settle_ans
      unfold Stevedore.filterEnd
      have hA : Ans { s with fjob := none, down := if j.skip ≠ 0 then s.down ++ [(1, beEnc 4 j.skip)] else s.down } := by
        split
        · exact h.same ⟨rfl, told_snoc 2 s 1 _ (by decide), told_snoc 3 s 1 _ (by decide), rfl, rfl, id⟩
        · exact h.same ⟨rfl, rfl, rfl, rfl, rfl, id⟩
      dsimp only
      split
      · exact lastAns_abort hA
      · split
        · exact lastAns_go hA
        · exact startFilter_ans _ _ _ hA
  | id k l =>
    simp only [Stevedore.step] at hs
    split at hs
    · cases hs
    · split at hs
      · rename_i p hp hpr
        cases hs
        apply settle_ans
        have key : ∀ ev : Option Bool, ev ≠ some false → Ans { s with
            pend := s.pend.set k { p with printed := true }, down := s.down ++ [(if p.arg.isNone then 2 else 3, l)], ev := ev } := by
          intro ev hne
          refine ⟨fun e => absurd e hne, ?_, ?_⟩
          · have h1 := h.objs
            have h2 := countP_set_printed (q := fun p => p.arg.isSome == false && !p.printed) hp { p with printed := true }
            simp only [owed, told, List.countP_append] at h1 ⊢
            rcases hpa : p.arg with _ | a
            · simp [hpa, hpr] at h2 ⊢
              simp at h1
              omega
            · simp [hpa, hpr] at h2 ⊢
              simp at h1
              omega
          · have h1 := h.metas
            have h2 := countP_set_printed (q := fun p => p.arg.isSome == true && !p.printed) hp { p with printed := true }
            simp only [owed, told, List.countP_append] at h1 ⊢
            rcases hpa : p.arg with _ | a
            · simp [hpa, hpr] at h2 ⊢
              simp at h1
              omega
            · simp [hpa, hpr] at h2 ⊢
              simp at h1
              omega
        unfold idLine Stevedore.ctl
        by_cases hn : s.ev.isNone = true
        · rw [if_pos (by exact hn)]
          have : s.ev = none := Option.isNone_iff_eq_none.1 hn
          have hk := key none (by simp)
          rw [← this] at hk
          exact lastAns_abort hk
        · rw [if_neg (by exact hn)]
          exact lastAns_go (key (some true) (by simp))
      · cases hs
  | ended k =>
    simp only [Stevedore.step] at hs
    split at hs
    · cases hs
    · split at hs
      · rename_i p hp hpr
        cases hs
        apply settle_ans
        refine lastAns_go ⟨fun e => ?_, ?_, ?_⟩
        · obtain ⟨x, hx, hxp⟩ := h.waits e
          refine ⟨x, mem_erase_printed hp hx (fun e => ?_), hxp⟩
          rw [e, hpr] at hxp
          cases hxp
        · have := countP_erase_printed (q := fun p => p.arg.isSome == false && !p.printed) (by simp [hpr]) hp
          have h1 := h.objs
          simp only [owed, told] at h1 ⊢
          rw [this]; exact h1
        · have := countP_erase_printed (q := fun p => p.arg.isSome == true && !p.printed) (by simp [hpr]) hp
          have h1 := h.metas
          simp only [owed, told] at h1 ⊢
          rw [this]; exact h1
      · cases hs
  | failed =>
    simp only [Stevedore.step] at hs
    split at hs
    · cases hs; exact lastAns_abort h
    · cases hs
  | kill =>
    simp only [Stevedore.step] at hs
    cases hs; exact lastAns_abort h

theorem run_ans {g : Cfg} : ∀ {es : List Stevedore.Ev} {s : Srv} {o : Out}, Ans s → Stevedore.run g s es = some o → LastAns o
  | [], s, o, h, hr => by cases hr; exact lastAns_go h
  | e :: es, s, o, h, hr => by
    simp only [Stevedore.run] at hr
    split at hr
    · cases hr
    · rename_i s' hs
      exact run_ans (step_ans h hs s' rfl) hr
    · rename_i o' _ hs
      split at hr
      · cases hr; exact step_ans h hs
      · cases hr

/-- **C86** (answers).  At every time, the IDs that the client has been sent for objects and those which jobs will still print are as many as the objects that were given to the jobs; the same for metadata.
While the server does not listen to the client, there is a job that has still to print an ID, so the assertion at proto.c:152 does not fail. -/
theorem C86_answers {g : Cfg} {hi no inp : Bytes} {s0 s : Srv} {es : List Stevedore.Ev} {o : Out} (h0 : Stevedore.start true hi no inp = .go s0)
    (hr : Stevedore.run g s0 es = some o) (ho : lastOf o = some s) :
    told 2 s + owed false s = s.given.length ∧ told 3 s + owed true s = s.infos.length ∧ (s.ev = some false → ∃ p ∈ s.pend, p.printed = false) := by
  have : Ans s0 := by cases h0; exact ⟨fun e => (by cases e), rfl, rfl⟩
  have := run_ans this hr s ho
  exact ⟨this.objs, this.metas, this.waits⟩

theorem startFilter_given (max : Nat) : ∀ (q : List Filt) (s s' : Srv), startFilter max q s = .go s' → s'.given = s.given
  | [], s, s', h => by cases h; rfl
  | f :: q, s, s', h => by
    unfold startFilter at h
    split at h
    · cases h
    · split at h
      · exact (startFilter_given max q _ s' h).trans rfl
      · split at h
        · cases h
        · split at h
          · cases h
          · split at h
            · cases h
            · cases h; rfl

theorem kick_given {max : Nat} {s s' : Srv} (h : kick max s = .go s') : s'.given = s.given := by
  unfold kick at h
  split at h
  · cases h; rfl
  · exact startFilter_given max _ _ _ h

/-- An object is complete only with an empty data message, and then the server listens no more. -/
theorem input_given {n max : Nat} {msg : Nat → Nat → Bytes} {cs : Nat → Nat} {s s' : Srv} (h : Stevedore.input n max msg cs s = .go s') :
    s'.given = s.given ∨ s'.ev = some false := by
  unfold Stevedore.input at h
  split at h
  · cases h; exact .inl rfl
  · cases h
  · unfold inputMsg at h
    split at h
    · cases h
    split at h
    · unfold inputFilter at h
      dsimp only at h
      split at h
      · exact .inl ((kick_given h).trans rfl)
      split at h
      · cases h
      split at h
      · cases h
      split at h
      · cases h; exact .inl rfl
      · exact .inl ((kick_given h).trans rfl)
    split at h
    · unfold inputData at h
      dsimp only at h
      split at h
      · split at h
        · cases h
        · unfold Stevedore.ctl at h
          split at h
          · cases h
          · cases h; exact .inr rfl
      · split at h
        · cases h
        · cases h; exact .inl rfl
    split at h
    · unfold inputMeta at h
      dsimp only at h
      split at h
      · split at h
        · cases h
        · split at h
          · cases h; exact .inl rfl
          · cases h; exact .inl rfl
      · split at h
        · cases h; exact .inl rfl
        · split at h
          · cases h
          · cases h; exact .inl rfl
    · cases h; exact .inl rfl

/-- **C86** (one object at a time).  When an object has come to its end, the server takes nothing more from the client until a job has printed an ID;
the only other things that can happen first are those of the filter job and of jobs that end. -/
theorem C86_waits {g : Cfg} {s s' : Srv} {cs : Nat → Nat} (h : Stevedore.step g s (.input cs) = some (.go s')) (hg : s'.given ≠ s.given) (cs' : Nat → Nat) :
    Stevedore.step g s' (.input cs') = none := by
  simp only [Stevedore.step] at h
  split at h
  · have h := Option.some.inj h
    have : Stevedore.input g.n g.max g.msg cs s = .go s' := by
      generalize Stevedore.input g.n g.max g.msg cs s = o at h
      cases o with
      | go x =>
        rcases settle_cases x with e | ⟨e, _⟩ | ⟨e, _⟩ <;> rw [e] at h
        · exact h
        · cases h
        · cases h
      | _ => cases h
    rcases input_given this with e | e
    · exact absurd e hg
    · simp only [Stevedore.step]
      rw [if_neg (by rw [e]; simp)]
  · cases h

/-! ### Memory -/

def Fresh (q : List Filt) : Prop := ∀ f ∈ q, f.freed = false

theorem batch_fresh : ∀ (max : Nat) (q : List Filt), Fresh q → ∃ b r, batch max q = some (b, r) ∧ q = b ++ r
  | 0, q, _ => ⟨[], q, by cases q <;> rfl, rfl⟩
  | max + 1, [], _ => ⟨[], [], rfl, rfl⟩
  | max + 1, f :: q, h => by
    unfold batch
    rw [if_neg (by rw [h f (List.mem_cons_self ..)]; decide)]
    split
    · exact ⟨[], f :: q, rfl, rfl⟩
    · obtain ⟨b, r, h1, h2⟩ := batch_fresh max q (fun x hx => h x (List.mem_cons_of_mem _ hx))
      exact ⟨f :: b, r, by rw [h1]; rfl, by rw [h2]; rfl⟩

/-- No undefined behaviour, and nothing that was freed is on the queue if the server goes on. -/
def Safe : Out → Prop
  | .go s => Fresh s.queue
  | .ub => False
  | _ => True

theorem safe_settle {o : Out} (h : Safe o) : Safe (settle o) := by
  cases o with
  | go s => rcases settle_cases s with e | ⟨e, _⟩ | ⟨e, _⟩ <;> rw [e] <;> first | exact h | trivial
  | _ => exact h

theorem startFilter_safe (max : Nat) : ∀ (q : List Filt) (s : Srv), Fresh q → Safe (startFilter max q s)
  | [], s, h => by unfold startFilter; exact h
  | f :: q, s, h => by
    unfold startFilter
    rw [if_neg (by rw [h f (List.mem_cons_self ..)]; decide)]
    split
    · exact startFilter_safe max q _ (fun x hx => h x (List.mem_cons_of_mem _ hx))
    · split
      · trivial
      · obtain ⟨b, r, h1, h2⟩ := batch_fresh max _ h
        rw [h1]
        dsimp only
        split
        · trivial
        · intro x hx
          exact h x (by rw [h2]; exact List.mem_append_right _ hx)

theorem kick_safe (max : Nat) {s : Srv} (h : Fresh s.queue) : Safe (kick max s) := by
  unfold kick
  split
  · exact h
  · exact startFilter_safe max _ _ h

theorem fresh_snoc {q : List Filt} {x : Bytes} (h : Fresh q) : Fresh (q ++ [⟨x, false⟩]) := by
  intro f hf
  rcases List.mem_append.1 hf with hf | hf
  · exact h f hf
  · rw [List.mem_singleton.1 hf]

theorem input_safe {n max : Nat} {msg : Nat → Nat → Bytes} {cs : Nat → Nat} {s : Srv} (h : Fresh s.queue) (hc : ∀ p, ¬CutIn 1 s.inp p) :
    Safe (Stevedore.input n max msg cs s) := by
  unfold Stevedore.input
  cases hp : protoIn s.inp with
  | eof => exact h
  | err => trivial
  | hdr c l r =>
    show Safe (inputMsg n max msg cs c l { s with inp := r })
    unfold inputMsg
    split
    · trivial
    split
    · rename_i c1
      subst c1
      unfold inputFilter
      rw [readAll_self]
      split
      · exact kick_safe max (fresh_snoc h)
      split
      · trivial
      · rename_i hb
        rw [if_neg (by omega)]
        dsimp only
        have hl : l ≤ r.length := by
          apply Nat.le_of_not_lt
          intro hl
          exact hc r ⟨l, hp, hl⟩
        rw [if_neg (by simpa using hl)]
        exact kick_safe max (fresh_snoc h)
    split
    · unfold inputData
      split
      · split
        · trivial
        · unfold Stevedore.ctl
          split
          · trivial
          · exact h
      · dsimp only
        split
        · trivial
        · exact h
    split
    · unfold inputMeta
      split
      · split
        · trivial
        · dsimp only
          split <;> exact h
      · split
        · exact h
        · dsimp only
          split
          · trivial
          · exact h
    exact h

theorem cut_nil (p : Bytes) : ¬CutIn 1 [] p := by
  rintro ⟨l, h, _⟩
  cases h

theorem step_safe {g : Cfg} (hg : ∀ i l, g.prints i l = true → g.n ≤ l.length) {inp : Bytes} (hc : ∀ ms e p, Frames inp ms e → ¬CutIn 1 e p)
    {s : Srv} {ev : Stevedore.Ev} {o : Out} (h : Fresh s.queue) (ha : After g.n inp (.go s)) (hs : Stevedore.step g s ev = some o) : Safe o := by
  cases ev with
  | input cs =>
    simp only [Stevedore.step] at hs
    split at hs
    · cases hs
      apply safe_settle
      apply input_safe h
      obtain ⟨ms, e, ha⟩ := ha
      intro p
      rcases ha.at_ with he | ⟨he, _⟩
      · rw [he]; exact hc ms e p ha.frames
      · rw [he]; exact cut_nil p
    · cases hs
  | line l =>
    simp only [Stevedore.step] at hs
    split at hs
    · cases hs
    · split at hs
      · rename_i j _ hpr
        cases hs
        apply safe_settle
        unfold Stevedore.filterLine
        split
        · trivial
        · have := hg _ _ hpr
          rw [if_neg (by omega)]
          exact h
      · cases hs
  | filterEnd ok =>
    simp only [Stevedore.step] at hs
    split at hs
    · cases hs
    · cases hs
      apply safe_settle
      unfold Stevedore.filterEnd
      dsimp only
      split
      · trivial
      · split
        · exact h
        · exact startFilter_safe _ _ _ h
  | id k l =>
    simp only [Stevedore.step] at hs
    split at hs
    · cases hs
    · split at hs
      · cases hs
        apply safe_settle
        unfold idLine
        generalize hx : ({ s with
          pend := _, down := _ } : Srv) = x
        have hq : x.queue = s.queue := by rw [← hx]
        unfold Stevedore.ctl
        split
        · trivial
        · show Fresh x.queue
          rw [hq]; exact h
      · cases hs
  | ended k =>
    simp only [Stevedore.step] at hs
    split at hs
    · cases hs
    · split at hs
      · cases hs
        exact safe_settle h
      · cases hs
  | failed =>
    simp only [Stevedore.step] at hs
    split at hs
    · cases hs; trivial
    · cases hs
  | kill =>
    simp only [Stevedore.step] at hs
    cases hs; trivial

theorem run_safe {g : Cfg} (hg : ∀ i l, g.prints i l = true → g.n ≤ l.length) {inp : Bytes} (hc : ∀ ms e p, Frames inp ms e → ¬CutIn 1 e p) :
    ∀ {es : List Stevedore.Ev} {s : Srv} {o : Out}, Fresh s.queue → After g.n inp (.go s) → Stevedore.run g s es = some o → Safe o
  | [], s, o, h, ha, hr => by cases hr; exact h
  | e :: es, s, o, h, ha, hr => by
    simp only [Stevedore.run] at hr
    split at hr
    · cases hr
    · rename_i s' hs
      exact run_safe hg hc (step_safe hg hc h ha hs) (after_step ha hs) hr
    · rename_i o' _ hs
      split at hr
      · cases hr; exact step_safe hg hc h ha hs
      · cases hr

/-- **C86** (memory, partial).  Whatever a client sends, the server does nothing that has no meaning in C: it stays in its buffers and uses nothing it has freed, unless the client goes away inside a message
with an ID to be filtered (then it may, see `C86_counterexample_freed`).  The filter prints only lines that begin with an ID (C41). -/
theorem C86_memory_partial {g : Cfg} (hg : ∀ i l, g.prints i l = true → g.n ≤ l.length) {hi no inp : Bytes} {s0 : Srv} {es : List Stevedore.Ev}
    (h0 : Stevedore.start true hi no inp = .go s0) (hc : ∀ ms e p, Frames inp ms e → ¬CutIn 1 e p) : Stevedore.run g s0 es ≠ some .ub := by
  intro hr
  have hf : Fresh s0.queue := by cases h0; intro f hf; cases hf
  exact run_safe hg hc hf ⟨[], inp, got_start g.n hi no inp s0 h0⟩ hr

/-- **C86** (start).  Without the type of the metadata of `stow` in its configuration, the server ends with status 0 at once, whatever the client sends; nothing is stored. -/
theorem C86_refuses (hi no inp : Bytes) : ∃ s, Stevedore.start false hi no inp = .exit 0 s ∧ s.stored = [] ∧ s.storedInfo = [] ∧ s.down = [(0, hi), (0, no)] :=
  ⟨_, rfl, rfl, rfl, rfl⟩

/-! ### Examples -/

def gx : Cfg := ⟨16, 40960, fun _ _ => [63], fun _ l => decide (16 ≤ l.length)⟩

def idx : Bytes := List.replicate 16 97

/-- A filter message, an object in two pieces, and its end mark. -/
def sentx : Bytes := [129, 16] ++ idx ++ [130, 3, 1, 2, 3, 130, 2, 4, 5, 2]

def startx (inp : Bytes) : Srv :=
  { inp := inp, ev := some true, queue := [], fjob := none, store := none, info := none, pend := [], down := [(0, b!"Hi")], given := [], infos := [] }

def in_ : Stevedore.Ev := .input (fun i => i)

/-- The client gets all its answers, and the server ends with status 0. -/
example : ∃ s, Stevedore.run gx (startx sentx) [in_, in_, in_, in_, .line idx, .filterEnd true, .id 0 b!"x/y", .ended 0, in_] = some (.exit 0 s) ∧
    s.stored = [[1, 2, 3, 4, 5]] ∧ s.down = [(0, b!"Hi"), (1, idx), (2, b!"x/y")] :=
  ⟨_, rfl, rfl, rfl⟩

/-- While the object is stored nothing is read from the client. -/
example : ∃ s s', Stevedore.run gx (startx sentx) [in_, in_, in_] = some (.go s) ∧ Stevedore.step gx s in_ = some (.go s') ∧ s'.given = [[1, 2, 3, 4, 5]] ∧ s.given = [] ∧
    Stevedore.step gx s' in_ = none :=
  ⟨_, _, rfl, rfl, rfl, rfl, rfl⟩

/-- The client goes away inside a piece of an object: what has arrived of it is stored as an object, so it is not true that only whole objects are stored. -/
theorem C86_counterexample_cut : ∃ s, Stevedore.run gx (startx [130, 3, 1, 2, 3, 130, 5, 4, 5]) [in_, in_] = some (.exit 3 s) ∧ s.stored = [[1, 2, 3, 4, 5]] :=
  ⟨_, rfl, rfl⟩

/-- The client goes away between two pieces: the server waits for ever. -/
theorem C86_counterexample_open : ∃ s, Stevedore.run gx (startx [130, 3, 1, 2, 3]) [in_, in_] = some (.go s) ∧ s.ev = none ∧ s.store = some [1, 2, 3] ∧ s.fjob = none ∧ s.pend = [] :=
  ⟨_, rfl, rfl, rfl, rfl, rfl⟩

/-- The client goes away inside an ID to be filtered, while the filter is at work: the server uses an entry of its queue after it has freed it. -/
theorem C86_counterexample_freed : Stevedore.run gx (startx ([129, 16] ++ idx ++ [129, 16, 97])) [in_, in_, .filterEnd true] = some .ub := by decide

/-- The client goes away after its last message, before the metadata is stored: the server fails an assertion when it gets the ID. -/
theorem C86_counterexample_early : ∃ s, Stevedore.run gx (startx [131, 1, 97, 3]) [in_, in_, in_, .id 0 b!"x/y"] = some (.abort s) ∧ s.infos = [([97], [])] :=
  ⟨_, rfl, rfl⟩

end Client
end Verif.Props
