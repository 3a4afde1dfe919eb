/-
Lemmas for property C70: the event loop.
-/
import Verif.Model.Evloop

namespace Verif.Evloop
open Verif

/-! ### What is asked of the handlers -/

/-- The addresses of the events behind the one at address `a`. -/
def later (a : Nat) : List Ev → List Nat
  | [] => []
  | e :: es => if e.addr = a then es.map (·.addr) else later a es

/-- `calloc(3)` gives no address that is in use, and not NULL. -/
def Fresh (l : Loop) : List Op → Prop
  | [] => True
  | o :: os => (∀ a fd ev, o = .add a fd ev → a ≠ 0 ∧ live l a = false) ∧ ∀ l', op l o = .ok l' → Fresh l' os

/-- A handler removes no event behind its own, as the list is when it is called. -/
def Backward (l : Loop) (a : Nat) (os : List Op) : Prop := ∀ b, Op.del b ∈ os → b ∉ later a l.evs

/-- No address is used twice, and no event has been added without being counted. -/
structure Wf (l : Loop) : Prop where
  nodup : (l.evs.map (·.addr)).Nodup
  count : l.evs.length ≤ l.nevs

/-- The handlers keep to the rules as long as `I` holds, and keep that up. -/
structure HandOk (I : Loop → Prop) (hand : Loop → Call → List Op) : Prop where
  fresh : ∀ l c, I l → Wf l → live l c.addr = true → Fresh l (hand l c)
  back : ∀ l c, I l → Wf l → live l c.addr = true → Backward l c.addr (hand l c)
  keep : ∀ l c l', I l → Wf l → live l c.addr = true → ops l (hand l c) = .ok l' → I l'

/-- `idx` does not matter for `I`. -/
def NoIdx (I : Loop → Prop) : Prop := ∀ l evs, evs.map (fun e => { e with idx := none }) = l.evs.map (fun e => { e with idx := none }) → I l → I { l with evs := evs }

/-- The calls that are due, by what poll(2) said. -/
def due (rev : List Nat) : List Ev → List Call
  | [] => []
  | e :: es =>
    match e.idx with
    | none => due rev es
    | some i =>
      match rev[i]? with
      | none => due rev es
      | some r => if r = 0 then due rev es else ⟨e.addr, e.fd, r⟩ :: due rev es

/-- An event but for whether it is enabled. -/
def strip (e : Ev) : Ev := { e with enable := true }

theorem due_append (rev : List Nat) : ∀ S N : List Ev, due rev (S ++ N) = due rev S ++ due rev N
  | [], N => rfl
  | e :: S, N => by
    rw [List.cons_append, due, due, due_append rev S N]
    cases e.idx with
    | none => rfl
    | some i =>
      simp only
      cases rev[i]? with
      | none => rfl
      | some r => simp only; split <;> rfl

theorem due_none (rev : List Nat) : ∀ {N : List Ev}, (∀ e ∈ N, e.idx = none) → due rev N = []
  | [], _ => rfl
  | e :: N, h => by rw [due, h e (by simp)]; exact due_none rev (fun x hx => h x (by simp [hx]))

theorem due_strip (rev : List Nat) : ∀ {S T : List Ev}, S.map strip = T.map strip → due rev S = due rev T
  | [], [], _ => rfl
  | [], _ :: _, h => by cases h
  | _ :: _, [], h => by cases h
  | e :: S, f :: T, h => by
    simp only [List.map_cons, List.cons.injEq] at h
    have h1 : e.idx = f.idx := show (strip e).idx = (strip f).idx by rw [h.1]
    have h2 : e.addr = f.addr := show (strip e).addr = (strip f).addr by rw [h.1]
    have h3 : e.fd = f.fd := show (strip e).fd = (strip f).fd by rw [h.1]
    rw [due, due, h1, h2, h3, due_strip rev h.2]

theorem strip_addr {S T : List Ev} (h : S.map strip = T.map strip) : S.map (·.addr) = T.map (·.addr) := by
  have := congrArg (List.map Ev.addr) h
  simpa [strip, Function.comp_def] using this

theorem strip_idx {S T : List Ev} (h : S.map strip = T.map strip) : S.map (·.idx) = T.map (·.idx) := by
  have := congrArg (List.map Ev.idx) h
  simpa [strip, Function.comp_def] using this

theorem live_iff {l : Loop} {a : Nat} : live l a = true ↔ a ∈ l.evs.map (·.addr) := by
  simp [live, List.mem_map]

/-! ### One call -/

/-- A call leaves the events `S` at their place, if it removes none of them; behind them are only new events. -/
theorem op_keeps {l l' : Loop} {o : Op} {P S N : List Ev} (hl : l.evs = P ++ (S ++ N)) (hN : ∀ e ∈ N, e.idx = none) (hw : Wf l)
    (hf : ∀ a fd ev, o = .add a fd ev → a ≠ 0 ∧ live l a = false) (hd : ∀ b, o = .del b → b ∉ S.map (·.addr)) (h : op l o = .ok l') :
    ∃ P' S' N', l'.evs = P' ++ (S' ++ N') ∧ S'.map strip = S.map strip ∧ (∀ e ∈ N', e.idx = none) ∧ Wf l' := by
  cases o with
  | add a fd ev =>
    simp only [op, Res.ok.injEq] at h
    subst h
    refine ⟨P, S, N ++ [⟨a, fd, ev, true, none⟩], by simp [addEv, hl], rfl, ?_, ?_, ?_⟩
    · intro e he
      rcases List.mem_append.1 he with h | h
      · exact hN e h
      · rw [List.mem_singleton.1 h]
    · have h1 := (hf a fd ev rfl).2
      simp only [addEv, List.map_append, List.map_cons, List.map_nil]
      refine List.nodup_append.2 ⟨hw.nodup, by simp, ?_⟩
      intro x hx y hy
      rw [List.mem_singleton.1 hy]
      rintro rfl
      rw [live_iff.2 hx] at h1
      cases h1
    · simp only [addEv, List.length_append, List.length_cons, List.length_nil]
      have := hw.count
      omega
  | del a =>
    simp only [op, delEv, Res.check_bind_eq_ok, Res.ok.injEq] at h
    obtain ⟨h1, rfl⟩ := h
    have hS : S.filter (fun e => e.addr != a) = S := by
      refine List.filter_eq_self.2 ?_
      intro e he
      have : e.addr ≠ a := fun k => hd a rfl (by rw [← k]; exact List.mem_map.2 ⟨e, he, rfl⟩)
      simpa using this
    refine ⟨P.filter (fun e => e.addr != a), S, N.filter (fun e => e.addr != a), by simp only [hl, List.filter_append, hS], rfl, ?_, ?_, ?_⟩
    · intro e he; exact hN e (List.mem_filter.1 he).1
    · exact hw.nodup.sublist (List.filter_sublist.map _)
    · have h2 := hw.count
      have := List.length_filter_le (fun e : Ev => e.addr != a) l.evs
      simp only
      omega
  | ctl a b =>
    simp only [op, ctlEv, Res.check_bind_eq_ok, Res.ok.injEq] at h
    obtain ⟨h1, rfl⟩ := h
    have key : ∀ L : List Ev, (L.map (fun e => if e.addr = a then { e with enable := b } else e)).map strip = L.map strip := by
      intro L
      rw [List.map_map]
      refine List.map_congr_left ?_
      intro e _
      simp only [Function.comp]
      split <;> rfl
    refine ⟨P.map (fun e => if e.addr = a then { e with enable := b } else e), S.map (fun e => if e.addr = a then { e with enable := b } else e),
      N.map (fun e => if e.addr = a then { e with enable := b } else e), by simp only [hl, List.map_append], key S, ?_, ?_, ?_⟩
    · intro e he
      obtain ⟨f, hf, rfl⟩ := List.mem_map.1 he
      split
      · exact hN f hf
      · exact hN f hf
    · rw [strip_addr (key l.evs)]; exact hw.nodup
    · simpa using hw.count

theorem ops_keeps : ∀ (os : List Op) {l l' : Loop} {P S N : List Ev}, l.evs = P ++ (S ++ N) → (∀ e ∈ N, e.idx = none) → Wf l → Fresh l os →
    (∀ b, Op.del b ∈ os → b ∉ S.map (·.addr)) →
    ops l os = .ok l' → ∃ P' S' N', l'.evs = P' ++ (S' ++ N') ∧ S'.map strip = S.map strip ∧ (∀ e ∈ N', e.idx = none) ∧ Wf l'
  | [], l, l', P, S, N, hl, hN, hw, _, _, h => by
    cases h
    exact ⟨P, S, N, hl, rfl, hN, hw⟩
  | o :: os, l, l', P, S, N, hl, hN, hw, hf, hd, h => by
    rw [ops, Res.bind_eq_ok] at h
    obtain ⟨l1, h1, h2⟩ := h
    obtain ⟨P1, S1, N1, a1, a2, a3, a4⟩ := op_keeps hl hN hw hf.1 (fun b hb => hd b (by simp [hb])) h1
    obtain ⟨P2, S2, N2, b1, b2, b3, b4⟩ := ops_keeps os a1 a3 a4 (hf.2 l1 h1)
      (fun b hb => by rw [strip_addr a2]; exact hd b (by simp [hb])) h2
    exact ⟨P2, S2, N2, b1, b2.trans a2, b3, b4⟩

theorem ops_noub : ∀ (os : List Op) (l : Loop), ops l os ≠ .ub
  | [], _ => by simp [ops]
  | o :: os, l => by
    rw [ops]
    have : op l o ≠ .ub := by
      cases o with
      | add a fd ev => simp [op]
      | del a => simp only [op, delEv]; cases live l a <;> simp
      | ctl a b => simp only [op, ctlEv]; cases live l a <;> simp
    cases h : op l o with
    | ok l' => exact ops_noub os l'
    | fail => simp
    | ub => exact absurd h this

/-! ### One round -/

theorem next_split {a : Nat} : ∀ {P S : List Ev} {e : Ev}, e.addr = a → ((P ++ e :: S).map (·.addr)).Nodup → next a (P ++ e :: S) = S.head?.map (·.addr) ∧
    later a (P ++ e :: S) = S.map (·.addr) ∧ (P ++ e :: S).find? (fun x => x.addr == a) = some e
  | [], S, e, he, _ => by simp [next, later, he]
  | p :: P, S, e, he, hn => by
    simp only [List.cons_append, List.map_cons, List.nodup_cons] at hn
    have hp : p.addr ≠ a := by
      intro h
      exact hn.1 (by rw [h, ← he]; exact List.mem_map.2 ⟨e, by simp, rfl⟩)
    obtain ⟨h1, h2, h3⟩ := next_split (P := P) (S := S) he hn.2
    refine ⟨?_, ?_, ?_⟩
    · rw [List.cons_append, next, if_neg hp, h1]
    · rw [List.cons_append, later, if_neg hp, h2]
    · rw [List.cons_append, List.find?_cons_of_neg (by simpa using hp), h3]

/-- The result of the loop over the events is one of these. -/
theorem pass_spec {rev : List Nat} {hand : Loop → Call → List Op} {I : Loop → Prop} (hh : HandOk I hand) : ∀ (fuel : Nat) {l : Loop} {P S : List Ev}
    {cs : List Call}, l.evs = P ++ S → Wf l → I l → (∀ e ∈ S, ∀ i, e.idx = some i → i < rev.length) →
    pass rev hand fuel (S.head?.map (·.addr)) l cs = none ∨
    (pass rev hand fuel (S.head?.map (·.addr)) l cs = some .fail ∧ ∃ l1 c, I l1 ∧ Wf l1 ∧ live l1 c.addr = true ∧ ops l1 (hand l1 c) = .fail) ∨
    ∃ l', pass rev hand fuel (S.head?.map (·.addr)) l cs = some (.ok (l', cs ++ due rev S)) ∧ Wf l' ∧ I l'
  | fuel, l, P, [], cs, hl, hw, hi, hs => by
    refine .inr (.inr ⟨l, ?_, hw, hi⟩)
    simp only [List.head?_nil, Option.map_none, due, List.append_nil]
    cases fuel <;> rfl
  | 0, l, P, e :: S, cs, hl, hw, hi, hs => .inl rfl
  | k + 1, l, P, e :: S, cs, hl, hw, hi, hs => by
    have hnd := hw.nodup
    rw [hl] at hnd
    obtain ⟨n1, n2, n3⟩ := next_split (a := e.addr) rfl hnd
    have hl2 : l.evs = (P ++ [e]) ++ S := by rw [hl]; simp
    simp only [List.head?_cons, Option.map_some]
    rw [pass, hl, n3, n1]
    simp only
    cases hidx : e.idx with
    | none =>
      simp only
      rw [due, hidx]
      exact pass_spec hh k hl2 hw hi (fun x hx => hs x (by simp [hx]))
    | some i =>
      have hlt := hs e (by simp) i hidx
      simp only
      rw [List.getElem?_eq_getElem hlt]
      simp only
      rw [due, hidx]
      simp only
      rw [List.getElem?_eq_getElem hlt]
      simp only
      by_cases hr : rev[i] = 0
      · rw [if_pos hr, if_pos hr]
        exact pass_spec hh k hl2 hw hi (fun x hx => hs x (by simp [hx]))
      · rw [if_neg hr, if_neg hr]
        have hlive : live l e.addr = true := live_iff.2 (by rw [hl]; simp)
        cases ho : ops l (hand l ⟨e.addr, e.fd, rev[i]⟩) with
        | fail => exact .inr (.inl ⟨rfl, l, _, hi, hw, hlive, ho⟩)
        | ub => exact absurd ho (ops_noub _ _)
        | ok l' =>
          have hb := hh.back l ⟨e.addr, e.fd, rev[i]⟩ hi hw hlive
          rw [Backward, hl, n2] at hb
          obtain ⟨P', S', N, a1, a2, a3, a4⟩ := ops_keeps _ (P := P ++ [e]) (S := S) (N := []) (by rw [hl]; simp) (by simp) hw
            (hh.fresh l _ hi hw hlive) hb ho
          have hi' := hh.keep l _ l' hi hw hlive ho
          simp only
          cases S with
          | nil =>
            have : S' = [] := by simpa using a2
            subst this
            refine .inr (.inr ⟨l', ?_, a4, hi'⟩)
            simp only [List.head?_nil, Option.map_none, due]
            cases k <;> rfl
          | cons f S =>
            obtain ⟨f', S'', rfl⟩ : ∃ f' S'', S' = f' :: S'' := by
              cases S' with
              | nil => simp at a2
              | cons f' S'' => exact ⟨f', S'', rfl⟩
            have hf : f'.addr = f.addr := by
              have := strip_addr a2
              simp only [List.map_cons, List.cons.injEq] at this
              exact this.1
            have hs' : ∀ x ∈ (f' :: S'') ++ N, ∀ j, x.idx = some j → j < rev.length := by
              intro x hx j hj
              rcases List.mem_append.1 hx with h | h
              · have h5 : x.idx ∈ (f' :: S'').map (·.idx) := List.mem_map.2 ⟨x, h, rfl⟩
                rw [strip_idx a2] at h5
                obtain ⟨y, hy, hyx⟩ := List.mem_map.1 h5
                exact hs y (by simp only [List.mem_cons] at hy ⊢; exact .inr hy) j (by rw [← hj, ← hyx])
              · rw [a3 x h] at hj; cases hj
            have := pass_spec hh k (cs := cs ++ [⟨e.addr, e.fd, rev[i]⟩]) a1 a4 hi' hs'
            rw [due_append, due_none rev a3, List.append_nil, due_strip rev a2, List.append_assoc, List.singleton_append] at this
            simp only [List.cons_append, List.head?_cons, Option.map_some, hf] at this
            simpa using this

/-- The enabled events with what poll(2) says of them; those of which it says something. -/
def called : List Ev → List Nat → List Call
  | e :: es, r :: rs => if r = 0 then called es rs else ⟨e.addr, e.fd, r⟩ :: called es rs
  | _, _ => []

theorem fill_spec (nfds : Nat) : ∀ (es : List Ev) (idx : Nat), idx + (es.filter (·.enable)).length ≤ nfds →
    ∃ evs, fill nfds idx es = .ok (evs, (es.filter (·.enable)).map (fun e => (e.fd, e.events))) ∧
      evs.map (fun e => { e with idx := none }) = es.map (fun e => { e with idx := none }) ∧
      (∀ e ∈ evs, ∀ i, e.idx = some i → i < idx + (es.filter (·.enable)).length) ∧
      ∀ pre suf : List Nat, pre.length = idx → suf.length = (es.filter (·.enable)).length → due (pre ++ suf) evs = called (es.filter (·.enable)) suf
  | [], idx, _ => by
    refine ⟨[], rfl, rfl, by simp, ?_⟩
    intro pre suf _ h
    rw [List.length_eq_zero_iff.1 h]
    rfl
  | e :: es, idx, h => by
    cases he : e.enable with
    | false =>
      have h0 : (e :: es).filter (·.enable) = es.filter (·.enable) := by simp [he]
      rw [h0] at h
      rw [h0]
      obtain ⟨evs, a1, a2, a3, a4⟩ := fill_spec nfds es idx h
      refine ⟨{ e with idx := none } :: evs, ?_, ?_, ?_, ?_⟩
      · rw [fill, if_pos he, a1]; rfl
      · simp only [List.map_cons, a2]
      · intro x hx i hi
        rcases List.mem_cons.1 hx with rfl | hx
        · cases hi
        · exact a3 x hx i hi
      · intro pre suf hp hs
        rw [due]
        exact a4 pre suf hp hs
    | true =>
      have h0 : (e :: es).filter (·.enable) = e :: es.filter (·.enable) := by simp [he]
      rw [h0, List.length_cons] at h
      rw [h0]
      obtain ⟨evs, a1, a2, a3, a4⟩ := fill_spec nfds es (idx + 1) (by omega)
      refine ⟨{ e with idx := some idx } :: evs, ?_, ?_, ?_, ?_⟩
      · rw [fill, if_neg (by simp [he]), a1, decide_eq_true (by omega)]; rfl
      · simp only [List.map_cons, a2]
      · intro x hx i hi
        rw [List.length_cons]
        rcases List.mem_cons.1 hx with rfl | hx
        · cases hi; omega
        · have := a3 x hx i hi; omega
      · intro pre suf hp hs
        cases suf with
        | nil => simp at hs
        | cons r rs =>
          have hg : (pre ++ r :: rs)[idx]? = some r := by
            rw [← hp, List.getElem?_append_right (Nat.le_refl _)]; simp
          have h4 := a4 (pre ++ [r]) rs (by simp [hp]) (by simpa using hs)
          rw [List.append_assoc, List.singleton_append] at h4
          rw [due]
          simp only
          rw [hg]
          simp only
          rw [h4, called]

/-- The addresses and the number of the events stay. -/
theorem wf_noidx {l : Loop} (hw : Wf l) {evs : List Ev} (h : evs.map (fun e => { e with idx := none }) = l.evs.map (fun e => { e with idx := none })) :
    Wf { l with evs := evs } := by
  refine ⟨?_, ?_⟩
  · have := congrArg (List.map Ev.addr) h
    simp only [List.map_map, Function.comp_def] at this
    simp only
    rw [this]
    exact hw.nodup
  · have := congrArg List.length h
    simp only [List.length_map] at this
    simp only
    rw [this]
    exact hw.count

/-- There are enough steps for every pass over the events. -/
theorem pass_ends {rev : List Nat} {hand : Loop → Call → List Op} {I : Loop → Prop} (hh : HandOk I hand) : ∀ (k : Nat) (S : List Ev) {l : Loop} {P : List Ev}
    {cs : List Call}, (S.filter (fun e => e.idx.isSome)).length ≤ k → l.evs = P ++ S → Wf l → I l →
    (∀ e ∈ S, ∀ i, e.idx = some i → i < rev.length) → ∃ fuel, pass rev hand fuel (S.head?.map (·.addr)) l cs ≠ none := by
  intro k
  induction k with
  | zero =>
    intro S
    induction S with
    | nil => intro l P cs _ _ _ _ _; exact ⟨0, by simp [pass]⟩
    | cons e S ih =>
      intro l P cs hk hl hw hi hs
      have hidx : e.idx = none := by
        cases h : e.idx with
        | none => rfl
        | some i => simp [h] at hk
      obtain ⟨fuel, hf⟩ := ih (l := l) (P := P ++ [e]) (cs := cs) (by simpa [hidx] using hk) (by rw [hl]; simp) hw hi (fun x hx => hs x (by simp [hx]))
      have hnd := hw.nodup
      rw [hl] at hnd
      obtain ⟨n1, n2, n3⟩ := next_split (a := e.addr) rfl hnd
      refine ⟨fuel + 1, ?_⟩
      simp only [List.head?_cons, Option.map_some]
      rw [pass, hl, n3, n1]
      simp only
      rw [hidx]
      exact hf
  | succ k ihk =>
    intro S
    induction S with
    | nil => intro l P cs _ _ _ _ _; exact ⟨0, by simp [pass]⟩
    | cons e S ih =>
      intro l P cs hk hl hw hi hs
      have hnd := hw.nodup
      rw [hl] at hnd
      obtain ⟨n1, n2, n3⟩ := next_split (a := e.addr) rfl hnd
      have hl2 : l.evs = (P ++ [e]) ++ S := by rw [hl]; simp
      have skip : (S.filter (fun e => e.idx.isSome)).length ≤ k + 1 := by
        rw [List.filter_cons] at hk
        split at hk
        · rw [List.length_cons] at hk; omega
        · exact hk
      obtain ⟨fuel, hf⟩ := ih (l := l) (P := P ++ [e]) (cs := cs) skip hl2 hw hi (fun x hx => hs x (by simp [hx]))
      cases hidx : e.idx with
      | none =>
        refine ⟨fuel + 1, ?_⟩
        simp only [List.head?_cons, Option.map_some]
        rw [pass, hl, n3, n1]
        simp only
        rw [hidx]
        exact hf
      | some i =>
        have hlt := hs e (by simp) i hidx
        by_cases hr : rev[i] = 0
        · refine ⟨fuel + 1, ?_⟩
          simp only [List.head?_cons, Option.map_some]
          rw [pass, hl, n3, n1]
          simp only
          rw [hidx]
          simp only
          rw [List.getElem?_eq_getElem hlt]
          simp only
          rw [if_pos hr]
          exact hf
        · have hlive : live l e.addr = true := live_iff.2 (by rw [hl]; simp)
          have hk2 : (S.filter (fun e => e.idx.isSome)).length ≤ k := by
            rw [List.filter_cons, hidx] at hk
            simp only [Option.isSome_some, if_true, List.length_cons] at hk
            omega
          have goal : ∃ fuel, (match ops l (hand l ⟨e.addr, e.fd, rev[i]⟩) with
              | .ok l' => pass rev hand fuel (S.head?.map (·.addr)) l' (cs ++ [⟨e.addr, e.fd, rev[i]⟩])
              | .fail => some .fail
              | .ub => some .ub) ≠ none := by
            cases ho : ops l (hand l ⟨e.addr, e.fd, rev[i]⟩) with
            | fail => exact ⟨0, by simp⟩
            | ub => exact ⟨0, by simp⟩
            | ok l' =>
              have hb := hh.back l ⟨e.addr, e.fd, rev[i]⟩ hi hw hlive
              rw [Backward, hl, n2] at hb
              obtain ⟨P', S', N, a1, a2, a3, a4⟩ := ops_keeps _ (P := P ++ [e]) (S := S) (N := []) (by rw [hl]; simp) (by simp) hw
                (hh.fresh l _ hi hw hlive) hb ho
              have hi' := hh.keep l _ l' hi hw hlive ho
              simp only
              cases S with
              | nil => exact ⟨0, by simp [pass]⟩
              | cons f S =>
                obtain ⟨f', S'', rfl⟩ : ∃ f' S'', S' = f' :: S'' := by
                  cases S' with
                  | nil => simp at a2
                  | cons f' S'' => exact ⟨f', S'', rfl⟩
                have hf : f'.addr = f.addr := by
                  have := strip_addr a2
                  simp only [List.map_cons, List.cons.injEq] at this
                  exact this.1
                have hs' : ∀ x ∈ (f' :: S'') ++ N, ∀ j, x.idx = some j → j < rev.length := by
                  intro x hx j hj
                  rcases List.mem_append.1 hx with h | h
                  · have h5 : x.idx ∈ (f' :: S'').map (·.idx) := List.mem_map.2 ⟨x, h, rfl⟩
                    rw [strip_idx a2] at h5
                    obtain ⟨y, hy, hyx⟩ := List.mem_map.1 h5
                    exact hs y (by simp only [List.mem_cons] at hy ⊢; exact .inr hy) j (by rw [← hj, ← hyx])
                  · rw [a3 x h] at hj; cases hj
                have hcount : (((f' :: S'') ++ N).filter (fun e => e.idx.isSome)).length ≤ k := by
                  have e1 : ∀ L : List Ev, (L.filter (fun e => e.idx.isSome)).length = ((L.map (·.idx)).filter Option.isSome).length := by
                    intro L
                    rw [List.filter_map, List.length_map]
                    rfl
                  rw [List.filter_append, List.length_append, e1 (f' :: S''), strip_idx a2, ← e1]
                  have : N.filter (fun e => e.idx.isSome) = [] := by
                    refine List.filter_eq_nil_iff.2 ?_
                    intro x hx
                    rw [a3 x hx]
                    simp
                  rw [this, List.length_nil]
                  exact hk2
                obtain ⟨fuel, hfu⟩ := ihk ((f' :: S'') ++ N) (cs := cs ++ [⟨e.addr, e.fd, rev[i]⟩]) hcount a1 a4 hi' hs'
                refine ⟨fuel, ?_⟩
                simp only [List.cons_append, List.head?_cons, Option.map_some, hf] at hfu
                simpa using hfu
          obtain ⟨fuel, hfu⟩ := goal
          refine ⟨fuel + 1, ?_⟩
          simp only [List.head?_cons, Option.map_some]
          rw [pass, hl, n3, n1]
          simp only
          rw [hidx]
          simp only
          rw [List.getElem?_eq_getElem hlt]
          simp only
          rw [if_neg hr]
          exact hfu

end Verif.Evloop
