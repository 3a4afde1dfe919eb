/-
Property C70: the event loop calls the handlers of the events that are ready, each once, and uses no event that has been freed.
-/
import Verif.Proofs.Evloop

namespace Verif.Props
open Verif Evloop

/-- poll(2) says something of each descriptor. -/
def PollOk (poll : List (Nat × Nat) → List Nat) : Prop := ∀ fds, (poll fds).length = fds.length

/-- The calls for the enabled events of which poll(2) says something. -/
def callsFor (poll : List (Nat × Nat) → List Nat) (evs : List Evloop.Ev) : List Call :=
  let en := evs.filter (fun e => e.enable)
  ((en.zip (poll (en.map (fun e => (e.fd, e.events))))).filter (fun p => p.2 ≠ 0)).map (fun p => ⟨p.1.addr, p.1.fd, p.2⟩)

theorem called_zip : ∀ (es : List Evloop.Ev) (rs : List Nat), called es rs = ((es.zip rs).filter (fun p => p.2 ≠ 0)).map (fun p => ⟨p.1.addr, p.1.fd, p.2⟩)
  | [], _ => by simp [called]
  | e :: es, [] => by simp [called]
  | e :: es, r :: rs => by
    rw [called, called_zip es rs, List.zip_cons_cons, List.filter_cons]
    by_cases hr : r = 0 <;> simp [hr]

/-- C70: one round of the loop.  Nothing is used after it was freed, and `fds` is not overrun.  If no check fails, exactly the handlers of the events which were
enabled and ready when poll(2) was called are called, in the order of the list, with the right descriptor and `revents`.  If a check fails, then because nothing is enabled, poll(2)
failed, or a handler did something to an event that is gone. -/
theorem C70_round {I : Loop → Prop} {hand : Loop → Call → List Op} (hh : HandOk I hand) (hI : NoIdx I) {poll : List (Nat × Nat) → List Nat} (hp : PollOk poll)
    {l : Loop} (hw : Wf l) (hi : I l) (fuel nfds : Nat) :
    Evloop.round fuel nfds poll hand l = none ∨
    (Evloop.round fuel nfds poll hand l = some .fail ∧ ((∀ e ∈ l.evs, e.enable = false) ∨
      (∀ r ∈ poll ((l.evs.filter (fun e => e.enable)).map (fun e => (e.fd, e.events))), r = 0) ∨
      ∃ l1 c, I l1 ∧ Wf l1 ∧ live l1 c.addr = true ∧ ops l1 (hand l1 c) = .fail)) ∨
    ∃ l', Evloop.round fuel nfds poll hand l = some (.ok (max nfds l.nevs, l', callsFor poll l.evs)) ∧ Wf l' ∧ I l' := by
  have hn : (if nfds < l.nevs then l.nevs else nfds) = max nfds l.nevs := by split <;> omega
  have hcount : 0 + (l.evs.filter (fun e => e.enable)).length ≤ max nfds l.nevs := by
    have h1 := List.length_filter_le (fun e : Evloop.Ev => e.enable) l.evs
    have h2 := hw.count
    omega
  obtain ⟨evs, a1, a2, a3, a4⟩ := fill_spec (max nfds l.nevs) l.evs 0 hcount
  unfold Evloop.round
  simp only [hn]
  rw [a1]
  simp only
  obtain ⟨fds, hfds⟩ : ∃ fds, fds = (l.evs.filter (fun e => e.enable)).map (fun e => (e.fd, e.events)) := ⟨_, rfl⟩
  have hlen : (poll fds).length = (l.evs.filter (fun e => e.enable)).length := by rw [hp, hfds, List.length_map]
  rw [← hfds]
  split
  · rename_i h0
    refine .inr (.inl ⟨rfl, .inl ?_⟩)
    rw [hfds, List.map_eq_nil_iff, List.filter_eq_nil_iff] at h0
    intro e he
    simpa using h0 e he
  · split
    · rename_i _ h0
      refine .inr (.inl ⟨rfl, .inr (.inl ?_)⟩)
      simpa using h0
    · have hw' := wf_noidx hw a2
      have hi' := hI l evs a2 hi
      have hdue := a4 [] (poll fds) rfl hlen
      rw [List.nil_append] at hdue
      rcases pass_spec hh fuel (l := { l with evs := evs }) (P := []) (S := evs) (cs := []) (rev := poll fds) rfl hw' hi'
        (fun e he i h => by have := a3 e he i h; omega) with h | ⟨h, hx⟩ | ⟨l', h, h2, h3⟩
      · rw [h]; exact .inl rfl
      · rw [h]; exact .inr (.inl ⟨rfl, .inr (.inr hx)⟩)
      · rw [h]
        refine .inr (.inr ⟨l', ?_, h2, h3⟩)
        simp only [List.nil_append]
        rw [hdue, called_zip, callsFor, hfds]

/-- C70: no event is called twice in a round. -/
theorem C70_once {l : Loop} (hw : Wf l) (poll : List (Nat × Nat) → List Nat) : ((callsFor poll l.evs).map (fun c => c.addr)).Nodup := by
  unfold callsFor
  simp only
  have key : ∀ (es : List Evloop.Ev) (rs : List Nat),
      ((((es.zip rs).filter (fun p => p.2 ≠ 0)).map (fun p => (⟨p.1.addr, p.1.fd, p.2⟩ : Call))).map (fun c => c.addr)).Sublist (es.map (fun e => e.addr)) := by
    intro es
    induction es with
    | nil => intro rs; simp
    | cons e es ih =>
      intro rs
      cases rs with
      | nil => simp
      | cons r rs =>
        rw [List.zip_cons_cons, List.filter_cons]
        split
        · simp only [List.map_cons]; exact (ih rs).cons_cons _
        · exact (ih rs).cons _
  exact (hw.nodup.sublist (List.filter_sublist.map _)).sublist (key _ _)

/-- C70: a round ends, whatever events are added in it. -/
theorem C70_ends {I : Loop → Prop} {hand : Loop → Call → List Op} (hh : HandOk I hand) (hI : NoIdx I) {poll : List (Nat × Nat) → List Nat} (hp : PollOk poll)
    {l : Loop} (hw : Wf l) (hi : I l) (nfds : Nat) : ∃ fuel, Evloop.round fuel nfds poll hand l ≠ none := by
  have hn : (if nfds < l.nevs then l.nevs else nfds) = max nfds l.nevs := by split <;> omega
  have hcount : 0 + (l.evs.filter (fun e => e.enable)).length ≤ max nfds l.nevs := by
    have h1 := List.length_filter_le (fun e : Evloop.Ev => e.enable) l.evs
    have h2 := hw.count
    omega
  obtain ⟨evs, a1, a2, a3, a4⟩ := fill_spec (max nfds l.nevs) l.evs 0 hcount
  obtain ⟨fds, hfds⟩ : ∃ fds, fds = (l.evs.filter (fun e => e.enable)).map (fun e => (e.fd, e.events)) := ⟨_, rfl⟩
  have hlen : (poll fds).length = (l.evs.filter (fun e => e.enable)).length := by rw [hp, hfds, List.length_map]
  obtain ⟨fuel, hf⟩ := pass_ends hh _ evs (l := { l with evs := evs }) (P := []) (cs := []) (rev := poll fds) (Nat.le_refl _) rfl (wf_noidx hw a2)
    (hI l evs a2 hi) (fun e he i h => by have := a3 e he i h; omega)
  refine ⟨fuel, ?_⟩
  unfold Evloop.round
  simp only [hn]
  rw [a1]
  simp only
  rw [← hfds]
  split
  · simp
  · split
    · simp
    · split
      · rename_i h; exact absurd h hf
      · simp
      · simp
      · simp

/-- C70: the whole loop, as long as the handlers keep to the rules: nothing is used after it was freed. -/
theorem C70_dispatch {I : Loop → Prop} (hI : NoIdx I) : ∀ (ts : List Turn), (∀ t ∈ ts, HandOk I t.hand ∧ PollOk t.poll) → ∀ {l : Loop}, Wf l → I l → ∀ nfds : Nat,
    dispatch nfds l ts ≠ some .ub ∧ ∀ l' css, dispatch nfds l ts = some (.ok (l', css)) → Wf l' ∧ I l'
  | [], _, l, hw, hi, nfds => by
    refine ⟨by simp [dispatch], ?_⟩
    intro l' css h
    cases h
    exact ⟨hw, hi⟩
  | t :: ts, ht, l, hw, hi, nfds => by
    rw [dispatch]
    by_cases h0 : l.evs = []
    · rw [if_pos h0]
      refine ⟨by simp, ?_⟩
      intro l' css h
      cases h
      exact ⟨hw, hi⟩
    · rw [if_neg h0]
      rcases C70_round (ht t (by simp)).1 hI (ht t (by simp)).2 hw hi t.fuel nfds with h | ⟨h, -⟩ | ⟨l1, h, h1, h2⟩
      · rw [h]; exact ⟨by simp, fun _ _ h => by cases h⟩
      · rw [h]; exact ⟨by simp, fun _ _ h => by cases h⟩
      · rw [h]
        obtain ⟨b1, b2⟩ := C70_dispatch hI ts (fun x hx => ht x (by simp [hx])) h1 h2 (max nfds l.nevs)
        simp only
        cases hd : dispatch (max nfds l.nevs) l1 ts with
        | none => exact ⟨by simp, fun _ _ h => by cases h⟩
        | some r =>
          cases r with
          | fail => exact ⟨by simp, fun _ _ h => by cases h⟩
          | ub => exact absurd hd b1
          | ok p =>
            refine ⟨by simp, ?_⟩
            intro l' css h
            cases h
            exact b2 p.1 p.2 hd

/-! ### The two programs -/

/-- What is behind `a` in a list. -/
def behind (a : Nat) : List Nat → List Nat
  | [] => []
  | b :: l => if b = a then l else behind a l

theorem later_behind (a : Nat) : ∀ L : List Evloop.Ev, later a L = behind a (L.map (·.addr))
  | [] => rfl
  | e :: L => by rw [later, List.map_cons, behind, later_behind a L]

theorem behind_sublist {a : Nat} {A B : List Nat} (h : A.Sublist B) (hm : a ∈ A) (hn : B.Nodup) : (behind a A).Sublist (behind a B) := by
  induction h with
  | slnil => simp at hm
  | cons b h ih =>
    rw [List.nodup_cons] at hn
    rw [behind.eq_2 a b, if_neg (fun k => hn.1 (by rw [k]; exact h.subset hm))]
    exact ih hm hn.2
  | cons_cons b h ih =>
    rw [List.nodup_cons] at hn
    rw [behind, behind]
    by_cases hb : b = a
    · rw [if_pos hb, if_pos hb]; exact h
    · rw [if_neg hb, if_neg hb]
      rcases List.mem_cons.1 hm with k | k
      · exact absurd k.symm hb
      · exact ih k hn.2

theorem behind_self {a : Nat} : ∀ {A : List Nat}, A.Nodup → a ∉ behind a A
  | [], _ => by simp [behind]
  | b :: A, h => by
    rw [List.nodup_cons] at h
    rw [behind]
    split
    · rename_i hb; rw [← hb]; exact h.1
    · exact behind_self h.2

/-- In main_stevedore.c a handler removes no event but its own: `input` (:309-423) removes `stdin_ev`, and `job_ev` (:85-99) removes `jp->ev`. -/
def StevedoreHand (hand : Loop → Call → List Op) : Prop := ∀ l c, (∀ b, Op.del b ∈ hand l c → b = c.addr ∨ b = 0) ∧ Fresh l (hand l c)

theorem op_addrs {l l' : Loop} {o : Op} (hf : ∀ a fd ev, o = .add a fd ev → a ≠ 0 ∧ live l a = false) (h : op l o = .ok l') {a : Nat} (ha : a ∈ l'.evs.map (·.addr)) :
    a ∈ l.evs.map (·.addr) ∨ a ≠ 0 := by
  cases o with
  | add b fd ev =>
    simp only [op, Res.ok.injEq] at h
    subst h
    simp only [addEv, List.map_append, List.map_cons, List.map_nil, List.mem_append, List.mem_singleton] at ha
    rcases ha with ha | rfl
    · exact .inl ha
    · exact .inr (hf _ _ _ rfl).1
  | del b =>
    simp only [op, delEv, Res.check_bind_eq_ok, Res.ok.injEq] at h
    obtain ⟨-, rfl⟩ := h
    exact .inl ((List.filter_sublist.map _).subset ha)
  | ctl b c =>
    simp only [op, ctlEv, Res.check_bind_eq_ok, Res.ok.injEq] at h
    obtain ⟨-, rfl⟩ := h
    simp only [List.map_map] at ha
    refine .inl ?_
    obtain ⟨e, he, rfl⟩ := List.mem_map.1 ha
    refine List.mem_map.2 ⟨e, he, ?_⟩
    simp only [Function.comp]
    split <;> rfl

theorem ops_zero : ∀ {os : List Op} {l l' : Loop}, Fresh l os → ops l os = .ok l' → 0 ∉ l.evs.map (·.addr) → 0 ∉ l'.evs.map (·.addr)
  | [], l, l', _, h, h0 => by cases h; exact h0
  | o :: os, l, l', hf, h, h0 => by
    rw [ops, Res.bind_eq_ok] at h
    obtain ⟨l1, h1, h2⟩ := h
    refine ops_zero (hf.2 l1 h1) h2 ?_
    intro k
    rcases op_addrs hf.1 h1 k with k | k
    · exact h0 k
    · exact k rfl

theorem noIdx_addr {l : Loop} {evs : List Evloop.Ev} (h : evs.map (fun e => { e with idx := none }) = l.evs.map (fun e => { e with idx := none })) :
    evs.map (·.addr) = l.evs.map (·.addr) := by
  have := congrArg (List.map Evloop.Ev.addr) h
  simpa only [List.map_map, Function.comp_def] using this

/-- C70: `stevedore` uses no event that has been freed. -/
theorem C70_stevedore {ts : List Turn} (ht : ∀ t ∈ ts, StevedoreHand t.hand ∧ PollOk t.poll) {l : Loop} (hw : Wf l) (h0 : 0 ∉ l.evs.map (·.addr)) (nfds : Nat) :
    dispatch nfds l ts ≠ some .ub := by
  refine (C70_dispatch (I := fun l => 0 ∉ l.evs.map (·.addr)) ?_ ts ?_ hw h0 nfds).1
  · intro l evs h hi
    simp only
    rw [noIdx_addr h]
    exact hi
  · intro t hx
    refine ⟨⟨fun l c _ _ _ => ((ht t hx).1 l c).2, ?_, fun l c l' hi _ _ ho => ops_zero ((ht t hx).1 l c).2 ho hi⟩, (ht t hx).2⟩
    intro l c hi hw hlive b hb
    rw [later_behind]
    rcases ((ht t hx).1 l c).1 b hb with rfl | rfl
    · exact behind_self hw.nodup
    · intro k
      refine hi ?_
      have sub : ∀ A : List Nat, (behind c.addr A).Sublist A := by
        intro A
        induction A with
        | nil => exact .slnil
        | cons b A ih =>
          rw [behind]
          split
          · exact .cons _ (.refl _)
          · exact .cons _ ih
      exact (sub _).subset k

/-- The variables of main_stow.c: `stevedore_0_ev`, `stevedore_1_ev`, `stevedore_2_ev`, `sj->mtree_ev`. -/
structure StowVars where
  a0 : Nat
  a1 : Nat
  a2 : Nat
  am : Nat
  distinct : [0, a0, a1, a2, am].Nodup

/-- The value of `stevedore_0_ev`, and so on: 0 if the event has been removed (proto.c:112). -/
def varOf (l : Loop) (a : Nat) : Nat := if live l a then a else 0

/-- What the handlers of main_stow.c do to the events: `stevedore_out` (:550-625), `stevedore_in` with `filter_resp`, `data_resp` and `metadata` (:328-333, :414-546),
`diag` (:305-324), `mtree_in` with `mtree_interpret` (:178, :218-263). -/
structure StowHand (v : StowVars) (hand : Loop → Call → List Op) : Prop where
  out : ∀ l c, c.addr = v.a0 → hand l c = [] ∨ hand l c = [.ctl (varOf l v.a0) false]
  inn : ∀ l c, c.addr = v.a1 → hand l c = [] ∨ hand l c = [.del v.a1] ∨ hand l c = [.ctl (varOf l v.a0) true] ∨ hand l c = [.del (varOf l v.a0)]
  diag : ∀ l c, c.addr = v.a2 → hand l c = [] ∨
    hand l c = (if live l v.a0 then [.del v.a0] else []) ++ (if live l v.a1 then [.del v.a1] else []) ++ [.del v.a2]
  mtree : ∀ l c, c.addr = v.am → (∃ k, hand l c = List.replicate k (.ctl (varOf l v.a0) true)) ∨ hand l c = [.del v.am, .ctl (varOf l v.a0) true]

/-- What holds of the events of `stow`: they are in this order, `diag` is the last of the first three to go, and only `stevedore_out` is ever disabled. -/
structure StowInv (v : StowVars) (l : Loop) : Prop where
  order : (l.evs.map (·.addr)).Sublist [v.a0, v.a1, v.a2, v.am]
  last : v.a0 ∈ l.evs.map (·.addr) → v.a2 ∈ l.evs.map (·.addr)
  on : ∀ e ∈ l.evs, e.addr ≠ v.a0 → e.enable = true

/-- C70: in `stow` there is always something to wait for, so `AN(idx)` (proto.c:152) does not fail. -/
theorem C70_stow_waits {v : StowVars} {l : Loop} (h : StowInv v l) (hne : l.evs ≠ []) : ∃ e ∈ l.evs, e.enable = true := by
  obtain ⟨e, l', he⟩ := List.exists_cons_of_ne_nil hne
  by_cases h0 : e.addr = v.a0
  · have h2 := h.last (by rw [he, ← h0]; simp)
    obtain ⟨f, hf, hfa⟩ := List.mem_map.1 h2
    refine ⟨f, hf, h.on f hf ?_⟩
    intro k
    have hd := v.distinct
    rw [hfa] at k
    simp only [List.nodup_cons, List.mem_cons] at hd
    exact hd.2.1 (.inr (.inl k.symm))
  · exact ⟨e, by rw [he]; simp, h.on e (by rw [he]; simp) h0⟩

theorem stow_ctl {v : StowVars} {l l' : Loop} {x : Nat} {b : Bool} (hi : StowInv v l) (hx : x = v.a0 ∨ x = 0) (h : op l (.ctl x b) = .ok l') : StowInv v l' := by
  simp only [op, ctlEv, Res.check_bind_eq_ok, Res.ok.injEq] at h
  obtain ⟨hl, rfl⟩ := h
  have hx0 : x = v.a0 := by
    rcases hx with h | h
    · exact h
    · have hd := v.distinct
      have := hi.order.subset (live_iff.1 hl)
      rw [h] at this
      rw [List.nodup_cons] at hd
      exact absurd this hd.1
  have hmap : (l.evs.map (fun e => if e.addr = x then { e with enable := b } else e)).map (·.addr) = l.evs.map (·.addr) := by
    rw [List.map_map]
    refine List.map_congr_left ?_
    intro e _
    simp only [Function.comp]
    split <;> rfl
  refine ⟨by rw [hmap]; exact hi.order, by rw [hmap]; exact hi.last, ?_⟩
  intro e he hne
  obtain ⟨f, hf, rfl⟩ := List.mem_map.1 he
  by_cases hfx : f.addr = x
  · rw [if_pos hfx] at hne
    exact absurd (hfx.trans hx0) hne
  · rw [if_neg hfx] at hne ⊢
    exact hi.on f hf hne

theorem stow_del {v : StowVars} {l l' : Loop} {x : Nat} (hi : StowInv v l) (hx : x = v.a2 → v.a0 ∉ l.evs.map (·.addr)) (h : op l (.del x) = .ok l') :
    StowInv v l' ∧ ∀ y, y ∈ l'.evs.map (·.addr) ↔ y ∈ l.evs.map (·.addr) ∧ y ≠ x := by
  simp only [op, delEv, Res.check_bind_eq_ok, Res.ok.injEq] at h
  obtain ⟨hl, rfl⟩ := h
  have hmem : ∀ y, y ∈ (l.evs.filter (fun e => e.addr != x)).map (·.addr) ↔ y ∈ l.evs.map (·.addr) ∧ y ≠ x := by
    intro y
    constructor
    · intro hy
      obtain ⟨e, he, rfl⟩ := List.mem_map.1 hy
      obtain ⟨h1, h2⟩ := List.mem_filter.1 he
      exact ⟨List.mem_map.2 ⟨e, h1, rfl⟩, by simpa using h2⟩
    · rintro ⟨hy, hne⟩
      obtain ⟨e, he, rfl⟩ := List.mem_map.1 hy
      exact List.mem_map.2 ⟨e, List.mem_filter.2 ⟨he, by simpa using hne⟩, rfl⟩
  refine ⟨⟨(List.filter_sublist.map _).trans hi.order, ?_, ?_⟩, hmem⟩
  · intro h0
    have h1 := (hmem _).1 h0
    refine (hmem _).2 ⟨hi.last h1.1, ?_⟩
    intro k
    exact hx k.symm h1.1
  · intro e he hne
    exact hi.on e (List.mem_filter.1 he).1 hne

theorem ops_one {l l' : Loop} {o : Op} (h : ops l [o] = .ok l') : op l o = .ok l' := by
  simp only [ops, Res.bind_eq_ok] at h
  obtain ⟨a, h1, h2⟩ := h
  cases h2
  exact h1

theorem ops_append : ∀ (os os' : List Op) (l : Loop), ops l (os ++ os') = ops l os >>= fun l' => ops l' os'
  | [], _, _ => rfl
  | o :: os, os', l => by
    rw [List.cons_append, ops, ops]
    cases op l o with
    | ok l1 => exact ops_append os os' l1
    | fail => rfl
    | ub => rfl

theorem stow_hand {v : StowVars} {hand : Loop → Call → List Op} (h : StowHand v hand) : HandOk (StowInv v) hand := by
  have hd := v.distinct
  simp only [List.nodup_cons, List.mem_cons, List.not_mem_nil, or_false, not_or] at hd
  obtain ⟨⟨z0, z1, z2, zm⟩, ⟨n01, n02, n0m⟩, ⟨n12, n1m⟩, n2m, -⟩ := hd
  have hnd : [v.a0, v.a1, v.a2, v.am].Nodup := by
    have := v.distinct
    rw [List.nodup_cons] at this
    exact this.2
  -- which handler
  have which : ∀ (l : Loop) (c : Call), StowInv v l → live l c.addr = true → c.addr = v.a0 ∨ c.addr = v.a1 ∨ c.addr = v.a2 ∨ c.addr = v.am := by
    intro l c hi hl
    have := hi.order.subset (live_iff.1 hl)
    simpa using this
  -- what is removed
  have dels : ∀ l c, StowInv v l → live l c.addr = true → ∀ b, Op.del b ∈ hand l c → b = 0 ∨ b ∉ behind c.addr [v.a0, v.a1, v.a2, v.am] := by
    intro l c hi hl b hb
    rcases which l c hi hl with k | k | k | k
    · rcases h.out l c k with e | e <;> rw [e] at hb <;> simp at hb
    · rcases h.inn l c k with e | e | e | e <;> rw [e] at hb <;> simp at hb
      · right
        rw [k, hb]
        simp [behind, n01, n12, n1m]
      · unfold varOf at hb
        split at hb
        · right
          rw [k, hb]
          simp [behind, n01, n02, n0m]
        · exact .inl hb
    · rcases h.diag l c k with e | e <;> rw [e] at hb
      · simp at hb
      · right
        rw [k]
        simp only [List.mem_append, List.mem_singleton] at hb
        rcases hb with (hb | hb) | hb
        · split at hb
          · simp at hb; rw [hb]; simp [behind, n02, n12, n0m]
          · simp at hb
        · split at hb
          · simp at hb; rw [hb]; simp [behind, n02, n12, n1m]
          · simp at hb
        · cases hb; simp [behind, n02, n12, n2m]
    · rcases h.mtree l c k with ⟨n, e⟩ | e <;> rw [e] at hb
      · have := List.eq_of_mem_replicate hb
        cases this
      · simp at hb
        right
        rw [k, hb]
        simp [behind, n0m, n1m, n2m]
  have noadd : ∀ l c, StowInv v l → live l c.addr = true → ∀ a fd ev, Op.add a fd ev ∉ hand l c := by
    intro l c hi hl a fd ev hb
    rcases which l c hi hl with k | k | k | k
    · rcases h.out l c k with e | e <;> rw [e] at hb <;> simp at hb
    · rcases h.inn l c k with e | e | e | e <;> rw [e] at hb <;> simp at hb
    · rcases h.diag l c k with e | e <;> rw [e] at hb
      · simp at hb
      · simp only [List.mem_append, List.mem_singleton] at hb
        rcases hb with (hb | hb) | hb
        · split at hb <;> simp at hb
        · split at hb <;> simp at hb
        · cases hb
    · rcases h.mtree l c k with ⟨n, e⟩ | e <;> rw [e] at hb
      · have := List.eq_of_mem_replicate hb
        cases this
      · simp at hb
  have fresh : ∀ (os : List Op) l, (∀ a fd ev, Op.add a fd ev ∉ os) → Fresh l os := by
    intro os
    induction os with
    | nil => intro l _; trivial
    | cons o os ih =>
      intro l hn
      exact ⟨fun a fd ev e => absurd (by rw [e]; simp) (hn a fd ev), fun l' _ => ih l' (fun a fd ev k => hn a fd ev (by simp [k]))⟩
  refine ⟨fun l c hi _ hl => fresh _ l (noadd l c hi hl), ?_, ?_⟩
  · intro l c hi hw hl b hb k
    rw [later_behind] at k
    have k2 := (behind_sublist hi.order (live_iff.1 hl) hnd).subset k
    rcases dels l c hi hl b hb with rfl | h1
    · have sub : ∀ A : List Nat, ∀ x ∈ behind c.addr A, x ∈ A := by
        intro A
        induction A with
        | nil => intro x hx; exact hx
        | cons b A ih =>
          intro x hx
          rw [behind] at hx
          split at hx
          · simp [hx]
          · simp [ih x hx]
      have := sub _ _ k2
      simp only [List.mem_cons, List.not_mem_nil, or_false] at this
      rcases this with k | k | k | k
      · exact z0 k
      · exact z1 k
      · exact z2 k
      · exact zm k
    · exact h1 k2
  · intro l c l' hi hw hl ho
    have hv : varOf l v.a0 = v.a0 ∨ varOf l v.a0 = 0 := by
      unfold varOf
      split
      · exact .inl rfl
      · exact .inr rfl
    rcases which l c hi hl with k | k | k | k
    · rcases h.out l c k with e | e <;> rw [e] at ho
      · cases ho; exact hi
      · exact stow_ctl hi hv (ops_one ho)
    · rcases h.inn l c k with e | e | e | e <;> rw [e] at ho
      · cases ho; exact hi
      · exact (stow_del hi (fun k => absurd k n12) (ops_one ho)).1
      · exact stow_ctl hi hv (ops_one ho)
      · refine (stow_del hi (fun k => ?_) (ops_one ho)).1
        rcases hv with e | e <;> rw [e] at k
        · exact absurd k n02
        · exact absurd k z2
    · rcases h.diag l c k with e | e <;> rw [e] at ho
      · cases ho; exact hi
      · rw [ops_append, ops_append, Res.bind_eq_ok] at ho
        obtain ⟨l2, ho, h3⟩ := ho
        rw [Res.bind_eq_ok] at ho
        obtain ⟨l1, h1, h2⟩ := ho
        have i1 : StowInv v l1 ∧ v.a0 ∉ l1.evs.map (·.addr) := by
          by_cases hx : live l v.a0 = true
          · rw [if_pos hx] at h1
            obtain ⟨j1, j2⟩ := stow_del hi (fun k => absurd k n02) (ops_one h1)
            exact ⟨j1, fun k => ((j2 _).1 k).2 rfl⟩
          · rw [if_neg hx] at h1
            cases h1
            exact ⟨hi, fun k => hx (live_iff.2 k)⟩
        have i2 : StowInv v l2 ∧ v.a0 ∉ l2.evs.map (·.addr) := by
          by_cases hx : live l v.a1 = true
          · rw [if_pos hx] at h2
            obtain ⟨j1, j2⟩ := stow_del i1.1 (fun k => absurd k n12) (ops_one h2)
            exact ⟨j1, fun k => i1.2 ((j2 _).1 k).1⟩
          · rw [if_neg hx] at h2
            cases h2
            exact i1
        exact (stow_del i2.1 (fun _ => i2.2) (ops_one h3)).1
    · rcases h.mtree l c k with ⟨n, e⟩ | e <;> rw [e] at ho
      · obtain ⟨x, hx⟩ : ∃ x, x = varOf l v.a0 := ⟨_, rfl⟩
        rw [← hx] at ho hv
        clear hx e hl hw
        induction n generalizing l with
        | zero => cases ho; exact hi
        | succ n ih =>
          rw [List.replicate_succ, ops, Res.bind_eq_ok] at ho
          obtain ⟨l1, h1, h2⟩ := ho
          exact ih l1 (stow_ctl hi hv h1) h2
      · rw [ops, Res.bind_eq_ok] at ho
        obtain ⟨l1, h1, h2⟩ := ho
        exact stow_ctl (stow_del hi (fun k => absurd k.symm n2m) h1).1 hv (ops_one h2)

theorem stow_noIdx (v : StowVars) : NoIdx (StowInv v) := by
  intro l evs h hi
  have ha := noIdx_addr h
  refine ⟨by simp only; rw [ha]; exact hi.order, by simp only; rw [ha]; exact hi.last, ?_⟩
  intro e he hne
  have h1 : ({ e with idx := none } : Evloop.Ev) ∈ l.evs.map (fun e => { e with idx := none }) := by rw [← h]; exact List.mem_map.2 ⟨e, he, rfl⟩
  obtain ⟨f, hf, hfe⟩ := List.mem_map.1 h1
  have e1 : f.addr = e.addr := show ({ f with idx := none } : Evloop.Ev).addr = e.addr by rw [hfe]
  have e2 : f.enable = e.enable := show ({ f with idx := none } : Evloop.Ev).enable = e.enable by rw [hfe]
  rw [← e2]
  exact hi.on f hf (by rw [e1]; exact hne)

/-- main_stow.c:659-662, :300: the events of a job at its start. -/
def stowStart (v : StowVars) (fd0 fd1 fd2 fdm nevs : Nat) : Loop where
  evs := [⟨v.a0, fd0, 4, false, none⟩, ⟨v.a1, fd1, 1, true, none⟩, ⟨v.a2, fd2, 1, true, none⟩, ⟨v.am, fdm, 1, true, none⟩]
  nevs := nevs + 4

theorem stowInv_start (v : StowVars) (fd0 fd1 fd2 fdm nevs : Nat) : Wf (stowStart v fd0 fd1 fd2 fdm nevs) ∧ StowInv v (stowStart v fd0 fd1 fd2 fdm nevs) := by
  have hd := v.distinct
  rw [List.nodup_cons] at hd
  refine ⟨⟨hd.2, by simp [stowStart]⟩, .refl _, fun _ => by simp [stowStart], ?_⟩
  intro e he hne
  simp only [stowStart, List.mem_cons, List.not_mem_nil, or_false] at he
  rcases he with rfl | rfl | rfl | rfl
  · exact absurd rfl hne
  · rfl
  · rfl
  · rfl

/-- C70: `stow` uses no event that has been freed, and as long as there are events one of them is waited for. -/
theorem C70_stow {v : StowVars} {ts : List Turn} (ht : ∀ t ∈ ts, StowHand v t.hand ∧ PollOk t.poll) (fd0 fd1 fd2 fdm nevs nfds : Nat) :
    dispatch nfds (stowStart v fd0 fd1 fd2 fdm nevs) ts ≠ some .ub ∧
    ∀ l css, dispatch nfds (stowStart v fd0 fd1 fd2 fdm nevs) ts = some (.ok (l, css)) → l.evs ≠ [] → ∃ e ∈ l.evs, e.enable = true := by
  obtain ⟨h1, h2⟩ := stowInv_start v fd0 fd1 fd2 fdm nevs
  obtain ⟨a, b⟩ := C70_dispatch (stow_noIdx v) ts (fun t hx => ⟨stow_hand (ht t hx).1, (ht t hx).2⟩) h1 h2 nfds
  exact ⟨a, fun l css h hne => C70_stow_waits (b l css h).2 hne⟩

theorem op_ctl_live {l : Loop} {a : Nat} (b : Bool) (h : a ∈ l.evs.map (·.addr)) : ∃ l', op l (.ctl a b) = .ok l' ∧ l'.evs.map (·.addr) = l.evs.map (·.addr) := by
  refine ⟨_, by rw [op, ctlEv, live_iff.2 h]; rfl, ?_⟩
  simp only [List.map_map]
  refine List.map_congr_left ?_
  intro e _
  simp only [Function.comp]
  split <;> rfl

theorem op_del_live {l : Loop} {a : Nat} (h : a ∈ l.evs.map (·.addr)) :
    ∃ l', op l (.del a) = .ok l' ∧ ∀ b, b ∈ l.evs.map (·.addr) → b ≠ a → b ∈ l'.evs.map (·.addr) := by
  refine ⟨_, by rw [op, delEv, live_iff.2 h]; rfl, ?_⟩
  intro b hb hne
  obtain ⟨e, he, rfl⟩ := List.mem_map.1 hb
  exact List.mem_map.2 ⟨e, List.mem_filter.2 ⟨he, by simpa using hne⟩, rfl⟩

/-- C70: if a check fails in a handler of `stow`, then `stevedore_0_ev` has been removed before. -/
theorem C70_stow_fails {v : StowVars} {hand : Loop → Call → List Op} (h : StowHand v hand) {l : Loop} {c : Call} (hi : StowInv v l) (hl : live l c.addr = true)
    (hf : ops l (hand l c) = .fail) : v.a0 ∉ l.evs.map (·.addr) := by
  have hd := v.distinct
  simp only [List.nodup_cons, List.mem_cons, List.not_mem_nil, or_false, not_or] at hd
  obtain ⟨⟨z0, z1, z2, zm⟩, ⟨n01, n02, n0m⟩, ⟨n12, n1m⟩, n2m, -⟩ := hd
  intro h0
  have hv : varOf l v.a0 = v.a0 := by unfold varOf; rw [if_pos (live_iff.2 h0)]
  have hc := live_iff.1 hl
  have which : c.addr = v.a0 ∨ c.addr = v.a1 ∨ c.addr = v.a2 ∨ c.addr = v.am := by
    have := hi.order.subset hc
    simpa using this
  obtain ⟨lt, ht, -⟩ := op_ctl_live true h0
  obtain ⟨lf, hff, -⟩ := op_ctl_live false h0
  rcases which with k | k | k | k
  · rcases h.out l c k with e | e <;> rw [e] at hf
    · cases hf
    · rw [hv, ops, hff] at hf; cases hf
  · rcases h.inn l c k with e | e | e | e <;> rw [e] at hf
    · cases hf
    · rw [k] at hc
      obtain ⟨l1, h1, -⟩ := op_del_live hc
      rw [ops, h1] at hf; cases hf
    · rw [hv, ops, ht] at hf; cases hf
    · obtain ⟨l1, h1, -⟩ := op_del_live h0
      rw [hv, ops, h1] at hf; cases hf
  · rcases h.diag l c k with e | e <;> rw [e] at hf
    · cases hf
    · rw [if_pos (live_iff.2 h0)] at hf
      rw [k] at hc
      obtain ⟨l1, h1, h1'⟩ := op_del_live h0
      rw [List.append_assoc, List.singleton_append, ops, h1, Res.ok_bind] at hf
      have hc1 := h1' _ hc (fun k => n02 k.symm)
      by_cases hx : live l v.a1 = true
      · rw [if_pos hx, List.singleton_append] at hf
        obtain ⟨l2, h2, h2'⟩ := op_del_live (h1' _ (live_iff.1 hx) (fun k => n01 k.symm))
        rw [ops, h2, Res.ok_bind] at hf
        obtain ⟨l3, h3, -⟩ := op_del_live (h2' _ hc1 (fun k => n12 k.symm))
        rw [ops, h3] at hf; cases hf
      · rw [if_neg hx, List.nil_append] at hf
        obtain ⟨l3, h3, -⟩ := op_del_live hc1
        rw [ops, h3] at hf; cases hf
  · rcases h.mtree l c k with ⟨n, e⟩ | e <;> rw [e, hv] at hf
    · clear ht hff hl hi hc hv e
      induction n generalizing l with
      | zero => cases hf
      | succ n ih =>
        obtain ⟨l1, h1, h2⟩ := op_ctl_live true h0
        rw [List.replicate_succ, ops, h1, Res.ok_bind] at hf
        exact ih (by rw [h2]; exact h0) hf
    · rw [k] at hc
      obtain ⟨l1, h1, h1'⟩ := op_del_live hc
      obtain ⟨l2, h2, -⟩ := op_ctl_live true (h1' _ h0 n0m)
      rw [ops, h1, Res.ok_bind, ops, h2] at hf
      cases hf

namespace EvExample

/-- The addresses 1 to 4. -/
def vars : StowVars where
  a0 := 1
  a1 := 2
  a2 := 3
  am := 4
  distinct := by decide

def loop0 : Loop := stowStart vars 10 11 12 13 0

/-- All descriptors are ready. -/
def all (fds : List (Nat × Nat)) : List Nat := fds.map (fun p => p.2)

/-- mtree has listed two files. -/
def lists : Turn := ⟨9, all, fun l c => if c.addr = 4 then [.ctl (varOf l 1) true, .ctl (varOf l 1) true] else []⟩

/-- The first event is waited for after it was enabled, and disabled again by its handler. -/
def sends : Turn := ⟨9, all, fun l c => if c.addr = 1 then [.ctl (varOf l 1) false] else []⟩

/-- C70, an example. -/
example : dispatch 0 loop0 [lists, sends, lists] = some (.ok (⟨[⟨1, 10, 4, true, none⟩, ⟨2, 11, 1, true, some 0⟩, ⟨3, 12, 1, true, some 1⟩, ⟨4, 13, 1, true, some 2⟩], 4⟩,
    [[⟨2, 11, 1⟩, ⟨3, 12, 1⟩, ⟨4, 13, 1⟩], [⟨1, 10, 4⟩, ⟨2, 11, 1⟩, ⟨3, 12, 1⟩, ⟨4, 13, 1⟩], [⟨2, 11, 1⟩, ⟨3, 12, 1⟩, ⟨4, 13, 1⟩]])) := by decide

/-- C70, the hypotheses hold for these handlers. -/
example : StowHand vars lists.hand ∧ StowHand vars sends.hand ∧ PollOk all := by
  refine ⟨⟨?_, ?_, ?_, ?_⟩, ⟨?_, ?_, ?_, ?_⟩, ?_⟩
  · intro l c h; left; simp [lists, show c.addr = 1 from h]
  · intro l c h; left; simp [lists, show c.addr = 2 from h]
  · intro l c h; left; simp [lists, show c.addr = 3 from h]
  · intro l c h
    left
    exact ⟨2, by simp [lists, show c.addr = 4 from h, vars, List.replicate]⟩
  · intro l c h; right; simp [sends, show c.addr = 1 from h, vars]
  · intro l c h; left; simp [sends, show c.addr = 2 from h]
  · intro l c h; left; simp [sends, show c.addr = 3 from h]
  · intro l c h; left; exact ⟨0, by simp [sends, show c.addr = 4 from h]⟩
  · intro fds; simp [all]

/-- The stevedore is gone: `diag` reads the end of file. -/
def lost : Turn := ⟨9, all, fun _ c => if c.addr = 3 then [.del 1, .del 2, .del 3] else []⟩

/-- A handler removes its own event and adds one, for which calloc(3) returns the same address; the new one is not called in this round. -/
example : dispatch 0 loop0 [⟨9, all, fun _ c => if c.addr = 2 then [.del 2, .add 2 20 1] else []⟩, ⟨9, all, fun _ _ => []⟩] =
    some (.ok (⟨[⟨1, 10, 4, false, none⟩, ⟨3, 12, 1, true, some 0⟩, ⟨4, 13, 1, true, some 1⟩, ⟨2, 20, 1, true, some 2⟩], 5⟩,
      [[⟨2, 11, 1⟩, ⟨3, 12, 1⟩, ⟨4, 13, 1⟩], [⟨3, 12, 1⟩, ⟨4, 13, 1⟩, ⟨2, 20, 1⟩]])) := by decide

/-- An event that is disabled by a handler before its turn is called all the same in that round. -/
example : (dispatch 0 loop0 [⟨9, all, fun _ c => if c.addr = 2 then [.ctl 3 false] else []⟩]).bind
    (fun r => match r with | .ok x => some x.2 | _ => none) = some [[⟨2, 11, 1⟩, ⟨3, 12, 1⟩, ⟨4, 13, 1⟩]] := by decide

end EvExample

open EvExample

/-- C70 is false for handlers that may remove any event: when the handler of the second removes the third, that is used after it was freed. -/
theorem C70_counterexample_next : dispatch 0 loop0 [⟨9, all, fun _ c => if c.addr = 2 then [.del 3] else []⟩] = some .ub := by decide

/-- C70: when the connection to the stevedore is lost before mtree has ended, `stow` does not report it but aborts: `mtree_in` enables an event that
is gone. -/
theorem C70_counterexample_lost : dispatch 0 loop0 [lost, lists] = some .fail := by decide

end Verif.Props
