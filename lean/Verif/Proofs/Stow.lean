/-
The filter exchange (Model/Stow.lean): what the messages in flight say about the items the client
waits for.
-/
import Verif.Model.Stow
import Verif.Proofs.Bytes

namespace Verif.Stow
open Verif

/-- The messages `ms`, when the client gets them, resolve the first ones of the waiting items `A` as it is
written there (`true` for missing), and the remaining ones are all present. -/
inductive Explains (n : Nat) : List (Item × Bool) → List Bytes → Prop
  | nil (A : List (Item × Bool)) (h : ∀ a ∈ A, a.2 = false) : Explains n A []
  | line (ps : List (Item × Bool)) (x : Item) (A : List (Item × Bool)) (ms : List Bytes)
      (hp : ∀ a ∈ ps, a.2 = false ∧ a.1.digest.length = 64 ∧ a.1.digest.take n ≠ x.digest.take n)
      (hx : x.digest.length = 64) (h : Explains n A ms) :
      Explains n (ps ++ (x, true) :: A) (x.digest.take n :: ms)
  | skip (ps A : List (Item × Bool)) (ms : List Bytes) (hp : ∀ a ∈ ps, a.2 = false)
      (hl : ps.length < 2 ^ 32) (h : Explains n A ms) :
      Explains n (ps ++ A) (beEnc 4 ps.length :: ms)
  | fin (A : List (Item × Bool)) (h : ∀ a ∈ A, a.2 = false) (e : Item) (he : e.digest = []) :
      Explains n (A ++ [(e, false)]) [[]]

/-- What a filter job prints for these verdicts, with the message at its end. -/
def verdictMsgs (n : Nat) (V : List (Item × Bool)) : List Bytes :=
  if V.filter (·.2) = [] then [beEnc 4 V.length] else (V.filter (·.2)).map (fun a => a.1.digest.take n)

theorem explains_lines {n : Nat} : ∀ (V : List (Item × Bool)) (P : List (Item × Bool)),
    (∀ a ∈ P, a.2 = false ∧ a.1.digest.length = 64) → (∀ a ∈ V, a.1.digest.length = 64) →
    (∀ a ∈ P ++ V, ∀ b ∈ V, a.2 = false → b.2 = true → a.1.digest.take n ≠ b.1.digest.take n) →
    Explains n (P ++ V) ((V.filter (·.2)).map (fun a => a.1.digest.take n)) := by
  intro V
  induction V with
  | nil =>
    intro P hP _ _
    exact Explains.nil _ (fun a ha => (hP a (by simpa using ha)).1)
  | cons v V ih =>
    intro P hP hV hd
    obtain ⟨x, b⟩ := v
    cases b with
    | false =>
      have := ih (P ++ [(x, false)]) (by
          intro a ha
          rcases List.mem_append.1 ha with h | h
          · exact hP a h
          · rw [List.mem_singleton.1 h]; exact ⟨rfl, hV _ (by simp)⟩)
        (fun a ha => hV a (by simp [ha]))
        (fun a ha b hb => hd a (by simpa using ha) b (by simp [hb]))
      simpa using this
    | true =>
      have hrec := ih [] (by simp) (fun a ha => hV a (by simp [ha]))
        (fun a ha b hb => hd a (by simp at ha; simp [ha]) b (by simp [hb]))
      have := Explains.line (n := n) P x V _ (fun a ha => ⟨(hP a ha).1, (hP a ha).2,
        hd a (by simp [ha]) (x, true) (by simp) (hP a ha).1 rfl⟩) (hV (x, true) (by simp)) hrec
      simpa using this

theorem explains_present {n : Nat} {A : List (Item × Bool)} (h : Explains n A []) :
    ∀ a ∈ A, a.2 = false := by
  generalize hm : ([] : List Bytes) = ms at h
  cases h with
  | nil _ h => exact h
  | line => cases hm
  | skip => cases hm
  | fin => cases hm

/-- A job that has looked at the index adds its items and its messages. -/
theorem explains_append {n : Nat} {A : List (Item × Bool)} {ms : List Bytes} (h : Explains n A ms)
    (hno : [] ∉ ms) (V : List (Item × Bool)) (hA : ∀ a ∈ A, a.1.digest.length = 64)
    (hV : ∀ a ∈ V, a.1.digest.length = 64) (hl : V.length < 2 ^ 32)
    (hd : ∀ a ∈ A ++ V, ∀ b ∈ V, a.2 = false → b.2 = true → a.1.digest.take n ≠ b.1.digest.take n) :
    Explains n (A ++ V) (ms ++ verdictMsgs n V) := by
  induction h with
  | nil A hp =>
    rw [List.nil_append, verdictMsgs]
    split
    · rename_i hnone
      have hVp : ∀ a ∈ V, a.2 = false := by
        intro a ha
        cases hb : a.2 with
        | false => rfl
        | true =>
          have : a ∈ V.filter (·.2) := List.mem_filter.2 ⟨ha, hb⟩
          rw [hnone] at this; cases this
      have hall : ∀ a ∈ A ++ V, a.2 = false := by
        intro a ha
        rcases List.mem_append.1 ha with h | h
        · exact hp a h
        · exact hVp a h
      have hlen : ((A ++ V).take V.length).length = V.length := by
        rw [List.length_take, List.length_append]; omega
      have := Explains.skip (n := n) ((A ++ V).take V.length) ((A ++ V).drop V.length) []
        (fun a ha => hall a (List.mem_of_mem_take ha)) (by rw [hlen]; exact hl)
        (Explains.nil _ (fun a ha => hall a (List.mem_of_mem_drop ha)))
      rwa [List.take_append_drop, hlen] at this
    · exact explains_lines V A (fun a ha => ⟨hp a ha, hA a ha⟩) hV hd
  | line ps x A ms hp hx h ih =>
    have := ih (fun hm => hno (by simp [hm])) (fun a ha => hA a (by simp [ha]))
      (fun a ha b hb => hd a (by
        rcases List.mem_append.1 ha with h | h <;> simp [h]) b hb)
    have := Explains.line (n := n) ps x (A ++ V) _ hp hx this
    simpa using this
  | skip ps A ms hp hl' h ih =>
    have := ih (fun hm => hno (by simp [hm])) (fun a ha => hA a (by simp [ha]))
      (fun a ha b hb => hd a (by
        rcases List.mem_append.1 ha with h | h <;> simp [h]) b hb)
    have := Explains.skip (n := n) ps (A ++ V) _ hp hl' this
    simpa using this
  | fin A hp e he => exact absurd (by simp) hno

/-- The answer to the end mark. -/
theorem explains_fin {n : Nat} {A : List (Item × Bool)} {ms : List Bytes} (h : Explains n A ms)
    (hno : [] ∉ ms) (e : Item) (he : e.digest = []) :
    Explains n (A ++ [(e, false)]) (ms ++ [[]]) := by
  induction h with
  | nil A hp => exact Explains.fin A hp e he
  | line ps x A ms hp hx h ih =>
    have := Explains.line (n := n) ps x _ _ hp hx (ih (fun hm => hno (by simp [hm])))
    simpa using this
  | skip ps A ms hp hl' h ih =>
    have := Explains.skip (n := n) ps _ _ hp hl' (ih (fun hm => hno (by simp [hm])))
    simpa using this
  | fin A hp e he => exact absurd (by simp) hno

/-- If an answer to the end mark is in flight, the last waiting item that is explained is the end mark. -/
theorem explains_fin_mem {n : Nat} {A : List (Item × Bool)} {ms : List Bytes} (h : Explains n A ms)
    (hn : 0 < n) (hm : [] ∈ ms) : ∃ A' e, A = A' ++ [(e, false)] ∧ e.digest = [] := by
  induction h with
  | nil A hp => cases hm
  | line ps x A ms hp hx h ih =>
    rcases List.mem_cons.1 hm with h0 | h0
    · have := congrArg List.length h0
      rw [List.length_take, hx] at this
      simp only [List.length_nil] at this
      omega
    · obtain ⟨A', e, rfl, he⟩ := ih h0
      exact ⟨ps ++ (x, true) :: A', e, by simp, he⟩
  | skip ps A ms hp hl' h ih =>
    rcases List.mem_cons.1 hm with h0 | h0
    · have := congrArg List.length h0
      rw [beEnc_length] at this
      simp at this
    · obtain ⟨A', e, rfl, he⟩ := ih h0
      exact ⟨ps ++ A', e, by simp, he⟩
  | fin A hp e he => exact ⟨A, e, rfl, he⟩

/-! ### The client -/

theorem flushAll_eq : ∀ (w : List Item) (c : Client), c.wait = w →
    (flushAll w c).wait = [] ∧ (flushAll w c).flushed = c.flushed ++ w ∧
    (flushAll w c).get = c.get ∧ (flushAll w c).subj = c.subj ∧ (flushAll w c).idSize = c.idSize := by
  intro w
  induction w with
  | nil => intro c h; exact ⟨h, by simp [flushAll], rfl, rfl, rfl⟩
  | cons x w ih =>
    intro c h
    obtain ⟨h1, h2, h3, h4, h5⟩ := ih (subjFlush c x w) rfl
    refine ⟨h1, ?_, h3, h4, h5⟩
    rw [flushAll, h2]
    simp [subjFlush]

theorem flushN_eq : ∀ (u v : List Item) (c : Client), c.wait = u ++ v →
    ∃ c', flushN u.length (u ++ v) c = .ok c' ∧ c'.wait = v ∧ c'.flushed = c.flushed ++ u ∧
      c'.get = c.get ∧ c'.subj = c.subj ∧ c'.idSize = c.idSize := by
  intro u
  induction u with
  | nil => intro v c h; exact ⟨c, by simp [flushN], by simpa using h, by simp, rfl, rfl, rfl⟩
  | cons x u ih =>
    intro v c h
    obtain ⟨c', h1, h2, h3, h4, h5, h6⟩ := ih v (subjFlush c x (u ++ v)) rfl
    refine ⟨c', h1, h2, ?_, h4, h5, h6⟩
    rw [h3]; simp [subjFlush]

theorem take_nul {d : Bytes} {k : Nat} (h : k ≤ d.length) : (d ++ [0]).take k = d.take k := by
  rw [List.take_append_of_le_length h]

theorem flushTo_eq {n : Nat} (hn : n ≤ 64) (x : Item) (hx : x.digest.length = 64) :
    ∀ (u v : List Item) (c : Client), c.wait = u ++ x :: v →
      (∀ y ∈ u, y.digest.length = 64 ∧ y.digest.take n ≠ x.digest.take n) →
      ∃ c', flushTo (x.digest.take n) (u ++ x :: v) c = .ok c' ∧ c'.wait = v ∧
        c'.flushed = c.flushed ++ u ∧ c'.get = c.get ++ [x] ∧ c'.subj = c.subj ∧
        c'.idSize = c.idSize := by
  have hlen : (x.digest.take n).length = n := by rw [List.length_take, hx]; omega
  intro u
  induction u with
  | nil =>
    intro v c h _
    refine ⟨{ c with wait := v, get := c.get ++ [x] }, ?_, rfl, by simp, rfl, rfl, rfl⟩
    rw [List.nil_append, flushTo, hlen, decide_eq_true (by omega), take_nul (by omega), if_pos rfl]
    rfl
  | cons y u ih =>
    intro v c h hu
    obtain ⟨hy, hne⟩ := hu y (by simp)
    obtain ⟨c', h1, h2, h3, h4, h5, h6⟩ := ih v (subjFlush c y (u ++ x :: v)) rfl
      (fun z hz => hu z (by simp [hz]))
    refine ⟨c', ?_, h2, ?_, h4, h5, h6⟩
    · rw [List.cons_append, flushTo, hlen, decide_eq_true (by omega), take_nul (by omega), if_neg hne]
      exact h1
    · rw [h3]; simp [subjFlush]

/-- The client gets the next message. -/
theorem filterResp_spec {n : Nat} (hn : 16 ≤ n) (hn' : n ≤ 64) {A : List (Item × Bool)} {m : Bytes}
    {ms : List Bytes} (h : Explains n A (m :: ms)) (c : Client) (B : List Item)
    (hw : c.wait = A.map (·.1) ++ B) (hB : m = [] → B = []) :
    ∃ c' A1 A2, filterResp c m = .ok c' ∧ A = A1 ++ A2 ∧ Explains n A2 ms ∧
      c'.wait = A2.map (·.1) ++ B ∧ c'.get = c.get ++ (A1.filter (·.2)).map (·.1) ∧
      c'.flushed = c.flushed ++ (A1.filter (fun a => !a.2)).map (·.1) ∧ c'.subj = c.subj ∧
      (c'.idSize = c.idSize ∨ c'.idSize = n) ∧ (m = [] → A2 = []) := by
  have hfilter : ∀ ps : List (Item × Bool), (∀ a ∈ ps, a.2 = false) →
      ps.filter (·.2) = [] ∧ ps.filter (fun a => !a.2) = ps := by
    intro ps hp
    constructor
    · exact List.filter_eq_nil_iff.2 (fun a ha => by simp [hp a ha])
    · exact List.filter_eq_self.2 (fun a ha => by simp [hp a ha])
  generalize hms : m :: ms = mm at h
  cases h with
  | nil => cases hms
  | line ps x A ms' hp hx h =>
    injection hms with e1 e2
    subst e1 e2
    have hlen : (x.digest.take n).length = n := by rw [List.length_take, hx]; omega
    obtain ⟨c', h1, h2, h3, h4, h5, h6⟩ := flushTo_eq hn' x hx (ps.map (·.1)) (A.map (·.1) ++ B)
      { c with idSize := (x.digest.take n).length } (by simp [hw]) (by
        intro y hy
        obtain ⟨a, ha, rfl⟩ := List.mem_map.1 hy
        exact (hp a ha).2)
    obtain ⟨f1, f2⟩ := hfilter ps (fun a ha => (hp a ha).1)
    refine ⟨c', ps ++ [(x, true)], A, ?_, by simp, h, h2, ?_, ?_, h5, Or.inr ?_, ?_⟩
    · rw [filterResp, if_neg (by omega), if_neg (by omega), if_pos (by omega)]
      rw [show ps.map (·.1) ++ x :: (A.map (·.1) ++ B) = c.wait by simp [hw]] at h1
      exact h1
    · rw [h4]; simp [f1]
    · rw [h3]; simp [f2]
    · rw [h6]; exact hlen
    · intro h0; rw [h0] at hlen; simp at hlen; omega
  | skip ps A ms' hp hl h =>
    injection hms with e1 e2
    subst e1 e2
    obtain ⟨c', h1, h2, h3, h4, h5, h6⟩ := flushN_eq (ps.map (·.1)) (A.map (·.1) ++ B) c (by simp [hw])
    obtain ⟨f1, f2⟩ := hfilter ps hp
    refine ⟨c', ps, A, ?_, rfl, h, h2, ?_, ?_, h5, Or.inl h6, ?_⟩
    · rw [filterResp, if_neg (by rw [beEnc_length]; decide), if_pos (by rw [beEnc_length]), beDec_beEnc,
        Nat.mod_eq_of_lt (by omega), hw]
      rw [← h1]; simp
    · rw [h4]; simp [f1]
    · rw [h3]; simp [f2]
    · intro h0
      have := congrArg List.length h0
      rw [beEnc_length] at this; simp at this
  | fin A hp e he =>
    injection hms with e1 e2
    subst e1 e2
    have hB := hB rfl
    subst hB
    obtain ⟨h2, h3, h4, h5, h6⟩ := flushAll_eq c.wait c rfl
    obtain ⟨f1, f2⟩ := hfilter (A ++ [(e, false)]) (by
      intro a ha
      rcases List.mem_append.1 ha with h | h
      · exact hp a h
      · rw [List.mem_singleton.1 h])
    refine ⟨flushAll c.wait c, A ++ [(e, false)], [], ?_, by simp, Explains.nil _ (by simp), by simp [h2],
      ?_, ?_, h5, Or.inl h6, fun _ => rfl⟩
    · rw [filterResp, if_pos (by rfl)]
    · rw [h4, f1]; simp
    · rw [h3, f2, hw]; simp

/-! ### The whole system -/

/-- What the client sends for an item. -/
def Sent (n : Nat) (x : Item) (t : Bytes) : Prop :=
  (x.digest = [] ∧ t = []) ∨ (x.digest.length = 64 ∧ n ≤ t.length ∧ t.length ≤ 64 ∧ t = x.digest.take t.length)

theorem Sent.take {n : Nat} {x : Item} {t : Bytes} (h : Sent n x t) : t.take n = x.digest.take n := by
  rcases h with ⟨h1, h2⟩ | ⟨_, h2, _, h3⟩
  · rw [h1, h2]
  · rw [h3, List.take_take, Nat.min_eq_left h2]

theorem Sent.nil {n : Nat} {x : Item} {t : Bytes} (hn : 0 < n) (h : Sent n x t) :
    t = [] ↔ x.digest = [] := by
  rcases h with ⟨h1, h2⟩ | ⟨h1, h2, _, h3⟩
  · simp [h1, h2]
  · constructor
    · intro h; rw [h] at h2; simp at h2; omega
    · intro h; rw [h] at h1; simp at h1

theorem Sent.len {n : Nat} {x : Item} {t : Bytes} (h : Sent n x t) (ht : t ≠ []) :
    x.digest.length = 64 ∧ n ≤ t.length ∧ t.length ≤ 64 := by
  rcases h with ⟨_, h2⟩ | ⟨h1, h2, h3, _⟩
  · exact absurd h2 ht
  · exact ⟨h1, h2, h3⟩

/-- Items and what was sent for them. -/
def SentAll (n : Nat) : List Item → List Bytes → Prop
  | [], [] => True
  | x :: xs, t :: ts => Sent n x t ∧ SentAll n xs ts
  | _, _ => False

theorem sentAll_append {n : Nat} : ∀ {xs ys : List Item} {ts us : List Bytes}, SentAll n xs ts →
    SentAll n ys us → SentAll n (xs ++ ys) (ts ++ us)
  | [], _, [], _, _, h => h
  | _ :: _, _, _ :: _, _, h1, h2 => ⟨h1.1, sentAll_append h1.2 h2⟩
  | [], _, _ :: _, _, h1, _ => h1.elim
  | _ :: _, _, [], _, h1, _ => h1.elim

theorem sentAll_split {n : Nat} : ∀ {xs : List Item} {ts us : List Bytes}, SentAll n xs (ts ++ us) →
    ∃ x1 x2, xs = x1 ++ x2 ∧ SentAll n x1 ts ∧ SentAll n x2 us
  | xs, [], us, h => ⟨[], xs, rfl, trivial, h⟩
  | [], _ :: _, _, h => h.elim
  | x :: xs, t :: ts, us, h => by
    obtain ⟨x1, x2, rfl, h1, h2⟩ := sentAll_split h.2
    exact ⟨x :: x1, x2, rfl, ⟨h.1, h1⟩, h2⟩

/-- The messages the filter job will still cause. -/
def jobMsgs (n : Nat) : Option Job → List Bytes
  | some ⟨_, some (l :: ls), _⟩ => (l :: ls).map (List.take n)
  | some ⟨_, some [], skip⟩ => if skip ≠ 0 then [beEnc 4 skip] else []
  | _ => []

/-- What the filter job has not looked at. -/
def jobIn : Option Job → List Bytes
  | some ⟨inp, none, _⟩ => inp
  | _ => []

/-- The state of the job fits. -/
def JobOk (n max : Nat) : Option Job → Prop
  | some ⟨inp, none, skip⟩ => inp ≠ [] ∧ skip = inp.length ∧ inp.length ≤ max ∧ [] ∉ inp
  | some ⟨_, some ls, skip⟩ => (∀ l ∈ ls, n ≤ l.length ∧ l.length ≤ 64) ∧ skip < 2 ^ 32
  | none => True

/-- The items: any number of them with SHA256 digests in hexadecimal, then the end mark. -/
def EndLast (I : List Item) : Prop :=
  ∃ I1 e, I = I1 ++ [e] ∧ (∀ x ∈ I1, x.digest.length = 64) ∧ e.digest = []

theorem EndLast.last {I X Y : List Item} {x : Item} (h : EndLast I) (hx : I = X ++ x :: Y)
    (he : x.digest = []) : Y = [] := by
  obtain ⟨I1, e, rfl, h1, _⟩ := h
  rcases List.eq_nil_or_concat Y with rfl | ⟨Y', z, rfl⟩
  · rfl
  · have : I1 = X ++ x :: Y' := by
      have h2 : I1 ++ [e] = (X ++ x :: Y') ++ [z] := by rw [hx]; simp
      exact (List.append_inj' h2 rfl).1
    have := h1 x (by rw [this]; simp)
    rw [he] at this; simp at this

theorem EndLast.len {I : List Item} (h : EndLast I) {x : Item} (hx : x ∈ I) (he : x.digest ≠ []) :
    x.digest.length = 64 := by
  obtain ⟨I1, e, rfl, h1, h2⟩ := h
  rcases List.mem_append.1 hx with h | h
  · exact h1 x h
  · rw [List.mem_singleton.1 h] at he; exact absurd h2 he

/-- The invariant.  `R` are the items the client is done with, `A` the ones on which the server has come
to a verdict but which still wait, `B` the ones sent on which there is no verdict yet. -/
structure Inv (n max : Nat) (I : List Item) (s : Sys) (R A : List (Item × Bool)) (B : List Item) :
    Prop where
  all : I = R.map (·.1) ++ A.map (·.1) ++ B ++ s.cl.subj
  wait : s.cl.wait = A.map (·.1) ++ B
  get : s.cl.get = (R.filter (·.2)).map (·.1)
  flushed : s.cl.flushed = (R.filter (fun a => !a.2)).map (·.1)
  expl : Explains n A (s.down ++ jobMsgs n s.sv.job)
  pres : ∀ a ∈ A, a.2 = false → a.1.digest ≠ [] → s.known (a.1.digest.take n) = true
  ids : SentAll n B (jobIn s.sv.job ++ s.sv.queue ++ s.up)
  log : s.log = ((R ++ A).filter (fun a => a.1.digest ≠ [])).map (fun a => (a.1.digest.take n, a.2))
  idSize : s.cl.idSize = 64 ∨ s.cl.idSize = n
  fin : ∀ a ∈ R ++ A, a.1.digest = [] → a.2 = false
  pend : (∃ a ∈ A, a.1.digest = []) → [] ∈ s.down
  busy : s.sv.queue ≠ [] → s.sv.job ≠ none
  job : JobOk n max s.sv.job

theorem Inv.mem {n max : Nat} {I : List Item} {s : Sys} {R A : List (Item × Bool)} {B : List Item}
    (h : Inv n max I s R A B) {a : Item × Bool} (ha : a ∈ A) : a.1 ∈ I := by
  rw [h.all]; simp only [List.mem_append, List.mem_map]; exact Or.inl (Or.inl (Or.inr ⟨a, ha, rfl⟩))

/-- While there are items without verdict or not sent, no answer to the end mark is in flight, and all
items with a verdict are proper ones. -/
theorem Inv.open {n max : Nat} {I : List Item} {s : Sys} {R A : List (Item × Bool)} {B : List Item}
    (h : Inv n max I s R A B) (hn : 0 < n) (hI : EndLast I) (hB : B ++ s.cl.subj ≠ []) :
    [] ∉ s.down ++ jobMsgs n s.sv.job ∧ ∀ a ∈ A, a.1.digest.length = 64 := by
  constructor
  · intro hm
    obtain ⟨A', e, rfl, he⟩ := explains_fin_mem h.expl hn hm
    apply hB
    apply hI.last (X := R.map (·.1) ++ A'.map (·.1)) (x := e) _ he
    rw [h.all]; simp
  · intro a ha
    apply hI.len (h.mem ha)
    intro he
    obtain ⟨A1, A2, rfl⟩ := List.append_of_mem ha
    have := hI.last (X := R.map (·.1) ++ A1.map (·.1)) (x := a.1) (Y := A2.map (·.1) ++ (B ++ s.cl.subj))
      (by rw [h.all]; simp) he
    exact hB (List.append_eq_nil_iff.1 this).2

theorem inv_start (n max : Nat) (files : List Item) (tree : Bytes) (known : Bytes → Bool) :
    Inv n max (files ++ [⟨false, [], tree⟩, ⟨false, [], []⟩]) (start files tree known) [] [] [] :=
  { all := by simp [start], wait := rfl, get := rfl, flushed := rfl, expl := Explains.nil _ (by simp),
    pres := by simp, ids := trivial, log := rfl, idSize := Or.inl rfl, fin := by simp, pend := by simp, busy := by simp [start],
    job := trivial }

/-! ### The steps -/

theorem nil_not_mem_takeWhile : ∀ q : List Bytes, [] ∉ q.takeWhile (fun f => f ≠ [])
  | [] => by simp
  | f :: q => by
    rw [List.takeWhile_cons]
    split
    · rename_i h
      intro hm
      rcases List.mem_cons.1 hm with h0 | h0
      · simp [← h0] at h
      · exact nil_not_mem_takeWhile q h0
    · simp

/-- Starting a job from the queue (or answering the end mark). -/
theorem startFilter_spec {n max : Nat} (hn : 0 < n) (hmax : 0 < max) {q : List Bytes} {X : List Item}
    {up : List Bytes} (hids : SentAll n X (q ++ up))
    (hlast : ∀ x1 x x2, X = x1 ++ x :: x2 → x.digest = [] → x2 = []) :
    (∃ e, q = [[]] ∧ up = [] ∧ X = [e] ∧ e.digest = [] ∧ startFilter max q = ([[]], ⟨[], none⟩)) ∨
    (∃ v, startFilter max q = ([], v) ∧ jobIn v.job ++ v.queue = q ∧ jobMsgs n v.job = [] ∧
      JobOk n max v.job ∧ (v.queue ≠ [] → v.job ≠ none)) := by
  cases q with
  | nil => exact Or.inr ⟨⟨[], none⟩, rfl, rfl, rfl, trivial, by simp⟩
  | cons f q =>
    cases X with
    | nil => exact hids.elim
    | cons x X =>
      by_cases hf : f = []
      · subst hf
        have hx : x.digest = [] := (hids.1.nil hn).1 rfl
        have hX := hlast [] x X rfl hx
        subst hX
        have hqu : q ++ up = [] := by
          cases hq : q ++ up with
          | nil => rfl
          | cons a b =>
            have h2 : SentAll n [] (q ++ up) := hids.2
            rw [hq] at h2; exact h2.elim
        obtain ⟨rfl, rfl⟩ := List.append_eq_nil_iff.1 hqu
        exact Or.inl ⟨x, rfl, rfl, rfl, hx, rfl⟩
      · obtain ⟨c, f', rfl⟩ := List.exists_cons_of_ne_nil hf
        right
        obtain ⟨batch, hb⟩ : ∃ b, b = (((c :: f') :: q).takeWhile (fun f => f ≠ [])).take max := ⟨_, rfl⟩
        have hpre : batch <+: (c :: f') :: q := by
          rw [hb]; exact (List.take_prefix _ _).trans (List.takeWhile_prefix _)
        obtain ⟨m, hm⟩ : ∃ m, max = m + 1 := ⟨max - 1, by omega⟩
        refine ⟨⟨((c :: f') :: q).drop batch.length, some ⟨batch, none, batch.length⟩⟩, ?_, ?_, rfl,
          ⟨?_, rfl, ?_, ?_⟩, by simp⟩
        · rw [startFilter]
          · simp only [hb]
          · intro hq'; cases hq'
          · intro q' hq'; cases hq'
        · obtain ⟨t, ht⟩ := hpre
          simp only [jobIn]
          conv => lhs; rw [← ht]
          rw [List.drop_left]
          exact ht
        · rw [hb, hm]; simp
        · rw [hb, List.length_take]; omega
        · intro hmem
          rw [hb] at hmem
          have := List.mem_of_mem_take hmem
          exact nil_not_mem_takeWhile _ this

theorem sentAll_missing {n : Nat} (known : Bytes → Bool) : ∀ {X : List Item} {ts : List Bytes},
    SentAll n X ts →
    (missing n known ts).map (List.take n) =
      ((X.map (fun x => (x, !known (x.digest.take n)))).filter (·.2)).map (fun a => a.1.digest.take n) ∧
    ts.map (fun l => (l.take n, !known (l.take n))) =
      X.map (fun x => (x.digest.take n, !known (x.digest.take n))) ∧ X.length = ts.length
  | [], [], _ => ⟨rfl, rfl, rfl⟩
  | x :: X, t :: ts, h => by
    obtain ⟨h1, h2, h3⟩ := sentAll_missing known h.2
    have ht := h.1.take
    refine ⟨?_, ?_, by simp [h3]⟩
    · simp only [missing, List.map_cons, List.filter_cons, ht] at h1 ⊢
      split
      · simp only [List.map_cons, ht, h1]
      · exact h1
    · simp only [List.map_cons, ht, h2]
  | [], _ :: _, h => h.elim
  | _ :: _, [], h => h.elim

theorem sentAll_len {n : Nat} : ∀ {X : List Item} {ts : List Bytes}, SentAll n X ts → [] ∉ ts →
    (∀ x ∈ X, x.digest.length = 64) ∧ ∀ t ∈ ts, n ≤ t.length ∧ t.length ≤ 64
  | [], [], _, _ => ⟨by simp, by simp⟩
  | x :: X, t :: ts, h, hno => by
    obtain ⟨h1, h2⟩ := sentAll_len h.2 (fun hm => hno (by simp [hm]))
    obtain ⟨l1, l2⟩ := h.1.len (fun ht => hno (by simp [ht]))
    constructor
    · intro y hy
      rcases List.mem_cons.1 hy with rfl | hy
      · exact l1
      · exact h1 y hy
    · intro y hy
      rcases List.mem_cons.1 hy with rfl | hy
      · exact l2
      · exact h2 y hy
  | [], _ :: _, h, _ => h.elim
  | _ :: _, [], h, _ => h.elim

theorem sentAll_nil {n : Nat} {X : List Item} (h : SentAll n X []) : X = [] := by
  cases X with
  | nil => rfl
  | cons => exact h.elim

/-- The server, without a job, starts one (or answers the end mark): used after a message and after the
end of a job. -/
theorem inv_startFilter {n max : Nat} (hn : 0 < n) (hmax : 0 < max) {I : List Item} (hI : EndLast I)
    {s : Sys} {R A : List (Item × Bool)} {B : List Item} {q up down : List Bytes}
    (h : Inv n max I { s with sv := ⟨[], none⟩, up := q ++ up, down := down } R A B) (hq : q ≠ []) :
    ∃ A' B', Inv n max I { s with sv := (startFilter max q).2, up := up,
                                  down := down ++ (startFilter max q).1 } R A' B' := by
  have hids : SentAll n B (q ++ up) := by simpa [jobIn] using h.ids
  have hBne : B ≠ [] := by
    rintro rfl
    cases hqu : q ++ up with
    | nil => exact hq (List.append_eq_nil_iff.1 hqu).1
    | cons a b => rw [hqu] at hids; exact hids.elim
  have hopen := h.open hn hI (by simp [hBne])
  have hexpl : Explains n A down := by simpa [jobMsgs] using h.expl
  have hno : [] ∉ down := by simpa [jobMsgs] using hopen.1
  rcases startFilter_spec (n := n) hn hmax hids (by
      intro x1 x x2 hx hd
      have := hI.last (X := R.map (·.1) ++ A.map (·.1) ++ x1) (x := x) (Y := x2 ++ s.cl.subj)
        (by rw [h.all, hx]; simp) hd
      exact (List.append_eq_nil_iff.1 this).1) with ⟨e, rfl, rfl, rfl, he, hs⟩ | ⟨v, hs, hv, hm, hj, hb⟩
  · refine ⟨A ++ [(e, false)], [], ?_⟩
    rw [hs]
    exact
      { all := by rw [h.all]; simp
        wait := by have := h.wait; simp only at this ⊢; rw [this]; simp
        get := h.get, flushed := h.flushed
        expl := by simpa [jobMsgs] using explains_fin hexpl hno e he
        pres := by
          intro a ha
          rcases List.mem_append.1 ha with h' | h'
          · exact h.pres a h'
          · rw [List.mem_singleton.1 h']; intro _ h2; exact absurd he h2
        ids := trivial
        log := by have := h.log; simp only at this ⊢; rw [this]; simp [he]
        idSize := h.idSize
        fin := by
          intro a ha
          rw [← List.append_assoc] at ha
          rcases List.mem_append.1 ha with h' | h'
          · exact h.fin a h'
          · rw [List.mem_singleton.1 h']; exact fun _ => rfl
        pend := fun _ => by simp
        busy := by simp, job := trivial }
  · refine ⟨A, B, ?_⟩
    rw [hs]
    exact
      { all := h.all, wait := h.wait, get := h.get, flushed := h.flushed
        expl := by simpa [hm] using hexpl
        pres := h.pres
        ids := by rw [hv]; exact hids
        log := h.log, idSize := h.idSize, fin := h.fin, pend := fun ha => List.mem_append_left _ (h.pend ha), busy := hb, job := hj }

theorem inv_send {n max : Nat} (hn' : n ≤ 64) {I : List Item} (hI : EndLast I) {s : Sys}
    {R A : List (Item × Bool)} {B : List Item} (h : Inv n max I s R A B) {r : Res Sys}
    (hs : step n max s .send = some r) : ∃ s' B', r = .ok s' ∧ Inv n max I s' R A B' := by
  simp only [step] at hs
  cases hsub : s.cl.subj with
  | nil => rw [hsub] at hs; cases hs
  | cons cp rest =>
    rw [hsub] at hs
    injection hs with hs
    refine ⟨_, B ++ [cp], hs.symm, ?_⟩
    have hall : I = R.map (·.1) ++ A.map (·.1) ++ (B ++ [cp]) ++ rest := by rw [h.all, hsub]; simp
    have hsent : Sent n cp (cp.digest.take s.cl.idSize) := by
      by_cases hd : cp.digest = []
      · left; exact ⟨hd, by rw [hd]; simp⟩
      · right
        have := hI.len (x := cp) (by rw [hall]; simp) hd
        rw [List.length_take, this]
        rcases h.idSize with h' | h' <;> rw [h']
        · exact ⟨rfl, by omega, by omega, by simp⟩
        · refine ⟨rfl, by omega, by omega, by rw [Nat.min_eq_left hn']⟩
    exact
      { all := hall
        wait := by simp [h.wait]
        get := h.get, flushed := h.flushed, expl := h.expl, pres := h.pres
        ids := by
          have := sentAll_append h.ids (ys := [cp]) (us := [cp.digest.take s.cl.idSize]) ⟨hsent, trivial⟩
          simpa using this
        log := h.log, idSize := h.idSize, fin := h.fin, pend := h.pend, busy := h.busy, job := h.job }

theorem inv_recv {n max : Nat} (hn : 0 < n) (hmax : 0 < max) {I : List Item} (hI : EndLast I) {s : Sys}
    {R A : List (Item × Bool)} {B : List Item} (h : Inv n max I s R A B) {r : Res Sys}
    (hs : step n max s .recv = some r) : ∃ s' A' B', r = .ok s' ∧ Inv n max I s' R A' B' := by
  simp only [step] at hs
  cases hup : s.up with
  | nil => rw [hup] at hs; cases hs
  | cons p up =>
    rw [hup] at hs
    injection hs with hs
    have hids := h.ids
    rw [hup] at hids
    have hp : p.length = 0 ∨ (n ≤ p.length ∧ p.length ≤ 64) := by
      obtain ⟨x1, x2, _, _, h2⟩ := sentAll_split hids
      cases x2 with
      | nil => exact h2.elim
      | cons x x2 =>
        by_cases hp : p = []
        · left; rw [hp]; rfl
        · exact Or.inr (h2.1.len hp).2
    cases hj : s.sv.job with
    | none =>
      have hq : s.sv.queue = [] := by
        cases hq : s.sv.queue with
        | nil => rfl
        | cons a b => exact absurd hj (h.busy (by simp [hq]))
      have hin : input n max s.sv p = .ok (startFilter max [p]) := by
        rw [input, decide_eq_true hp, hj, hq]; rfl
      rw [hin] at hs
      have hsv : s.sv = ⟨[], none⟩ := by
        rw [← hq, ← hj]
      obtain ⟨A', B', h'⟩ := inv_startFilter hn hmax hI (s := s) (R := R) (A := A) (B := B) (q := [p])
        (up := up) (down := s.down) (by
          have e : ({ s with sv := ⟨[], none⟩, up := [p] ++ up, down := s.down } : Sys) = s := by
            rw [← hsv]
            show ({ s with up := p :: up } : Sys) = s
            rw [← hup]
          rw [e]; exact h) (by simp)
      exact ⟨_, A', B', hs.symm, h'⟩
    | some j =>
      have hin : input n max s.sv p = .ok ([], { s.sv with queue := s.sv.queue ++ [p] }) := by
        rw [input, decide_eq_true hp]
        simp only [hj]
        rfl
      rw [hin] at hs
      refine ⟨_, A, B, hs.symm, ?_⟩
      exact
        { all := h.all, wait := h.wait, get := h.get, flushed := h.flushed
          expl := by simpa using h.expl
          pres := h.pres
          ids := by simpa using hids
          log := h.log, idSize := h.idSize, fin := h.fin, pend := fun ha => List.mem_append_left _ (h.pend ha), busy := by simp [hj], job := h.job }

theorem inv_run {n max : Nat} (hn : 0 < n) (hmax : max < 2 ^ 32) {I : List Item} (hI : EndLast I) {s : Sys}
    {R A : List (Item × Bool)} {B : List Item} (h : Inv n max I s R A B) {r : Res Sys}
    (hs : step n max s .run = some r) : ∃ s' A' B', r = .ok s' ∧ Inv n max I s' R A' B' := by
  simp only [step] at hs
  split at hs
  next inp skip hj =>
    injection hs with hs
    have hids := h.ids
    have hjob := h.job
    rw [hj] at hids hjob
    obtain ⟨hj1, hj2, hj3, hj4⟩ := hjob
    rw [List.append_assoc] at hids
    obtain ⟨B1, B2, rfl, hB1, hB2⟩ := sentAll_split hids
    simp only [jobIn] at hB1
    obtain ⟨m1, m2, m3⟩ := sentAll_missing s.known hB1
    obtain ⟨l1, l2⟩ := sentAll_len hB1 hj4
    have hB1ne : B1 ≠ [] := by
      rintro rfl
      exact hj1 (List.length_eq_zero_iff.1 m3.symm)
    have hopen := h.open hn hI (by simp [hB1ne])
    have hexpl : Explains n A s.down := by have := h.expl; rw [hj] at this; simpa [jobMsgs] using this
    have hno : [] ∉ s.down := by have := hopen.1; rw [hj] at this; simpa [jobMsgs] using this
    obtain ⟨V, hV⟩ : ∃ V, V = B1.map (fun x => (x, !s.known (x.digest.take n))) := ⟨_, rfl⟩
    have hVfst : V.map (·.1) = B1 := by rw [hV, List.map_map]; simp [Function.comp_def]
    have hVlen : V.length = inp.length := by rw [hV, List.length_map, m3]
    have hVmem : ∀ a ∈ V, a.1.digest.length = 64 ∧ a.2 = !s.known (a.1.digest.take n) := by
      intro a ha
      rw [hV] at ha
      obtain ⟨x, hx, rfl⟩ := List.mem_map.1 ha
      exact ⟨l1 x hx, rfl⟩
    have hne : ∀ a ∈ A ++ V, a.1.digest ≠ [] := by
      intro a ha he
      have : a.1.digest.length = 64 := by
        rcases List.mem_append.1 ha with h' | h'
        · exact hopen.2 a h'
        · exact (hVmem a h').1
      rw [he] at this; simp at this
    have hpresV : ∀ a ∈ A ++ V, a.2 = false → s.known (a.1.digest.take n) = true := by
      intro a ha hf
      rcases List.mem_append.1 ha with h' | h'
      · exact h.pres a h' hf (hne a ha)
      · have := (hVmem a h').2
        rw [hf] at this
        simpa using this.symm
    have hmsgs : verdictMsgs n V =
        jobMsgs n (some ⟨inp, some (missing n s.known inp), skip⟩) := by
      have h1 : (V.filter (·.2)).map (fun a => a.1.digest.take n) = (missing n s.known inp).map (List.take n) := by
        rw [hV, ← m1]
      rw [verdictMsgs]
      cases hmis : missing n s.known inp with
      | nil =>
        rw [hmis] at h1
        have : V.filter (·.2) = [] := by simpa using h1
        have hz : inp.length ≠ 0 := fun h0 => hj1 (List.length_eq_zero_iff.1 h0)
        rw [if_pos this, hVlen, jobMsgs, hj2, if_pos hz]
      | cons l ls =>
        rw [hmis] at h1
        have : V.filter (·.2) ≠ [] := by
          intro h0
          rw [h0] at h1; simp at h1
        rw [if_neg this, h1, jobMsgs]
    have hdiff : ∀ a ∈ A ++ V, ∀ b ∈ V, a.2 = false → b.2 = true →
        a.1.digest.take n ≠ b.1.digest.take n := by
      intro a ha b hb hf ht he
      have h1 := hpresV a ha hf
      have h2 := (hVmem b hb).2
      rw [← he, h1, ht] at h2
      simp at h2
    have hE := explains_append hexpl hno V hopen.2 (fun a ha => (hVmem a ha).1) (by omega) hdiff
    refine ⟨_, A ++ V, B2, hs.symm, ?_⟩
    exact
      { all := by rw [h.all]; simp [hVfst]
        wait := by rw [h.wait]; simp [hVfst]
        get := h.get, flushed := h.flushed
        expl := by rw [← hmsgs]; exact hE
        pres := fun a ha hf _ => hpresV a ha hf
        ids := by simpa [jobIn] using hB2
        log := by
          have e1 : (A ++ V).filter (fun a => a.1.digest ≠ []) = A ++ V :=
            List.filter_eq_self.2 (fun a ha => by simpa using hne a ha)
          have e2 : A.filter (fun a => a.1.digest ≠ []) = A :=
            List.filter_eq_self.2 (fun a ha => by simpa using hne a (by simp [ha]))
          have e3 : V.map (fun a => (a.1.digest.take n, a.2)) =
              inp.map (fun l => (l.take n, !s.known (l.take n))) := by
            rw [m2, hV, List.map_map]; rfl
          show s.log ++ _ = _
          rw [h.log, ← e3, List.filter_append, List.filter_append, e1, e2]
          simp
        idSize := h.idSize
        fin := by
          intro a ha he
          rw [← List.append_assoc] at ha
          rcases List.mem_append.1 ha with h' | h'
          · exact h.fin a h' he
          · exact absurd he (hne a (by simp [h']))
        pend := fun ⟨a, ha, he⟩ => absurd he (hne a ha)
        busy := by simp
        job := by
          refine ⟨?_, ?_⟩
          · intro l hl
            exact l2 l (List.mem_filter.1 hl).1
          · omega }
  next => cases hs

theorem inv_line {n max : Nat} (hn : 16 ≤ n) {I : List Item} {s : Sys}
    {R A : List (Item × Bool)} {B : List Item} (h : Inv n max I s R A B) {r : Res Sys}
    (hs : step n max s .line = some r) : ∃ s', r = .ok s' ∧ Inv n max I s' R A B := by
  simp only [step] at hs
  split at hs
  next inp l ls skip hj =>
    injection hs with hs
    have hjob := h.job
    rw [hj] at hjob
    obtain ⟨hl, hsk⟩ := hjob
    have hll := hl l (by simp)
    have hfl : filterLine n ⟨inp, some (l :: ls), skip⟩ l ls =
        .ok (l.take n, ⟨inp, some ls, 0⟩) := by
      rw [filterLine, decide_eq_true (by omega), decide_eq_true (by omega), take_nul hll.1]; rfl
    rw [hfl] at hs
    refine ⟨_, hs.symm, ?_⟩
    have hexpl := h.expl
    have hids := h.ids
    rw [hj] at hexpl hids
    exact
      { all := h.all, wait := h.wait, get := h.get, flushed := h.flushed
        expl := by
          cases ls with
          | nil => simpa [jobMsgs] using hexpl
          | cons a b => simpa [jobMsgs] using hexpl
        pres := h.pres
        ids := hids
        log := h.log, idSize := h.idSize, fin := h.fin, pend := fun ha => List.mem_append_left _ (h.pend ha), busy := by simp
        job := ⟨fun x hx => hl x (by simp [hx]), by decide⟩ }
  next => cases hs

theorem inv_eof {n max : Nat} (hn : 0 < n) (hmax : 0 < max) {I : List Item} (hI : EndLast I) {s : Sys}
    {R A : List (Item × Bool)} {B : List Item} (h : Inv n max I s R A B) {r : Res Sys}
    (hs : step n max s .eof = some r) : ∃ s' A' B', r = .ok s' ∧ Inv n max I s' R A' B' := by
  simp only [step] at hs
  split at hs
  next inp skip hj =>
    injection hs with hs
    have hexpl := h.expl
    have hids := h.ids
    rw [hj] at hexpl hids
    obtain ⟨m, hm⟩ : ∃ m, m = (if skip ≠ 0 then [beEnc 4 skip] else [] : List Bytes) := ⟨_, rfl⟩
    have hexpl' : Explains n A (s.down ++ m) := by rw [hm]; simpa [jobMsgs] using hexpl
    have hinv : Inv n max I { s with sv := ⟨[], none⟩, up := s.sv.queue ++ s.up, down := s.down ++ m }
        R A B :=
      { all := h.all, wait := h.wait, get := h.get, flushed := h.flushed
        expl := by simpa [jobMsgs] using hexpl'
        pres := h.pres
        ids := by simpa [jobIn] using hids
        log := h.log, idSize := h.idSize, fin := h.fin, pend := fun ha => List.mem_append_left _ (h.pend ha), busy := by simp, job := trivial }
    by_cases hq : s.sv.queue = []
    · refine ⟨_, A, B, hs.symm, ?_⟩
      have : filterEnd max s.sv ⟨inp, some [], skip⟩ = (m, ⟨[], none⟩) := by
        rw [filterEnd, if_pos hq, hm]
      rw [this]
      rw [hq] at hinv
      exact hinv
    · obtain ⟨A', B', h'⟩ := inv_startFilter hn hmax hI hinv hq
      refine ⟨_, A', B', hs.symm, ?_⟩
      have : filterEnd max s.sv ⟨inp, some [], skip⟩ =
          (m ++ (startFilter max s.sv.queue).1, (startFilter max s.sv.queue).2) := by
        rw [filterEnd, if_neg hq, hm]
      rw [this]
      simpa using h'
  next => cases hs

theorem inv_resp {n max : Nat} (hn : 16 ≤ n) (hn' : n ≤ 64) {I : List Item} (hI : EndLast I) {s : Sys}
    {R A : List (Item × Bool)} {B : List Item} (h : Inv n max I s R A B) {r : Res Sys}
    (hs : step n max s .resp = some r) :
    ∃ s' R' A', r = .ok s' ∧ Inv n max I s' R' A' B := by
  simp only [step] at hs
  cases hd : s.down with
  | nil => rw [hd] at hs; cases hs
  | cons p down =>
    rw [hd] at hs
    injection hs with hs
    have hexpl := h.expl
    rw [hd] at hexpl
    obtain ⟨c', A1, A2, h1, rfl, h3, h4, h5, h6, h7, h8, h9⟩ := filterResp_spec hn hn' hexpl s.cl B h.wait (by
      intro hp
      by_cases hB : B = []
      · exact hB
      · exact absurd (by rw [hd, hp]; simp) (h.open (by omega) hI (by simp [hB])).1)
    rw [h1] at hs
    refine ⟨_, R ++ A1, A2, hs.symm, ?_⟩
    exact
      { all := by rw [h.all, h7]; simp
        wait := h4
        get := by rw [h5, h.get]; simp
        flushed := by rw [h6, h.flushed]; simp
        expl := h3
        pres := fun a ha => h.pres a (by simp [ha])
        ids := h.ids
        log := by rw [h.log]; simp
        idSize := by
          rcases h8 with h' | h'
          · show c'.idSize = 64 ∨ c'.idSize = n
            rw [h']; exact h.idSize
          · exact Or.inr h'
        fin := by have := h.fin; rwa [← List.append_assoc] at this
        pend := by
          rintro ⟨a, ha, he⟩
          have := h.pend ⟨a, by simp [ha], he⟩
          rw [hd] at this
          rcases List.mem_cons.1 this with h' | h'
          · rw [h9 h'.symm] at ha; cases ha
          · exact h'
        busy := h.busy, job := h.job }

theorem inv_store {n max : Nat} {I : List Item} {s : Sys} {R A : List (Item × Bool)} {B : List Item}
    (h : Inv n max I s R A B) (id : Bytes → Bool) {r : Res Sys} (hs : step n max s (.store id) = some r) :
    ∃ s', r = .ok s' ∧ Inv n max I s' R A B := by
  injection hs with hs
  refine ⟨_, hs.symm, ?_⟩
  exact
    { all := h.all, wait := h.wait, get := h.get, flushed := h.flushed, expl := h.expl
      pres := fun a ha hf hne => by simp [h.pres a ha hf hne]
      ids := h.ids, log := h.log, idSize := h.idSize, fin := h.fin, pend := h.pend, busy := h.busy, job := h.job }

/-- Every step keeps the invariant, and none of them fails. -/
theorem inv_step {n max : Nat} (hn : 16 ≤ n) (hn' : n ≤ 64) (hmax : 0 < max) (hmax' : max < 2 ^ 32)
    {I : List Item} (hI : EndLast I) {s : Sys} {R A : List (Item × Bool)} {B : List Item}
    (h : Inv n max I s R A B) {e : Ev} {r : Res Sys} (hs : step n max s e = some r) :
    ∃ s' R' A' B', r = .ok s' ∧ Inv n max I s' R' A' B' := by
  cases e with
  | send => obtain ⟨s', B', h1, h2⟩ := inv_send hn' hI h hs; exact ⟨s', _, _, _, h1, h2⟩
  | recv => obtain ⟨s', A', B', h1, h2⟩ := inv_recv (by omega) hmax hI h hs; exact ⟨s', _, _, _, h1, h2⟩
  | run => obtain ⟨s', A', B', h1, h2⟩ := inv_run (by omega) hmax' hI h hs; exact ⟨s', _, _, _, h1, h2⟩
  | line => obtain ⟨s', h1, h2⟩ := inv_line hn h hs; exact ⟨s', _, _, _, h1, h2⟩
  | eof => obtain ⟨s', A', B', h1, h2⟩ := inv_eof (by omega) hmax hI h hs; exact ⟨s', _, _, _, h1, h2⟩
  | resp => obtain ⟨s', R', A', h1, h2⟩ := inv_resp hn hn' hI h hs; exact ⟨s', _, _, _, h1, h2⟩
  | store id => obtain ⟨s', h1, h2⟩ := inv_store h id hs; exact ⟨s', _, _, _, h1, h2⟩

theorem inv_runs {n max : Nat} (hn : 16 ≤ n) (hn' : n ≤ 64) (hmax : 0 < max) (hmax' : max < 2 ^ 32)
    {I : List Item} (hI : EndLast I) : ∀ (es : List Ev) {s : Sys} {R A : List (Item × Bool)}
    {B : List Item}, Inv n max I s R A B → ∀ {r : Res Sys}, run n max s es = some r →
    ∃ s' R' A' B', r = .ok s' ∧ Inv n max I s' R' A' B'
  | [], s, R, A, B, h, r, hr => by
    injection hr with hr
    exact ⟨s, R, A, B, hr.symm, h⟩
  | e :: es, s, R, A, B, h, r, hr => by
    rw [run] at hr
    cases hs : step n max s e with
    | none => rw [hs] at hr; cases hr
    | some r1 =>
      obtain ⟨s', R', A', B', rfl, h'⟩ := inv_step hn hn' hmax hmax' hI h hs
      rw [hs] at hr
      exact inv_runs hn hn' hmax hmax' hI es h' hr

end Verif.Stow
