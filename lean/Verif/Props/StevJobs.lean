/-
Property C95: the jobs of the server come to their end, and the server does not wait for one that does not.
-/
import Verif.Model.StevJobs
import Verif.Proofs.StowDataRun

namespace Verif.Props.StevJobs
open Verif
open _root_.Verif.StevJobs

/-! ### Statement -/

/-- No job can do anything any more, unless the client sends something. -/
def AtRest (s : Srv) : Prop := ∀ e, e.client = false → step s e = none

/-- The client does not begin to send metadata while it is sending an object. -/
def Orderly : Srv → List Ev → Prop
  | _, [] => True
  | s, e :: es => (e = .info → s.store = none) ∧ ∀ s', step s e = some s' → Orderly s' es

/-! ### Lists of jobs -/

theorem opened_mem (js : List Job) : ∀ (k n : Nat), n ∈ opened k js ↔ ∃ (i : Nat) (j : Job), js[i]? = some j ∧ j.up = true ∧ n = k + i := by
  induction js with
  | nil => intro k n; simp [opened]
  | cons j js ih =>
    intro k n
    rw [opened]
    constructor
    · intro h
      split at h
      · rename_i hu
        rcases List.mem_cons.1 h with rfl | h
        · exact ⟨0, j, rfl, hu, rfl⟩
        · obtain ⟨i, x, a, b, rfl⟩ := (ih _ _).1 h
          exact ⟨i + 1, x, a, b, by omega⟩
      · obtain ⟨i, x, a, b, rfl⟩ := (ih _ _).1 h
        exact ⟨i + 1, x, a, b, by omega⟩
    · rintro ⟨i, x, a, b, rfl⟩
      cases i with
      | zero =>
        simp only [List.getElem?_cons_zero, Option.some.injEq] at a
        subst a
        rw [if_pos b]
        exact List.mem_cons_self
      | succ i =>
        have : k + (i + 1) ∈ opened (k + 1) js := (ih _ _).2 ⟨i, x, a, b, by omega⟩
        split
        · exact List.mem_cons_of_mem _ this
        · exact this

theorem onJob_get (f : Job → Job) (js : List Job) : ∀ (k i : Nat), (onJob f k js)[i]? = if i = k then (js[i]?).map f else js[i]? := by
  induction js with
  | nil => intro k i; cases k <;> simp [onJob]
  | cons j js ih =>
    intro k i
    cases k with
    | zero => cases i <;> simp [onJob]
    | succ k => cases i with
      | zero => simp [onJob]
      | succ i => simp [onJob, ih]

theorem onJob_length (f : Job → Job) (js : List Job) : ∀ k, (onJob f k js).length = js.length := by
  induction js with
  | nil => intro k; cases k <;> rfl
  | cons j js ih => intro k; cases k <;> simp [onJob, ih]

theorem inherited_iff {s : Srv} {k : Nat} : inherited s k = true ↔ ∃ (i : Nat) (j : Job), s.jobs[i]? = some j ∧ j.phase ≠ .gone ∧ k ∈ j.held := by
  unfold inherited
  rw [List.any_eq_true]
  constructor
  · rintro ⟨j, hj, h⟩
    obtain ⟨i, hi⟩ := List.getElem?_of_mem hj
    simp only [Bool.and_eq_true, decide_eq_true_eq, List.contains_iff_mem] at h
    exact ⟨i, j, hi, h.1, h.2⟩
  · rintro ⟨i, j, hi, h1, h2⟩
    refine ⟨j, List.mem_of_getElem? hi, ?_⟩
    simp only [Bool.and_eq_true, decide_eq_true_eq, List.contains_iff_mem]
    exact ⟨h1, h2⟩

/-! ### Invariant -/

/-- `strict`: the client is orderly. -/
structure Inv (strict : Prop) (s : Srv) : Prop where
  /-- what is open is what the server knows -/
  up : ∀ (i : Nat) (j : Job), s.jobs[i]? = some j → j.up = true → (j.kind = .store ∧ s.store = some i) ∨ (j.kind = .info ∧ s.info = some i)
  /-- `store_job` is an open store job -/
  store : ∀ i : Nat, s.store = some i → ∃ j : Job, s.jobs[i]? = some j ∧ j.kind = .store ∧ j.up = true
  info : ∀ i : Nat, s.info = some i → ∃ j : Job, s.jobs[i]? = some j ∧ j.kind = .info ∧ j.up = true
  /-- inherited are only ends of earlier jobs, which are no filters -/
  held : ∀ (i : Nat) (j : Job) (n : Nat), s.jobs[i]? = some j → n ∈ j.held → n < i ∧ ∃ x : Job, s.jobs[n]? = some x ∧ x.kind ≠ .filter ∧
    (j.kind = .store → x.kind ≠ .store) ∧ (strict → j.kind = .info → x.kind ≠ .store)
  /-- an open job reads -/
  reads : ∀ (i : Nat) (j : Job), s.jobs[i]? = some j → j.up = true → j.phase = .reads
  /-- if the server waits there is an object it waits for -/
  waits : s.waits = true → ∃ (i : Nat) (j : Job), s.jobs[i]? = some j ∧ j.kind = .store ∧ j.up = false ∧ j.phase = .reads

theorem inv_start (strict : Prop) : Inv strict start :=
  { up := by intro i j h; simp [start] at h
    store := by intro i h; cases h
    info := by intro i h; cases h
    held := by intro i j n h; simp [start] at h
    reads := by intro i j h; simp [start] at h
    waits := by intro h; cases h }

theorem jobStart_get (s : Srv) (kind : Kind) (up : Bool) (i : Nat) : (jobStart s kind up)[i]? =
    if i = s.jobs.length then some { kind := kind, phase := .reads, up := up, held := opened 0 s.jobs } else s.jobs[i]? := by
  unfold jobStart
  rcases Nat.lt_trichotomy i s.jobs.length with h | h | h
  · rw [List.getElem?_append_left h, if_neg (by omega)]
  · rw [h, if_pos rfl]; simp
  · rw [if_neg (by omega), List.getElem?_eq_none (by simp; omega), List.getElem?_eq_none (by omega)]

theorem lt_length {α : Type} {l : List α} {i : Nat} {x : α} (h : l[i]? = some x) : i < l.length := by
  rcases Nat.lt_or_ge i l.length with h1 | h1
  · exact h1
  · rw [List.getElem?_eq_none h1] at h; cases h

theorem inv_new {strict : Prop} {s : Srv} (hs : Inv strict s) {kind : Kind} {up : Bool} {f st nf : Option Nat}
    (h1 : up = false → st = s.store ∧ nf = s.info ∧ kind = .filter)
    (h2 : up = true → (kind = .store ∧ s.store = none ∧ st = some s.jobs.length ∧ nf = s.info) ∨ (kind = .info ∧ (strict → s.store = none) ∧ s.info = none ∧
      st = s.store ∧ nf = some s.jobs.length)) :
    Inv strict { s with jobs := jobStart s kind up, filter := f, store := st, info := nf } := by
  have old : ∀ {i : Nat} {j : Job}, s.jobs[i]? = some j → (jobStart s kind up)[i]? = some j := by
    intro i j h
    rw [jobStart_get, if_neg (by have := lt_length h; omega)]
    exact h
  have keep : ∀ {i : Nat} {j : Job}, s.jobs[i]? = some j → j.up = true → (j.kind = .store ∧ st = some i) ∨ (j.kind = .info ∧ nf = some i) := by
    intro i j hi hu
    cases up with
    | false =>
      obtain ⟨a, b, -⟩ := h1 rfl
      rw [a, b]; exact hs.up i j hi hu
    | true =>
      rcases h2 rfl with ⟨-, a2, -, a4⟩ | ⟨-, -, a2, a4, -⟩
      · rcases hs.up i j hi hu with ⟨b1, b2⟩ | ⟨b1, b2⟩
        · rw [a2] at b2; cases b2
        · exact .inr ⟨b1, by rw [a4]; exact b2⟩
      · rcases hs.up i j hi hu with ⟨b1, b2⟩ | ⟨b1, b2⟩
        · exact .inl ⟨b1, by rw [a4]; exact b2⟩
        · rw [a2] at b2; cases b2
  have new : (jobStart s kind up)[s.jobs.length]? = some { kind := kind, phase := .reads, up := up, held := opened 0 s.jobs } := by
    rw [jobStart_get, if_pos rfl]
  refine { up := ?_, store := ?_, info := ?_, held := ?_, reads := ?_, waits := ?_ }
  · intro i j hi hu
    replace hi : (jobStart s kind up)[i]? = some j := hi
    rw [jobStart_get] at hi
    split at hi
    · rename_i hl
      simp only [Option.some.injEq] at hi
      subst hi
      rcases h2 hu with ⟨a1, -, a3, -⟩ | ⟨a1, -, -, -, a5⟩
      · exact .inl ⟨a1, by rw [hl]; exact a3⟩
      · exact .inr ⟨a1, by rw [hl]; exact a5⟩
    · exact keep hi hu
  · intro i hi
    replace hi : st = some i := hi
    have prev : st = s.store → ∃ j : Job, (jobStart s kind up)[i]? = some j ∧ j.kind = .store ∧ j.up = true := by
      intro h
      obtain ⟨j, a, b⟩ := hs.store i (by rw [← h]; exact hi)
      exact ⟨j, old a, b⟩
    cases hup : up with
    | false => subst hup; exact prev (h1 rfl).1
    | true =>
      subst hup
      rcases h2 rfl with ⟨a1, -, a3, -⟩ | ⟨-, -, -, a4, -⟩
      · rw [a3] at hi; cases hi
        exact ⟨_, new, a1, rfl⟩
      · exact prev a4
  · intro i hi
    replace hi : nf = some i := hi
    have prev : nf = s.info → ∃ j : Job, (jobStart s kind up)[i]? = some j ∧ j.kind = .info ∧ j.up = true := by
      intro h
      obtain ⟨j, a, b⟩ := hs.info i (by rw [← h]; exact hi)
      exact ⟨j, old a, b⟩
    cases hup : up with
    | false => subst hup; exact prev (h1 rfl).2.1
    | true =>
      subst hup
      rcases h2 rfl with ⟨-, -, -, a4⟩ | ⟨a1, -, -, -, a5⟩
      · exact prev a4
      · rw [a5] at hi; cases hi
        exact ⟨_, new, a1, rfl⟩
  · intro i j n hi hn
    replace hi : (jobStart s kind up)[i]? = some j := hi
    rw [jobStart_get] at hi
    split at hi
    · rename_i hl
      simp only [Option.some.injEq] at hi
      subst hi
      obtain ⟨m, x, a, b, rfl⟩ := (opened_mem _ _ _).1 hn
      rw [Nat.zero_add]
      refine ⟨by have := lt_length a; omega, x, old a, ?_, ?_, ?_⟩
      · rcases hs.up m x a b with ⟨c, -⟩ | ⟨c, -⟩ <;> (rw [c]; simp)
      · intro hk hx
        rcases hs.up m x a b with ⟨c, d⟩ | ⟨c, -⟩
        · have hkd : kind = .store := hk
          cases up with
          | false => have := (h1 rfl).2.2; rw [hkd] at this; cases this
          | true =>
            rcases h2 rfl with ⟨-, a2, -⟩ | ⟨a1, -⟩
            · rw [a2] at d; cases d
            · rw [hkd] at a1; cases a1
        · rw [hx] at c; cases c
      · intro hst hk hx
        rcases hs.up m x a b with ⟨c, d⟩ | ⟨c, -⟩
        · have hkd : kind = .info := hk
          cases up with
          | false => have := (h1 rfl).2.2; rw [hkd] at this; cases this
          | true =>
            rcases h2 rfl with ⟨a1, -⟩ | ⟨-, a2, -⟩
            · rw [hkd] at a1; cases a1
            · rw [a2 hst] at d; cases d
        · rw [hx] at c; cases c
    · obtain ⟨a, x, b, c⟩ := hs.held i j n hi hn
      exact ⟨a, x, old b, c⟩
  · intro i j hi hu
    replace hi : (jobStart s kind up)[i]? = some j := hi
    rw [jobStart_get] at hi
    split at hi
    · simp only [Option.some.injEq] at hi; subst hi; rfl
    · exact hs.reads i j hi hu
  · intro hw
    obtain ⟨i, j, a, b⟩ := hs.waits hw
    exact ⟨i, j, old a, b⟩

/-- A change of one job. -/
theorem inv_on {strict : Prop} {s : Srv} (hs : Inv strict s) {k : Nat} {g : Job → Job} (hk : ∀ j, (g j).kind = j.kind) (hh : ∀ j, (g j).held = j.held)
    {f st nf : Option Nat} {wt : Bool}
    (hst : ∀ i : Nat, st = some i → s.store = some i ∧ ∀ j : Job, s.jobs[i]? = some j → j.up = true → (if i = k then g j else j).up = true)
    (hnf : ∀ i : Nat, nf = some i → s.info = some i ∧ ∀ j : Job, s.jobs[i]? = some j → j.up = true → (if i = k then g j else j).up = true)
    (hup : ∀ (i : Nat) (j : Job), s.jobs[i]? = some j → (if i = k then g j else j).up = true → j.up = true ∧ (if i = k then g j else j).phase = .reads ∧
      ((j.kind = .store ∧ st = some i) ∨ (j.kind = .info ∧ nf = some i)))
    (hw : wt = true → ∃ (i : Nat) (j : Job), s.jobs[i]? = some j ∧ j.kind = .store ∧ (if i = k then g j else j).up = false ∧ (if i = k then g j else j).phase = .reads) :
    Inv strict { jobs := onJob g k s.jobs, filter := f, store := st, info := nf, waits := wt } := by
  have get : ∀ {i : Nat} {j : Job}, (onJob g k s.jobs)[i]? = some j → ∃ x, s.jobs[i]? = some x ∧ j = if i = k then g x else x := by
    intro i j h
    rw [onJob_get] at h
    split at h
    · rename_i hik
      cases hx : s.jobs[i]? with
      | none => rw [hx] at h; cases h
      | some x => rw [hx] at h; cases h; exact ⟨x, rfl, by rw [if_pos hik]⟩
    · rename_i hik
      exact ⟨j, h, by rw [if_neg hik]⟩
  have put : ∀ {i : Nat} {x : Job}, s.jobs[i]? = some x → (onJob g k s.jobs)[i]? = some (if i = k then g x else x) := by
    intro i x h
    rw [onJob_get]
    split <;> simp [h]
  have kind : ∀ (i : Nat) (x : Job), (if i = k then g x else x).kind = x.kind := by intro i x; split <;> simp [hk]
  have held : ∀ (i : Nat) (x : Job), (if i = k then g x else x).held = x.held := by intro i x; split <;> simp [hh]
  refine { up := ?_, store := ?_, info := ?_, held := ?_, reads := ?_, waits := ?_ }
  · intro i j hi hu
    obtain ⟨x, a, rfl⟩ := get hi
    rw [kind]
    exact (hup i x a hu).2.2
  · intro i hi
    obtain ⟨a, b⟩ := hst i hi
    obtain ⟨x, c, d, e⟩ := hs.store i a
    exact ⟨_, put c, by rw [kind]; exact d, b x c e⟩
  · intro i hi
    obtain ⟨a, b⟩ := hnf i hi
    obtain ⟨x, c, d, e⟩ := hs.info i a
    exact ⟨_, put c, by rw [kind]; exact d, b x c e⟩
  · intro i j n hi hn
    obtain ⟨x, a, rfl⟩ := get hi
    rw [held] at hn
    obtain ⟨b, y, c, d⟩ := hs.held i x n a hn
    refine ⟨b, _, put c, ?_⟩
    rw [kind, kind]
    exact d
  · intro i j hi hu
    obtain ⟨x, a, rfl⟩ := get hi
    exact (hup i x a hu).2.1
  · intro h
    obtain ⟨i, x, a, b, c, d⟩ := hw h
    exact ⟨i, _, put a, by rw [kind]; exact b, c, d⟩

theorem inv_step {strict : Prop} {s s' : Srv} {e : Ev} (hs : Inv strict s) (ho : strict → e = .info → s.store = none) (h : step s e = some s') : Inv strict s' := by
  cases e with
  | filter =>
    simp only [step] at h
    split at h
    · cases h
    · cases h
      exact inv_new hs (fun _ => ⟨rfl, rfl, rfl⟩) (fun h => by cases h)
  | data =>
    simp only [step] at h
    split at h
    · cases h
    · split at h
      · cases h; exact hs
      · rename_i hn
        cases h
        exact inv_new (f := s.filter) hs (fun h => by cases h) (fun _ => .inl ⟨rfl, by simpa using hn, rfl, rfl⟩)
  | info =>
    simp only [step] at h
    split at h
    · cases h
    · rename_i hn
      cases h
      have hn : s.info = none := by
        cases hi : s.info with
        | none => rfl
        | some k => exact absurd (.inr (by rw [hi]; rfl)) hn
      exact inv_new (f := s.filter) hs (fun h => by cases h) (fun _ => .inr ⟨rfl, fun x => ho x rfl, hn, rfl, rfl⟩)
  | dataEnd =>
    simp only [step] at h
    split at h
    · cases h
    · cases hst : s.store with
      | none => rw [hst] at h; cases h
      | some k =>
        rw [hst] at h
        cases h
        obtain ⟨x, x1, x2, x3⟩ := hs.store k hst
        refine inv_on (g := fun j => { j with up := false }) hs (fun _ => rfl) (fun _ => rfl) ?_ ?_ ?_ ?_
        · intro i hi; cases hi
        · intro i hi
          refine ⟨hi, fun j hj hu => ?_⟩
          have hik : i ≠ k := by
            rintro rfl
            obtain ⟨y, y1, y2, -⟩ := hs.info i hi
            rw [x1] at y1; cases y1
            rw [x2] at y2; cases y2
          rw [if_neg hik]; exact hu
        · intro i j hi hu
          by_cases hik : i = k
          · rw [if_pos hik] at hu; cases hu
          · rw [if_neg hik] at hu ⊢
            refine ⟨hu, hs.reads i j hi hu, ?_⟩
            rcases hs.up i j hi hu with ⟨-, b⟩ | b
            · rw [hst] at b; cases b; exact absurd rfl hik
            · exact .inr b
        · intro _
          exact ⟨k, x, x1, x2, by rw [if_pos rfl], by rw [if_pos rfl]; exact hs.reads k x x1 x3⟩
  | infoEnd =>
    simp only [step] at h
    split at h
    · cases h
    · cases hst : s.info with
      | none => rw [hst] at h; cases h
      | some k =>
        rw [hst] at h
        cases h
        obtain ⟨x, x1, x2, x3⟩ := hs.info k hst
        refine inv_on (g := fun j => { j with up := false }) (nf := none) hs (fun _ => rfl) (fun _ => rfl) ?_ (by intro i hi; cases hi) ?_ ?_
        · intro i hi
          refine ⟨hi, fun j hj hu => ?_⟩
          have hik : i ≠ k := by
            rintro rfl
            obtain ⟨y, y1, y2, -⟩ := hs.store i hi
            rw [x1] at y1; cases y1
            rw [x2] at y2; cases y2
          rw [if_neg hik]; exact hu
        · intro i j hi hu
          by_cases hik : i = k
          · rw [if_pos hik] at hu; cases hu
          · rw [if_neg hik] at hu ⊢
            refine ⟨hu, hs.reads i j hi hu, ?_⟩
            rcases hs.up i j hi hu with b | ⟨-, b⟩
            · exact .inl b
            · rw [hst] at b; cases b; exact absurd rfl hik
        · intro hw
          obtain ⟨i, y, y1, y2, y3, y4⟩ := hs.waits hw
          have hik : i ≠ k := by
            rintro rfl
            rw [x1] at y1; cases y1
            rw [x2] at y2; cases y2
          exact ⟨i, y, y1, y2, by rw [if_neg hik]; exact y3, by rw [if_neg hik]; exact y4⟩
  | prints k =>
    simp only [step] at h
    cases hk : s.jobs[k]? with
    | none => rw [hk] at h; cases h
    | some x =>
      rw [hk] at h
      simp only [Option.bind_some, jobPrints] at h
      split at h
      · cases h
      · rename_i hn
        cases h
        have hnu : x.up = false := by
          cases hu : x.up with
          | false => rfl
          | true => exact absurd (.inr (.inl hu)) hn
        have same : ∀ (i : Nat) (j : Job), (if i = k then { j with phase := .printed } else j).up = j.up := by intro i j; split <;> rfl
        refine inv_on hs (g := fun j => { j with phase := .printed }) (fun _ => rfl) (fun _ => rfl) (fun i hi => ⟨hi, fun j _ hu => (same i j).trans hu⟩)
          (fun i hi => ⟨hi, fun j _ hu => (same i j).trans hu⟩) ?_ ?_
        · intro i j hi hu
          rw [same] at hu
          refine ⟨hu, ?_, hs.up i j hi hu⟩
          by_cases hik : i = k
          · rw [hik, hk] at hi; cases hi
            rw [hnu] at hu; cases hu
          · rw [if_neg hik]; exact hs.reads i j hi hu
        · intro hw
          split at hw
          · rename_i hf
            obtain ⟨i, y, y1, y2, y3, y4⟩ := hs.waits hw
            have hik : i ≠ k := by
              rintro rfl
              rw [hk] at y1; cases y1
              rw [hf] at y2; cases y2
            exact ⟨i, y, y1, y2, by rw [if_neg hik]; exact y3, by rw [if_neg hik]; exact y4⟩
          · cases hw
  | exits k =>
    simp only [step] at h
    cases hk : s.jobs[k]? with
    | none => rw [hk] at h; cases h
    | some x =>
      rw [hk] at h
      simp only [Option.bind_some, jobExits] at h
      split at h
      · cases h
      · rename_i hn
        cases h
        have hp : x.phase = .printed := Classical.not_not.1 hn
        have hnu : x.up = false := by
          cases hu : x.up with
          | false => rfl
          | true => have := hs.reads k x hk hu; rw [hp] at this; cases this
        have same : ∀ (i : Nat) (j : Job), (if i = k then { j with phase := .gone } else j).up = j.up := by intro i j; split <;> rfl
        refine inv_on hs (g := fun j => { j with phase := .gone }) (fun _ => rfl) (fun _ => rfl) (fun i hi => ⟨hi, fun j _ hu => (same i j).trans hu⟩)
          (fun i hi => ⟨hi, fun j _ hu => (same i j).trans hu⟩) ?_ ?_
        · intro i j hi hu
          rw [same] at hu
          refine ⟨hu, ?_, hs.up i j hi hu⟩
          by_cases hik : i = k
          · rw [hik, hk] at hi; cases hi
            rw [hnu] at hu; cases hu
          · rw [if_neg hik]; exact hs.reads i j hi hu
        · intro hw
          obtain ⟨i, y, y1, y2, y3, y4⟩ := hs.waits hw
          have hik : i ≠ k := by
            rintro rfl
            rw [hk] at y1; cases y1
            rw [hp] at y4; cases y4
          exact ⟨i, y, y1, y2, by rw [if_neg hik]; exact y3, by rw [if_neg hik]; exact y4⟩

theorem inv_run {strict : Prop} (es : List Ev) : ∀ {s s' : Srv}, Inv strict s → (strict → Orderly s es) → run s es = some s' → Inv strict s' := by
  induction es with
  | nil => intro s s' hs _ h; cases h; exact hs
  | cons e es ih =>
    intro s s' hs ho h
    rw [run] at h
    cases h1 : step s e with
    | none => rw [h1] at h; cases h
    | some s1 =>
      rw [h1] at h
      exact ih (inv_step hs (fun x => (ho x).1) h1) (fun x => (ho x).2 s1 h1) h

/-- At rest a job that is not through has an input that somebody can still write to. -/
theorem rest_job {s : Srv} (hr : AtRest s) {k : Nat} {x : Job} (hk : s.jobs[k]? = some x) (hx : x.phase ≠ .gone) :
    x.phase = .reads ∧ (x.up = true ∨ ∃ (i : Nat) (j : Job), s.jobs[i]? = some j ∧ j.phase ≠ .gone ∧ k ∈ j.held) := by
  have h1 := hr (.prints k) rfl
  have h2 := hr (.exits k) rfl
  simp only [step, hk, Option.bind_some, jobPrints, jobExits] at h1 h2
  have hp : x.phase = .reads := by
    cases hp : x.phase with
    | reads => rfl
    | printed => rw [hp] at h2; simp at h2
    | gone => exact absurd hp hx
  refine ⟨hp, ?_⟩
  split at h1
  · rename_i h
    rcases h with h | h | h
    · exact absurd hp h
    · exact .inl h
    · exact .inr (inherited_iff.1 h)
  · cases h1

theorem rest_all {strict : Prop} {s : Srv} (hs : Inv strict s) (hr : AtRest s) (h1 : s.store = none) (h2 : s.info = none) :
    ∀ (n k : Nat) (x : Job), s.jobs.length ≤ k + n → s.jobs[k]? = some x → x.phase = .gone := by
  intro n
  induction n with
  | zero => intro k x hn hk; have := lt_length hk; omega
  | succ n ih =>
    intro k x hn hk
    apply Classical.byContradiction
    intro hx
    obtain ⟨-, h | ⟨i, j, a, b, c⟩⟩ := rest_job hr hk hx
    · rcases hs.up k x hk h with ⟨-, h⟩ | ⟨-, h⟩
      · rw [h1] at h; cases h
      · rw [h2] at h; cases h
    · have hlt := (hs.held i j k a c).1
      exact b (ih i j (by omega) a)

theorem rest_waits {s : Srv} (hs : Inv True s) (hr : AtRest s) : s.waits = false := by
  cases hw : s.waits with
  | false => rfl
  | true =>
    exfalso
    obtain ⟨k, x, x1, x2, x3, x4⟩ := hs.waits hw
    obtain ⟨-, h | ⟨i, j, a, b, c⟩⟩ := rest_job hr x1 (by rw [x4]; simp)
    · rw [x3] at h; cases h
    · obtain ⟨-, y, d1, d2, d3, d4⟩ := hs.held i j k a c
      rw [x1] at d1; cases d1
      have hj : j.kind = .filter := by
        cases hjk : j.kind with
        | filter => rfl
        | store => exact absurd x2 (d3 hjk)
        | info => exact absurd x2 (d4 trivial hjk)
      obtain ⟨-, h | ⟨i2, j2, a2, b2, c2⟩⟩ := rest_job hr a b
      · rcases hs.up i j a h with ⟨h, -⟩ | ⟨h, -⟩ <;> (rw [hj] at h; cases h)
      · obtain ⟨-, y, e1, e2, -⟩ := hs.held i2 j2 i a2 c2
        rw [a] at e1; cases e1
        exact e2 hj

/-! ### How long it can take -/

/-- What the jobs still have to do. -/
def work : List Job → Nat
  | [] => 0
  | j :: js => (match j.phase with
    | .reads => 2
    | .printed => 1
    | .gone => 0) + work js

theorem work_on (g : Job → Job) (js : List Job) : ∀ (k : Nat) (x : Job), js[k]? = some x → work (onJob g k js) + work [x] = work js + work [g x] := by
  induction js with
  | nil => intro k x h; simp at h
  | cons j js ih =>
    intro k x h
    cases k with
    | zero =>
      simp only [List.getElem?_cons_zero, Option.some.injEq] at h
      subst h
      simp only [onJob, work]; omega
    | succ k =>
      have := ih k x h
      simp only [onJob, work] at this ⊢; omega

theorem work_step {s s' : Srv} {e : Ev} (he : e.client = false) (h : step s e = some s') : work s'.jobs < work s.jobs := by
  cases e with
  | prints k =>
    simp only [step] at h
    cases hk : s.jobs[k]? with
    | none => rw [hk] at h; cases h
    | some x =>
      rw [hk] at h
      simp only [Option.bind_some, jobPrints] at h
      split at h
      · cases h
      · rename_i hn
        cases h
        have hp : x.phase = .reads := Classical.not_not.1 fun hh => hn (.inl hh)
        have := work_on (fun j => { j with phase := .printed }) s.jobs k x hk
        simp only [work, hp] at this
        show work (onJob _ _ _) < _
        omega
  | exits k =>
    simp only [step] at h
    cases hk : s.jobs[k]? with
    | none => rw [hk] at h; cases h
    | some x =>
      rw [hk] at h
      simp only [Option.bind_some, jobExits] at h
      split at h
      · cases h
      · rename_i hn
        cases h
        have hp : x.phase = .printed := Classical.not_not.1 hn
        have := work_on (fun j => { j with phase := .gone }) s.jobs k x hk
        simp only [work, hp] at this
        show work (onJob _ _ _) < _
        omega
  | filter => cases he
  | data => cases he
  | dataEnd => cases he
  | info => cases he
  | infoEnd => cases he

theorem work_run (es : List Ev) : ∀ {s s' : Srv}, (∀ e ∈ es, e.client = false) → run s es = some s' → es.length + work s'.jobs ≤ work s.jobs := by
  induction es with
  | nil => intro s s' _ h; cases h; simp
  | cons e es ih =>
    intro s s' he h
    rw [run] at h
    cases h1 : step s e with
    | none => rw [h1] at h; cases h
    | some s1 =>
      rw [h1] at h
      have a := work_step (he e (by simp)) h1
      have b := ih (fun x hx => he x (by simp [hx])) h
      simp only [List.length_cons]
      omega

end Verif.Props.StevJobs

namespace Verif.Props
open Verif
open _root_.Verif.StevJobs
open _root_.Verif.Props.StevJobs

/-- The server knows its filter job: the one that has not exited. -/
def Knows (s : Srv) : Prop := ∀ k, s.filter = some k ↔ ∃ j, s.jobs[k]? = some j ∧ j.kind = .filter ∧ j.phase ≠ .gone

theorem knows_start (s : Srv) (h : Knows s) (j : Job) (hj : j.kind ≠ .filter) (st nf : Option Nat) (wt : Bool) :
    Knows { jobs := s.jobs ++ [j], filter := s.filter, store := st, info := nf, waits := wt } := by
  intro k
  rw [h k]
  simp only
  rw [List.getElem?_append]
  split
  · exact Iff.rfl
  · rename_i hk
    rw [List.getElem?_eq_none (by omega)]
    constructor
    · rintro ⟨x, hx, -⟩; cases hx
    · rintro ⟨x, hx, hf, -⟩
      rcases Nat.eq_zero_or_pos (k - s.jobs.length) with h0 | h0
      · rw [h0] at hx
        cases hx
        exact absurd hf hj
      · rw [List.getElem?_eq_none (by simp only [List.length_cons, List.length_nil]; omega)] at hx
        cases hx

theorem knows_on (s : Srv) (h : Knows s) (g : Job → Job) (k : Nat) (hg : ∀ j, s.jobs[k]? = some j → (g j).kind = j.kind ∧ ((g j).phase = .gone ↔ j.phase = .gone))
    (st nf : Option Nat) (wt : Bool) : Knows { jobs := onJob g k s.jobs, filter := s.filter, store := st, info := nf, waits := wt } := by
  intro i
  rw [h i]
  simp only [onJob_get]
  by_cases hi : i = k
  · subst hi
    rw [if_pos rfl]
    cases hx : s.jobs[i]? with
    | none => simp
    | some x =>
      obtain ⟨g1, g2⟩ := hg x hx
      simp only [Option.map_some, Option.some.injEq, exists_eq_left', g1, ne_eq, g2]
  · rw [if_neg hi]

theorem knows_step {s s' : Srv} {e : Ev} (h : Knows s) (he : step s e = some s') : Knows s' := by
  cases e with
  | filter =>
    rw [step] at he
    split at he
    · cases he
    · rename_i hn
      cases he
      have hnone : s.filter = none := by
        cases hf : s.filter with
        | none => rfl
        | some k => rw [hf] at hn; exact absurd rfl hn
      intro k
      simp only [jobStart, List.getElem?_append]
      constructor
      · intro hk
        cases hk
        exact ⟨_, by rw [if_neg (by omega), Nat.sub_self]; rfl, rfl, by simp⟩
      · rintro ⟨j, hj, hf, hg⟩
        split at hj
        · have := (h k).2 ⟨j, hj, hf, hg⟩
          rw [hnone] at this
          cases this
        · rename_i hk
          rcases Nat.eq_zero_or_pos (k - s.jobs.length) with h0 | h0
          · congr 1
            omega
          · rw [List.getElem?_eq_none (by simp only [List.length_cons, List.length_nil]; omega)] at hj
            cases hj
  | data =>
    rw [step] at he
    split at he
    · cases he
    · split at he
      · cases he; exact h
      · cases he; exact knows_start s h _ (by simp) _ _ _
  | dataEnd =>
    rw [step] at he
    split at he
    · cases he
    · split at he
      · cases he
      · cases he; exact knows_on s h (fun j => { j with up := false }) _ (fun j _ => ⟨rfl, Iff.rfl⟩) _ _ _
  | info =>
    rw [step] at he
    split at he
    · cases he
    · cases he; exact knows_start s h _ (by simp) _ _ _
  | infoEnd =>
    rw [step] at he
    split at he
    · cases he
    · split at he
      · cases he
      · cases he; exact knows_on s h (fun j => { j with up := false }) _ (fun j _ => ⟨rfl, Iff.rfl⟩) _ _ _
  | prints k =>
    rw [step] at he
    cases hx : s.jobs[k]? with
    | none => rw [hx] at he; cases he
    | some x =>
      rw [hx, Option.bind_some, jobPrints] at he
      split at he
      · cases he
      · rename_i hp
        cases he
        refine knows_on s h (fun j => { j with phase := .printed }) _ (fun j hj => ⟨rfl, ?_⟩) _ _ _
        rw [hx] at hj
        cases hj
        have : x.phase = .reads := by
          by_cases hr : x.phase = .reads
          · exact hr
          · exact absurd (Or.inl hr) hp
        simp [this]
  | exits k =>
    rw [step] at he
    cases hx : s.jobs[k]? with
    | none => rw [hx] at he; cases he
    | some x =>
      rw [hx, Option.bind_some, jobExits] at he
      split at he
      · cases he
      · cases he
        intro i
        simp only [onJob_get]
        by_cases hi : i = k
        · subst hi
          rw [if_pos rfl, hx]
          constructor
          · intro hf
            split at hf
            · cases hf
            · rename_i hne
              exact absurd hf hne
          · rintro ⟨j, hj, -, hg⟩
            cases hj
            exact absurd rfl hg
        · rw [if_neg hi, ← h i]
          split
          · rename_i hf
            rw [hf]
            constructor
            · intro h; cases h
            · intro h; cases h; exact absurd rfl hi
          · exact Iff.rfl

/-- C95: the server always knows its filter job: there is at most one that has not exited, and when it has exited another one can be started. -/
theorem C95_filter {s : Srv} {es : List Ev} (h : run start es = some s) :
    (∀ k, s.filter = some k ↔ ∃ j, s.jobs[k]? = some j ∧ j.kind = .filter ∧ j.phase ≠ .gone) ∧
    ((∀ j ∈ s.jobs, j.kind = .filter → j.phase = .gone) ↔ ∃ s', step s .filter = some s') := by
  have main : ∀ (es : List Ev) {s s' : Srv}, Knows s → run s es = some s' → Knows s' := by
    intro es
    induction es with
    | nil => intro s s' hs e; cases e; exact hs
    | cons e es ih =>
      intro s s' hs he
      rw [run] at he
      cases hx : step s e with
      | none => rw [hx] at he; cases he
      | some x =>
        rw [hx, Option.bind_some] at he
        exact ih (knows_step hs hx) he
  have hs : Knows s := main es (fun k => by simp [start]) h
  refine ⟨hs, fun ha => ?_, ?_⟩
  · cases hf : s.filter with
    | none => exact ⟨_, by rw [step, hf, if_neg (by simp)]⟩
    | some k =>
      obtain ⟨j, hj, h1, h2⟩ := (hs k).1 hf
      exact absurd (ha j (List.mem_of_getElem? hj) h1) h2
  · rintro ⟨s', he⟩ j hj h1
    by_cases hg : j.phase = .gone
    · exact hg
    · obtain ⟨k, hk⟩ := List.getElem?_of_mem hj
      have := (hs k).2 ⟨j, hk, h1, hg⟩
      rw [step, this, if_pos (by simp)] at he
      cases he

example : (run start [.filter, .filter] = none) ∧ (run start [.filter, .prints 0, .exits 0, .filter]).isSome = true := by decide

/-- C95: without a message of the client, the jobs can do only so much. -/
theorem C95_bounded {s s' : Srv} {es : List Ev} (he : ∀ e ∈ es, e.client = false) (h : run s es = some s') : es.length ≤ 2 * s.jobs.length := by
  have a := work_run es he h
  have b : ∀ js : List Job, work js ≤ 2 * js.length := by
    intro js
    induction js with
    | nil => simp [work]
    | cons j js ih =>
      simp only [work, List.length_cons]
      split <;> omega
  have := b s.jobs
  omega

/-- C95: whatever the client has sent, if it has ended all it has begun, then the jobs go on until all have exited. -/
theorem C95_ends {s : Srv} {es : List Ev} (h : run start es = some s) (h1 : s.store = none) (h2 : s.info = none) (hr : AtRest s) : ∀ j ∈ s.jobs, j.phase = .gone := by
  intro j hj
  obtain ⟨k, hk⟩ := List.getElem?_of_mem hj
  exact rest_all (inv_run es (inv_start False) (fun x => x.elim) h) hr h1 h2 s.jobs.length k j (by omega) hk

/-- C95: if the client does not begin with metadata while it sends an object, the server does not wait for ever: when nothing more
happens without the client, it listens to the client. -/
theorem C95_waits_partial {s : Srv} {es : List Ev} (ho : Orderly start es) (h : run start es = some s) (hr : AtRest s) : s.waits = false :=
  rest_waits (inv_run es (inv_start True) (fun _ => ho) h) hr

/-- The client sends an object, begins to send metadata, and ends the object. -/
def mixed : Srv := { jobs := [⟨.store, .reads, false, []⟩, ⟨.info, .reads, true, [0]⟩], filter := none, store := none, info := some 1, waits := true }

/-- What stays as it is. -/
structure Hangs (s : Srv) : Prop where
  waits : s.waits = true
  fst : s.jobs[0]? = some ⟨.store, .reads, false, []⟩
  snd : s.jobs[1]? = some ⟨.info, .reads, true, [0]⟩
  others : ∀ (k : Nat) (j : Job), s.jobs[k + 2]? = some j → j.kind = .filter

theorem hangs_on {s : Srv} (h : Hangs s) {k : Nat} (hk : 2 ≤ k) {g : Job → Job} (hg : ∀ j, (g j).kind = j.kind) {f st nf : Option Nat} :
    Hangs { jobs := onJob g k s.jobs, filter := f, store := st, info := nf, waits := s.waits } := by
  refine ⟨h.waits, ?_, ?_, ?_⟩
  · show (onJob _ _ _)[0]? = _
    rw [onJob_get, if_neg (by omega)]; exact h.fst
  · show (onJob _ _ _)[1]? = _
    rw [onJob_get, if_neg (by omega)]; exact h.snd
  · intro n j hj
    replace hj : (onJob g k s.jobs)[n + 2]? = some j := hj
    rw [onJob_get] at hj
    split at hj
    · cases hx : s.jobs[n + 2]? with
      | none => rw [hx] at hj; cases hj
      | some x => rw [hx] at hj; cases hj; rw [hg]; exact h.others n x hx
    · exact h.others n j hj

theorem hangs_step {s s' : Srv} {e : Ev} (h : Hangs s) (hs : step s e = some s') : Hangs s' := by
  cases e with
  | filter =>
    simp only [step] at hs
    split at hs
    · cases hs
    · cases hs
      have l2 : 2 ≤ s.jobs.length := lt_length h.snd
      refine ⟨h.waits, ?_, ?_, ?_⟩
      · show (jobStart _ _ _)[0]? = _
        rw [jobStart_get, if_neg (by omega)]; exact h.fst
      · show (jobStart _ _ _)[1]? = _
        rw [jobStart_get, if_neg (by omega)]; exact h.snd
      · intro k j hj
        replace hj : (jobStart s .filter false)[k + 2]? = some j := hj
        rw [jobStart_get] at hj
        split at hj
        · cases hj; rfl
        · exact h.others k j hj
  | data => simp [step, h.waits] at hs
  | dataEnd => simp [step, h.waits] at hs
  | info => simp [step, h.waits] at hs
  | infoEnd => simp [step, h.waits] at hs
  | prints k =>
    match k with
    | 0 =>
      have hi : inherited s 0 = true := inherited_iff.2 ⟨1, _, h.snd, by simp, by simp⟩
      simp [step, h.fst, jobPrints, hi] at hs
    | 1 => simp [step, h.snd, jobPrints] at hs
    | k + 2 =>
      simp only [step] at hs
      cases hx : s.jobs[k + 2]? with
      | none => rw [hx] at hs; cases hs
      | some x =>
        rw [hx] at hs
        simp only [Option.bind_some, jobPrints] at hs
        split at hs
        · cases hs
        · cases hs
          simp only [h.others k x hx, if_true]
          exact hangs_on h (g := fun j => { j with phase := .printed }) (by omega) (fun _ => rfl)
  | exits k =>
    match k with
    | 0 => simp [step, h.fst, jobExits] at hs
    | 1 => simp [step, h.snd, jobExits] at hs
    | k + 2 =>
      simp only [step] at hs
      cases hx : s.jobs[k + 2]? with
      | none => rw [hx] at hs; cases hs
      | some x =>
        rw [hx] at hs
        simp only [Option.bind_some, jobExits] at hs
        split at hs
        · cases hs
        · cases hs
          exact hangs_on h (g := fun j => { j with phase := .gone }) (by omega) (fun _ => rfl)

/-- C95, the wrong part: otherwise the server can wait for ever.  The metadata job has the input of the store job open, and waits for what
the server would read from the client if it did not wait for the store job. -/
theorem C95_counterexample_mixed : run start [.data, .info, .dataEnd] = some mixed ∧ ∀ es s, run mixed es = some s → s.waits = true := by
  refine ⟨by decide, fun es s h => ?_⟩
  have main : ∀ (es : List Ev) {s s' : Srv}, Hangs s → run s es = some s' → Hangs s' := by
    intro es
    induction es with
    | nil => intro s s' h e; cases e; exact h
    | cons e es ih =>
      intro s s' h he
      rw [run] at he
      cases h1 : step s e with
      | none => rw [h1] at he; cases he
      | some s1 => rw [h1] at he; exact ih (hangs_step h h1) he
  have h0 : Hangs mixed := ⟨rfl, rfl, rfl, fun k j hj => by simp [mixed] at hj⟩
  exact (main es h0 h).waits

/-- A filter job that is started while an object is being sent keeps the store job waiting only until it exits. -/
example : (run start [.data, .filter, .dataEnd, .prints 0] = none) ∧
    ∃ s, run start [.data, .filter, .dataEnd, .prints 1, .exits 1, .prints 0, .exits 0, .info, .infoEnd, .prints 2, .exits 2] = some s ∧
      s.waits = false ∧ s.jobs.all (fun j => j.phase = .gone) = true := by
  refine ⟨by decide, _, rfl, by decide, by decide⟩

example : Orderly start [.data, .dataEnd] := by
  refine ⟨by simp, fun s' _ => ⟨by simp, fun _ _ => trivial⟩⟩

/-- C95: the client of the package is such a client, under the conditions of C62: when it has sent something of the metadata, or the
server has a metadata job, then no object is being sent, is on its way, or is waited for. -/
theorem C95_stow_partial {g : StowData.Cfg} {files : List Stow.Item} (hg : StowData.CfgOk g files) {known : Bytes → Bool} {es : List StowData.Ev} {s : StowData.Sys}
    (ho : StowData.RunOk g (StowData.start g files [] known) es) (hr : StowData.run g (StowData.start g files [] known) es = some (.ok s))
    (hm : (∃ p, StowData.Msg.info p ∈ s.up) ∨ s.mjob ≠ none ∨ s.mpend ≠ none) :
    s.store = none ∧ s.pend = none ∧ s.send = none ∧ ∀ p, StowData.Msg.data p ∉ s.up := by
  obtain ⟨s', e, h⟩ := StowData.run_inv hg es (StowData.dinv_start files known) ho hr
  cases e
  rcases h.rest with h | h
  · exfalso
    rcases hm with ⟨p, hp⟩ | hm | hm
    · have : p ∈ StowData.iMsgs s.up := List.mem_filterMap.2 ⟨_, hp, rfl⟩
      rw [h.iup] at this; cases this
    · exact hm h.mjob
    · exact hm h.mpend
  · refine ⟨h.store, h.pend, h.send, fun p hp => ?_⟩
    have : p ∈ StowData.dMsgs s.up := List.mem_filterMap.2 ⟨_, hp, rfl⟩
    rw [h.dup] at this; cases this

end Verif.Props
