/-
Properties C25 - C27, C29, C30: the silo writing processes and the cache file.
-/
import Verif.Proofs.Commit
import Verif.Proofs.Bytes
import Verif.Model.Cache

namespace Verif.Props
open Verif Commit

/-! ### C26: archived bytes -/

theorem commit_grows {max : Nat} {jobs : Nat → Job} {s s' : St} {a : Act} (h : step max jobs s a = some s') :
    (∀ n f, s.silos n = some f → ∃ f', s'.silos n = some f' ∧ f.data <+: f'.data) ∧ s.idx <+: s'.idx := by
  have hid : (∀ n f, s.silos n = some f → ∃ f', s.silos n = some f' ∧ f.data <+: f'.data) :=
    fun n f h => ⟨f, h, List.prefix_refl _⟩
  have hset : ∀ (p : Nat) (pc : Pc), (∀ n f, s.silos n = some f → ∃ f', (setPc s p pc).silos n = some f' ∧ f.data <+: f'.data) ∧
      s.idx <+: (setPc s p pc).idx := fun p pc => ⟨hid, List.prefix_refl _⟩
  cases a with
  | go p =>
    simp only [step, Option.bind_eq_some_iff] at h
    obtain ⟨pc, hp, h⟩ := h
    cases pc <;> simp only [stepGo, Option.some.injEq, reduceCtorEq] at h
    case probed => subst h; exact hset _ _
    case opening => split at h <;> subst h <;> exact ⟨hid, List.prefix_refl _⟩
    case appLock => split at h <;> subst h <;> exact ⟨hid, List.prefix_refl _⟩
    case appCheck => subst h; exact hset _ _
    case appWrite n sn =>
      unfold stepWrite at h
      cases hs : s.silos sn with
      | none => rw [hs] at h; subst h; exact hset _ _
      | some f =>
        rw [hs] at h
        have : (∀ n g, s.silos n = some g → ∃ f', upd s.silos sn (some { f with data := f.data ++ (jobs p).appended }) n = some f' ∧ g.data <+: f'.data) := by
          intro m g hg
          by_cases hm : m = sn
          · subst hm; rw [hs] at hg; cases hg
            exact ⟨{ f with data := f.data ++ (jobs p).appended }, by simp [upd], List.prefix_append _ _⟩
          · exact ⟨g, by simp [upd, hm, hg], List.prefix_refl _⟩
        simp only at h
        split at h <;> subst h <;> exact ⟨this, List.prefix_refl _⟩
    case appIdx => subst h; exact ⟨hid, List.prefix_append _ _⟩
    case appUnlock => subst h; exact ⟨hid, List.prefix_refl _⟩
    case final => subst h; exact ⟨hid, List.prefix_append _ _⟩
    case install => subst h; exact ⟨hid, List.prefix_append _ _⟩
    case linking n =>
      unfold stepLink at h
      cases hs : s.silos n with
      | some f => rw [hs] at h; subst h; exact hset _ _
      | none =>
        rw [hs] at h; subst h
        refine ⟨?_, List.prefix_refl _⟩
        intro m g hg
        by_cases hm : m = n
        · subst hm; rw [hs] at hg; cases hg
        · exact ⟨g, by simp [setPc, upd, hm, hg], List.prefix_refl _⟩
    case del => subst h; exact ⟨hid, List.prefix_refl _⟩
  | create p n =>
    simp only [step, Option.bind_eq_some_iff] at h
    obtain ⟨pc, hp, h⟩ := h
    cases pc <;> simp only [stepCreate, Option.some.injEq, reduceCtorEq] at h
    subst h; exact hset _ _
  | append p sn =>
    simp only [step, Option.bind_eq_some_iff] at h
    obtain ⟨pc, hp, h⟩ := h
    cases pc <;> simp only [stepAppend, reduceCtorEq] at h
    split at h
    · simp only [Option.some.injEq, stepTry] at h
      cases hs : s.silos sn with
      | none => rw [hs] at h; subst h; exact hset _ _
      | some f =>
        rw [hs] at h
        simp only at h
        split at h
        · subst h; exact hset _ _
        · split at h <;> subst h <;> exact hset _ _
    · cases h
  | giveUp p =>
    simp only [step, Option.bind_eq_some_iff] at h
    obtain ⟨pc, hp, h⟩ := h
    cases pc <;> simp only [stepGiveUp, Option.some.injEq, reduceCtorEq] at h
    subst h; exact hset _ _
  | drop p =>
    simp only [step, Option.bind_eq_some_iff] at h
    obtain ⟨pc, hp, h⟩ := h
    cases pc <;> simp only [stepDrop, Option.some.injEq, reduceCtorEq] at h
    subst h; exact hset _ _
  | crash p =>
    simp only [step] at h
    split at h
    · cases h; exact hset _ _
    · cases h
  | rmHold n =>
    simp only [step] at h
    split at h
    · cases h
    · cases h; exact ⟨hid, List.prefix_refl _⟩
  | protect n =>
    simp only [step, stepProtect] at h
    cases hs : s.silos n with
    | none => rw [hs] at h; cases h
    | some f =>
      rw [hs] at h
      simp only [Option.some.injEq] at h
      subst h
      refine ⟨?_, List.prefix_refl _⟩
      intro m g hg
      by_cases hm : m = n
      · subst hm; rw [hs] at hg; cases hg
        exact ⟨{ f with writable := false }, by simp [upd], List.prefix_refl _⟩
      · exact ⟨g, by simp [upd, hm, hg], List.prefix_refl _⟩

/-- C26: whatever any number of storing processes do from any state on, in any order, killed anywhere, with
any numbers in the cache file, every silo's bytes remain as a prefix of that silo, and no index entry
goes away. -/
theorem C26_never_changed {max : Nat} {jobs : Nat → Job} (as : List Act) : ∀ {s s' : St}, run max jobs s as = some s' →
    (∀ n f, s.silos n = some f → ∃ f', s'.silos n = some f' ∧ f.data <+: f'.data) ∧ s.idx <+: s'.idx := by
  induction as with
  | nil => intro s s' h; cases h; exact ⟨fun n f h => ⟨f, h, List.prefix_refl _⟩, List.prefix_refl _⟩
  | cons a as ih =>
    intro s s' h
    simp only [run, Option.bind_eq_some_iff] at h
    obtain ⟨t, ht, h⟩ := h
    obtain ⟨g1, g2⟩ := commit_grows ht
    obtain ⟨k1, k2⟩ := ih h
    refine ⟨?_, g2.trans k2⟩
    intro n f hf
    obtain ⟨f', e1, e2⟩ := g1 n f hf
    obtain ⟨f'', e3, e4⟩ := k1 n f' e1
    exact ⟨f'', e3, e2.trans e4⟩

/-- What a single action does to the silos: nothing to their bytes, or one process appends its record, or
one process installs its hold file where there is no silo.  In the last two cases the process has the
silo's hold file. -/
theorem commit_change {max : Nat} {jobs : Nat → Job} {s s' : St} {a : Act} (h : step max jobs s a = some s') (n : Nat) (f' : Silo)
    (hf : s'.silos n = some f') :
    (∃ f, s.silos n = some f ∧ f'.data = f.data) ∨
    (∃ p pc, a = .go p ∧ s.procs[p]? = some pc ∧ n ∈ pc.owns ∧
      ((∃ f m, pc = .appWrite m n ∧ s.silos n = some f ∧ f'.data = f.data ++ (jobs p).appended) ∨ (s.silos n = none ∧ f'.data = (jobs p).hold n))) := by
  have hsame : s'.silos = s.silos → (∃ f, s.silos n = some f ∧ f'.data = f.data) := fun h => ⟨f', by rw [← h]; exact hf, rfl⟩
  cases a with
  | go p =>
    simp only [step, Option.bind_eq_some_iff] at h
    obtain ⟨pc, hp, h⟩ := h
    cases pc <;> simp only [stepGo, Option.some.injEq, reduceCtorEq] at h
    case appWrite m sn =>
      unfold stepWrite at h
      cases hs : s.silos sn with
      | none => rw [hs] at h; subst h; exact Or.inl (hsame rfl)
      | some f =>
        rw [hs] at h
        have hsil : s'.silos = upd s.silos sn (some { f with data := f.data ++ (jobs p).appended }) := by
          simp only at h
          split at h <;> subst h <;> rfl
        rw [hsil] at hf
        by_cases hm : n = sn
        · subst hm
          simp only [upd, if_true, Option.some.injEq] at hf
          subst hf
          exact Or.inr ⟨p, _, rfl, hp, by simp [Pc.owns], Or.inl ⟨f, m, rfl, hs, rfl⟩⟩
        · simp only [upd, if_neg hm] at hf
          exact Or.inl ⟨f', hf, rfl⟩
    case linking m =>
      unfold stepLink at h
      cases hs : s.silos m with
      | some f => rw [hs] at h; subst h; exact Or.inl (hsame rfl)
      | none =>
        rw [hs] at h; subst h
        by_cases hm : n = m
        · subst hm
          simp only [setPc, upd, if_true, Option.some.injEq] at hf
          subst hf
          exact Or.inr ⟨p, _, rfl, hp, by simp [Pc.owns], Or.inr ⟨hs, rfl⟩⟩
        · simp only [setPc, upd, if_neg hm] at hf
          exact Or.inl ⟨f', hf, rfl⟩
    all_goals
      left
      apply hsame
      first
        | (subst h; rfl)
        | (split at h <;> subst h <;> rfl)
  | create p m =>
    simp only [step, Option.bind_eq_some_iff] at h
    obtain ⟨pc, hp, h⟩ := h
    cases pc <;> simp only [stepCreate, Option.some.injEq, reduceCtorEq] at h
    subst h; exact Or.inl (hsame rfl)
  | append p sn =>
    simp only [step, Option.bind_eq_some_iff] at h
    obtain ⟨pc, hp, h⟩ := h
    cases pc <;> simp only [stepAppend, reduceCtorEq] at h
    split at h
    · simp only [Option.some.injEq, stepTry] at h
      left
      apply hsame
      cases hs : s.silos sn with
      | none => rw [hs] at h; subst h; rfl
      | some f =>
        rw [hs] at h
        simp only at h
        split at h
        · subst h; rfl
        · split at h <;> subst h <;> rfl
    · cases h
  | giveUp p =>
    simp only [step, Option.bind_eq_some_iff] at h
    obtain ⟨pc, hp, h⟩ := h
    cases pc <;> simp only [stepGiveUp, Option.some.injEq, reduceCtorEq] at h
    subst h; exact Or.inl (hsame rfl)
  | drop p =>
    simp only [step, Option.bind_eq_some_iff] at h
    obtain ⟨pc, hp, h⟩ := h
    cases pc <;> simp only [stepDrop, Option.some.injEq, reduceCtorEq] at h
    subst h; exact Or.inl (hsame rfl)
  | crash p =>
    simp only [step] at h
    split at h
    · cases h; exact Or.inl (hsame rfl)
    · cases h
  | rmHold m =>
    simp only [step] at h
    split at h
    · cases h
    · cases h; exact Or.inl (hsame rfl)
  | protect m =>
    simp only [step, stepProtect] at h
    cases hs : s.silos m with
    | none => rw [hs] at h; cases h
    | some f =>
      rw [hs] at h
      simp only [Option.some.injEq] at h
      subst h
      by_cases hm : n = m
      · subst hm
        simp only [upd, if_true, Option.some.injEq] at hf
        subst hf
        exact Or.inl ⟨f, hs, rfl⟩
      · simp only [upd, if_neg hm] at hf
        exact Or.inl ⟨f', hf, rfl⟩

/-- C26, whole records: at any time, wherever processes were killed, each silo is what it was, or the
hold file of one process, followed by whole appended records. -/
theorem C26_whole_records {max : Nat} {jobs : Nat → Job} (as : List Act) : ∀ {s s' : St}, run max jobs s as = some s' →
    ∀ n f', s'.silos n = some f' → ∃ (base : Bytes) (qs : List Nat),
      ((∃ f, s.silos n = some f ∧ base = f.data) ∨ (s.silos n = none ∧ ∃ p, base = (jobs p).hold n)) ∧
      f'.data = base ++ (qs.map fun q => (jobs q).appended).flatten := by
  induction as with
  | nil => intro s s' h n f' hf; cases h; exact ⟨f'.data, [], Or.inl ⟨f', hf, rfl⟩, by simp⟩
  | cons a as ih =>
    intro s s' h n f' hf
    simp only [run, Option.bind_eq_some_iff] at h
    obtain ⟨t, ht, h⟩ := h
    obtain ⟨base, qs, hb, hd⟩ := ih h n f' hf
    rcases hb with ⟨g, hg, rfl⟩ | ⟨hn, hb⟩
    · rcases commit_change ht n g hg with ⟨f, h1, h2⟩ | ⟨p, pc, _, _, _, ⟨f, _, _, h1, h2⟩ | ⟨h1, h2⟩⟩
      · exact ⟨f.data, qs, Or.inl ⟨f, h1, rfl⟩, by rw [hd, h2]⟩
      · exact ⟨f.data, p :: qs, Or.inl ⟨f, h1, rfl⟩, by rw [hd, h2]; simp⟩
      · exact ⟨(jobs p).hold n, qs, Or.inr ⟨h1, p, rfl⟩, by rw [hd, h2]⟩
    · refine ⟨base, qs, Or.inr ⟨?_, hb⟩, hd⟩
      cases hs : s.silos n with
      | none => rfl
      | some f =>
        obtain ⟨g, hg, _⟩ := (commit_grows ht).1 n f hs
        rw [hn] at hg; cases hg

/-! ### C25: sizes -/

/-- C25: no silo grows beyond the configured size, if none was too big to begin with and no hold file
is too big (`C25_hold` shows that no store makes one). -/
theorem C25_sizes {max : Nat} {jobs : Nat → Job} (hj : ∀ p n, ((jobs p).hold n).length ≤ max) (as : List Act) :
    ∀ {s s' : St}, Inv max jobs s → (∀ n f, s.silos n = some f → f.data.length ≤ max) → run max jobs s as = some s' →
    ∀ n f, s'.silos n = some f → f.data.length ≤ max := by
  induction as with
  | nil => intro s s' _ h0 h; cases h; exact h0
  | cons a as ih =>
    intro s s' hi h0 h
    simp only [run, Option.bind_eq_some_iff] at h
    obtain ⟨t, ht, h⟩ := h
    refine ih (inv_step hi a ht) ?_ h
    intro n f' hf
    rcases commit_change ht n f' hf with ⟨f, h1, h2⟩ | ⟨p, pc, ha, hp, _, ⟨f, m, hpc, h1, h2⟩ | ⟨h1, h2⟩⟩
    · rw [h2]; exact h0 n f h1
    · obtain ⟨_, g, hg, hfit⟩ : _ ∧ ∃ g, s.silos n = some g ∧ _ := by
        have := hi.pcok p pc hp
        rw [hpc] at this
        exact this
      rw [h1] at hg; cases hg
      rw [h2, List.length_append]; exact hfit
    · rw [h2]; exact hj p n

theorem C25_from_start {max : Nat} {jobs : Nat → Job} (hj : ∀ p n, ((jobs p).hold n).length ≤ max) {s s' : St} (hs : Start s)
    (h0 : ∀ n f, s.silos n = some f → f.data.length ≤ max) (as : List Act) (h : run max jobs s as = some s') :
    ∀ n f, s'.silos n = some f → f.data.length ≤ max :=
  C25_sizes hj as (inv_start hs) h0 h

/-! ### C27: hold files -/

/-- C27: two processes never have the same hold file, in any interleaving. -/
theorem C27_exclusive {max : Nat} {jobs : Nat → Job} {s s' : St} (hs : Start s) (as : List Act) (h : run max jobs s as = some s')
    (p q : Nat) (a b : Pc) (n : Nat) (hp : s'.procs[p]? = some a) (hq : s'.procs[q]? = some b) (ha : n ∈ a.owns) (hb : n ∈ b.owns) :
    p = q := (inv_run as (inv_start (max := max) (jobs := jobs) hs) h).excl p q a b n hp hq ha hb

/-- C27: while a process has the hold file of a silo, no other process changes or creates that silo. -/
theorem C27_only_owner_writes {max : Nat} {jobs : Nat → Job} {s s' t : St} (hs : Start s) (as : List Act) (h : run max jobs s as = some s')
    (p : Nat) (pc : Pc) (n : Nat) (hp : s'.procs[p]? = some pc) (hn : n ∈ pc.owns) (a : Act) (ha : a ≠ .go p)
    (ht : step max jobs s' a = some t) : (t.silos n).map (·.data) = (s'.silos n).map (·.data) := by
  have hi := inv_run as (inv_start (max := max) (jobs := jobs) hs) h
  cases hf : t.silos n with
  | none =>
    cases hg : s'.silos n with
    | none => rfl
    | some f =>
      obtain ⟨g, hg, _⟩ := (commit_grows ht).1 n f hg
      rw [hf] at hg; cases hg
  | some f' =>
    rcases commit_change ht n f' hf with ⟨f, h1, h2⟩ | ⟨q, qc, hgo, hq, hqn, _⟩
    · simp [h1, h2]
    · have := hi.excl p q pc qc n hp hq hn hqn
      subst this
      exact absurd hgo ha

/-- C27: a hold file that is there keeps everybody from starting on that number, and from appending to
that silo. -/
theorem C27_hold_blocks {max : Nat} {j : Job} (s : St) (p n m : Nat) (h : s.holds n = true) :
    stepGo max j s p (.opening n) = some (setPc s p .idle) ∧ stepGo max j s p (.appLock m n) = some (setPc s p (.ready m)) := by
  simp [stepGo, h]

/-! ### C29: index entries -/

/-- C29, as far as it goes: at every moment each index entry made by the storing processes points at the
complete bytes of its record, or it was made by `Wsilo_Commit` or `Wsilo_Install` of a process that has not
yet linked its silo, or that died before doing so. -/
theorem C29_entries_partial {max : Nat} {jobs : Nat → Job} {s s' : St} (hs : Start s) (as : List Act) (h : run max jobs s as = some s')
    (e : Entry) (he : e ∈ s'.idx) : e.Points jobs s' ∨
      e.kind ≠ .app ∧ (s'.procs[e.proc]? = some (.install e.silo) ∨ s'.procs[e.proc]? = some (.linking e.silo) ∨ s'.procs[e.proc]? = some .dead) :=
  ((inv_run as (inv_start (max := max) (jobs := jobs) hs) h).ents e he).1

/-- C29: the entries of a process that came to its end point at its complete records, also after
everything that happens later. -/
theorem C29_finished {max : Nat} {jobs : Nat → Job} {s s' : St} (hs : Start s) (as : List Act) (h : run max jobs s as = some s')
    (e : Entry) (he : e ∈ s'.idx) (hd : s'.procs[e.proc]? = some .done) : e.Points jobs s' := by
  rcases C29_entries_partial hs as h e he with h | ⟨_, h⟩
  · exact h
  · rw [hd] at h; simp at h

/-- C29: entries for appended records are never made before the record is there. -/
theorem C29_appended {max : Nat} {jobs : Nat → Job} {s s' : St} (hs : Start s) (as : List Act) (h : run max jobs s as = some s')
    (e : Entry) (he : e ∈ s'.idx) (hk : e.kind = .app) : e.Points jobs s' := by
  rcases C29_entries_partial hs as h e he with h | ⟨h, _⟩
  · exact h
  · exact absurd hk h

/-- A small job for the examples. -/
def demoJob (k : UInt8) : Job := { info := fun n => [1, 1, UInt8.ofNat n], hdr := [k, k, 0], hdrz := [k], body := [9, k], segd := false }

def demoJobs (p : Nat) : Job := demoJob (UInt8.ofNat (p + 10))

theorem start_init (np : Nat) : Start (Commit.init np) := ⟨fun pc h => (List.mem_replicate.1 h).2, rfl⟩

/-- Installing two silos, the second of which has its object appended to the first one instead. -/
def demoActs : List Act :=
  [.create 0 0, .go 0, .go 0, .giveUp 0, .go 0, .go 0, .go 0, .go 0,
   .create 1 1, .go 1, .go 1, .append 1 0, .go 1, .go 1, .go 1, .go 1, .go 1, .go 1]

example : ((run 100 demoJobs (Commit.init 2) demoActs).map fun s => ((s.silos 0).map (·.data), s.silos 1)) =
    some (some [1, 1, 0, 10, 10, 0, 9, 10, 11, 9, 11], none) := by decide
example : ((run 100 demoJobs (Commit.init 2) demoActs).map fun s => (s.idx, s.procs)) =
    some ([⟨0, .obj, 0, 3⟩, ⟨0, .info, 0, 0⟩, ⟨1, .app, 0, 8⟩], [.done, .done]) := by decide

/-- C29 is false: a process killed between `IDX_Insert` and `link` leaves an entry for a silo that does
not exist. -/
theorem C29_counterexample_crash : ∃ (jobs : Nat → Job) (as : List Act) (s' : St) (e : Entry),
    run 100 jobs (Commit.init 1) as = some s' ∧ e ∈ s'.idx ∧ s'.silos e.silo = none ∧ s'.procs[e.proc]? = some .dead := by
  refine ⟨demoJobs, [.create 0 0, .go 0, .go 0, .giveUp 0, .go 0, .crash 0], (run 100 demoJobs (Commit.init 1) [.create 0 0, .go 0, .go 0, .giveUp 0, .go 0, .crash 0]).get (by decide), ⟨0, .obj, 0, 3⟩, by simp, by decide, by decide, by decide⟩

/-- C29 is false without crashes, too: process 1 looks for silo 0 before process 0 installs it, and takes
the hold file after process 0 has removed it.  Its `link` fails, the assertion kills it, and its
entries point into the other process's silo, at other bytes. -/
theorem C29_counterexample_race : ∃ (jobs : Nat → Job) (as : List Act) (s' : St) (e : Entry) (f : Silo),
    (∀ a ∈ as, ∀ p, a ≠ .crash p) ∧ run 100 jobs (Commit.init 2) as = some s' ∧ e ∈ s'.idx ∧ s'.silos e.silo = some f ∧
    ¬ e.want jobs <+: f.data.drop e.off ∧ s'.procs[e.proc]? = some .dead := by
  refine ⟨demoJobs, [.create 0 0, .go 0, .create 1 0, .go 0, .giveUp 0, .go 0, .go 0, .go 0, .go 0,
    .go 1, .go 1, .giveUp 1, .go 1, .go 1, .go 1], (run 100 demoJobs (Commit.init 2) [.create 0 0, .go 0, .create 1 0, .go 0, .giveUp 0, .go 0, .go 0, .go 0, .go 0,
    .go 1, .go 1, .giveUp 1, .go 1, .go 1, .go 1]).get (by decide), ⟨1, .obj, 0, 3⟩, ⟨[1, 1, 0, 10, 10, 0, 9, 10], true⟩, ?_, by simp, by decide, by decide, by decide, by decide⟩
  intro a ha p h
  subst h
  revert ha
  simp

/-! ### C30: the cache -/

open Cache

/-- C30: what was written to the cache file is read back, whatever the file had before. -/
theorem C30_roundtrip (file : Option Bytes) (c d : Cache) (h1 : c.firstNon < 2 ^ 32) (h2 : c.firstSpace < 2 ^ 32) :
    readCache (some (writeCache file c)) d = c := by
  unfold readCache writeCache
  have l1 : (beEnc 4 c.firstNon).length = 4 := beEnc_length _ _
  have l2 : (beEnc 4 c.firstSpace).length = 4 := beEnc_length _ _
  have l3 : (beEnc 4 c.firstNon ++ beEnc 4 c.firstSpace).length = 8 := by rw [List.length_append, l1, l2]
  simp only
  rw [List.take_left' l3, if_pos l3, List.append_assoc, List.take_left' l1, List.drop_left' l1, List.take_left' l2,
    beDec_beEnc, beDec_beEnc]
  have e : (256 : Nat) ^ 4 = 2 ^ 32 := by decide
  rw [e, Nat.mod_eq_of_lt h1, Nat.mod_eq_of_lt h2]

/-- C30: a cache file that is too short is ignored. -/
theorem C30_short (b : Bytes) (c : Cache) (h : b.length < 8) : readCache (some b) c = c := by
  unfold readCache
  simp only
  rw [if_neg]
  rw [List.length_take]; omega

/-- C30: the numbers stay ordered, if those in the file are, until the silo numbers run out. -/
theorem C30_ordered (max : Nat) (c : Cache) (op : Op) (h : c.firstSpace ≤ c.firstNon) (h32 : c.firstNon < 2 ^ 32 - 1)
    (hl : ∀ f, op = .load f → (readCache f c).firstSpace ≤ (readCache f c).firstNon) :
    (apply max c op).firstSpace ≤ (apply max c op).firstNon := by
  have e : (2 : Nat) ^ 32 = 4294967296 := by decide
  have hb : ∀ n, (bumpNon n c).firstSpace ≤ (bumpNon n c).firstNon := by
    intro n
    unfold bumpNon
    split
    · simp only; omega
    · exact h
  cases op with
  | load f => exact hl f rfl
  | install n => exact hb n
  | look n size w =>
    unfold apply
    simp only
    split
    · unfold bumpSpace
      simp only
      split
      · rename_i hc
        simp only
        have h1 := hc.1
        unfold bumpNon at h1 ⊢
        split at h1
        · rename_i hn
          rw [if_pos hn]
          simp only at h1 ⊢
          omega
        · rename_i hn
          rw [if_neg hn]
          omega
      · exact hb n
    · exact hb n

/-- C30: whatever the cache file says, the number chosen for a new silo is one that has neither a silo nor a
hold file, and every number between the cached one and it has. -/
theorem C30_no_reuse (silo hold : Nat → Bool) (fuel : Nat) : ∀ (n m : Nat), wsiloNext silo hold fuel n = some m →
    n ≤ m ∧ silo m = false ∧ hold m = false ∧ ∀ k, n ≤ k → k < m → silo k = true ∨ hold k = true := by
  induction fuel with
  | zero => intro n m h; cases h
  | succ fuel ih =>
    intro n m h
    simp only [wsiloNext] at h
    split at h
    · rename_i hc
      obtain ⟨a, b, c, d⟩ := ih _ _ h
      refine ⟨by omega, b, c, ?_⟩
      intro k h1 h2
      by_cases hk : k = n
      · rw [hk]; exact hc
      · exact d k (by omega) h2
    · rename_i hc
      cases h
      refine ⟨Nat.le_refl _, ?_, ?_, fun k h1 h2 => by omega⟩
      · cases h : silo n <;> simp_all
      · cases h : hold n <;> simp_all

/-- C30: the search comes to an end if there are finitely many silos and hold files. -/
theorem C30_next_found (silo hold : Nat → Bool) (N : Nat) (h : ∀ k, N ≤ k → silo k = false ∧ hold k = false) (n : Nat) :
    ∃ fuel m, wsiloNext silo hold fuel n = some m := by
  by_cases hn : N ≤ n
  · exact ⟨1, n, by simp [wsiloNext, h n hn]⟩
  · have : ∀ d n, N - n = d → ∃ fuel m, wsiloNext silo hold fuel n = some m := by
      intro d
      induction d with
      | zero => intro n hd; exact ⟨1, n, by simp [wsiloNext, h n (by omega)]⟩
      | succ d ih =>
        intro n hd
        obtain ⟨fuel, m, hm⟩ := ih (n + 1) (by omega)
        by_cases hc : silo n ∨ hold n
        · exact ⟨fuel + 1, m, by simp only [wsiloNext, if_pos hc]; exact hm⟩
        · exact ⟨1, n, by simp only [wsiloNext, if_neg hc]⟩
    exact this _ n rfl

/-- C30, in the interleaved model: an existing silo is never started on, and a `link` onto one leaves
everything as it is. -/
theorem C30_existing {max : Nat} {j : Job} (s : St) (p n : Nat) (f : Silo) (h : s.silos n = some f) :
    stepCreate s p n .idle = some (setPc s p .idle) ∧ stepGo max j s p (.linking n) = some (setPc s p .dead) := by
  simp [stepCreate, stepGo, stepLink, h]

example : readCache (some [0, 0, 1, 2, 0, 0, 0, 7]) ⟨0, 0⟩ = ⟨258, 7⟩ := by decide
example : writeCache (some [1, 2, 3, 4, 5, 6, 7, 8, 9]) ⟨258, 7⟩ = [0, 0, 1, 2, 0, 0, 0, 7, 9] := by decide
example : apply 100 ⟨3, 0⟩ (.look 0 99 true) = ⟨3, 1⟩ := by decide
example : wsiloNext (fun n => n < 3) (fun n => n = 4) 10 2 = some 3 := by decide

end Verif.Props
