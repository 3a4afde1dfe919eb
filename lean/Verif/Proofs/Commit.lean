/-
Invariant of the silo writing processes.
-/
import Verif.Model.Commit

namespace Verif.Commit
open Verif

/-- The bytes an index entry promises. -/
def Entry.want (jobs : Nat → Job) (e : Entry) : Bytes :=
  match e.kind with
  | .app => (jobs e.proc).appended
  | .obj => (jobs e.proc).hdr ++ (jobs e.proc).body
  | .info => (jobs e.proc).info e.silo

/-- The silo has the promised bytes where the entry says. -/
def Entry.Points (jobs : Nat → Job) (s : St) (e : Entry) : Prop :=
  ∃ f, s.silos e.silo = some f ∧ e.want jobs <+: f.data.drop e.off ∧ e.off ≤ f.data.length

/-- The process of the entry is between its first `IDX_Insert` and `link`, or it is dead. -/
def Entry.Pending (s : St) (e : Entry) : Prop :=
  e.kind ≠ .app ∧ (s.procs[e.proc]? = some (.install e.silo) ∨ s.procs[e.proc]? = some (.linking e.silo) ∨
    s.procs[e.proc]? = some .dead)

def Entry.OffOk (jobs : Nat → Job) (e : Entry) : Prop :=
  (e.kind = .obj → e.off = ((jobs e.proc).info e.silo).length) ∧ (e.kind = .info → e.off = 0)

/-- What is known about a process in each place. -/
def PcOk (max : Nat) (j : Job) (silos : Nat → Option Silo) : Pc → Prop
  | .appLock n sn => sn < n
  | .appCheck n sn => sn < n
  | .appWrite n sn => sn < n ∧ ∃ f, silos sn = some f ∧ f.data.length + j.appended.length ≤ max
  | .appIdx n sn off => sn < n ∧ ∃ f, silos sn = some f ∧ j.appended <+: f.data.drop off ∧ off ≤ f.data.length
  | .appUnlock n sn _ => sn < n
  | _ => True

structure Inv (max : Nat) (jobs : Nat → Job) (s : St) : Prop where
  held : ∀ (p : Nat) (pc : Pc) (n : Nat), s.procs[p]? = some pc → n ∈ pc.owns → s.holds n = true
  excl : ∀ (p q : Nat) (a b : Pc) (n : Nat), s.procs[p]? = some a → s.procs[q]? = some b → n ∈ a.owns → n ∈ b.owns → p = q
  pcok : ∀ (p : Nat) (pc : Pc), s.procs[p]? = some pc → PcOk max (jobs p) s.silos pc
  ents : ∀ e ∈ s.idx, (e.Points jobs s ∨ e.Pending s) ∧ e.OffOk jobs

/-- Silos only grow, and only those numbered in `ns`. -/
def Grows (ns : List Nat) (a b : Nat → Option Silo) : Prop :=
  ∀ n f, a n = some f → ∃ f', b n = some f' ∧ f.data <+: f'.data ∧ (f'.data = f.data ∨ n ∈ ns)

theorem Grows.refl (ns : List Nat) (a : Nat → Option Silo) : Grows ns a a :=
  fun _ f h => ⟨f, h, List.prefix_refl _, Or.inl rfl⟩

theorem prefix_drop_mono {w d d' : Bytes} {o : Nat} (h : w <+: d.drop o) (ho : o ≤ d.length) (hd : d <+: d') :
    w <+: d'.drop o := by
  obtain ⟨t, rfl⟩ := hd
  rw [List.drop_append_of_le_length ho]
  exact h.trans (List.prefix_append _ _)

theorem Points_grow {jobs : Nat → Job} {s s' : St} {e : Entry} {ns : List Nat} (hg : Grows ns s.silos s'.silos)
    (h : e.Points jobs s) : e.Points jobs s' := by
  obtain ⟨f, h1, h2, h3⟩ := h
  obtain ⟨f', g1, g2, _⟩ := hg _ _ h1
  exact ⟨f', g1, prefix_drop_mono h2 h3 g2, Nat.le_trans h3 g2.length_le⟩

theorem PcOk_grow {max : Nat} {j : Job} {a b : Nat → Option Silo} {ns : List Nat} {pc : Pc} (hg : Grows ns a b)
    (hn : ∀ n ∈ ns, n ∉ pc.owns) (h : PcOk max j a pc) : PcOk max j b pc := by
  cases pc <;> try exact h
  · rename_i n sn
    obtain ⟨h0, f, h1, h2⟩ := h
    obtain ⟨f', g1, g2, g3⟩ := hg _ _ h1
    refine ⟨h0, f', g1, ?_⟩
    rcases g3 with g3 | g3
    · rw [g3]; exact h2
    · exact absurd (by simp [Pc.owns]) (hn _ g3)
  · rename_i n sn off
    obtain ⟨h0, f, h1, h2, h3⟩ := h
    obtain ⟨f', g1, g2, g3⟩ := hg _ _ h1
    exact ⟨h0, f', g1, prefix_drop_mono h2 h3 g2, Nat.le_trans h3 g2.length_le⟩

theorem get_set {l : List Pc} {p q : Nat} {pc x : Pc} (h : (l.set p pc)[q]? = some x) :
    (q = p ∧ x = pc) ∨ (q ≠ p ∧ l[q]? = some x) := by
  rw [List.getElem?_set] at h
  by_cases hq : p = q
  · subst hq
    simp only [if_true] at h
    split at h
    · left; exact ⟨rfl, (Option.some.inj h).symm⟩
    · cases h
  · rw [if_neg hq] at h
    exact Or.inr ⟨fun h' => hq h'.symm, h⟩

/-- The step of one process. -/
theorem inv_move {max : Nat} {jobs : Nat → Job} {s : St} (hi : Inv max jobs s) {p : Nat} {pc pc' : Pc} (hp : s.procs[p]? = some pc)
    (silos' : Nat → Option Silo) (holds' : Nat → Bool) (idx' : List Entry)
    (h1 : ∀ n ∈ pc'.owns, holds' n = true) (h2 : ∀ n, s.holds n = true → holds' n = true ∨ n ∈ pc.owns)
    (h3 : ∀ n ∈ pc'.owns, n ∈ pc.owns ∨ s.holds n = false)
    (hg : Grows pc.owns s.silos silos') (hok : PcOk max (jobs p) silos' pc')
    (he : ∀ e ∈ idx', e ∈ s.idx ∨ e.proc = p)
    (hp2 : ∀ e ∈ idx', e.proc = p → (e.Points jobs { s with silos := silos' } ∨ e.kind ≠ .app ∧ (pc' = .install e.silo ∨ pc' = .linking e.silo ∨ pc' = .dead)) ∧ e.OffOk jobs) :
    Inv max jobs { silos := silos', holds := holds', idx := idx', procs := s.procs.set p pc' } := by
  have hlt : p < s.procs.length := (List.getElem?_eq_some_iff.1 hp).1
  refine ⟨?_, ?_, ?_, ?_⟩
  · intro q x n hq hn
    rcases get_set hq with ⟨rfl, rfl⟩ | ⟨hne, hq⟩
    · exact h1 n hn
    · rcases h2 n (hi.held q x n hq hn) with h | h
      · exact h
      · exact absurd (hi.excl q p x pc n hq hp hn h) hne
  · intro q r a b n hq hr ha hb
    rcases get_set hq with ⟨rfl, rfl⟩ | ⟨hne, hq'⟩ <;> rcases get_set hr with ⟨rfl, rfl⟩ | ⟨hne', hr'⟩
    · rfl
    · rcases h3 n ha with h | h
      · exact hi.excl q r pc b n hp hr' h hb
      · rw [hi.held r b n hr' hb] at h; cases h
    · rcases h3 n hb with h | h
      · exact hi.excl q r a pc n hq' hp ha h
      · rw [hi.held q a n hq' ha] at h; cases h
    · exact hi.excl q r a b n hq' hr' ha hb
  · intro q x hq
    rcases get_set hq with ⟨rfl, rfl⟩ | ⟨hne, hq⟩
    · exact hok
    · refine PcOk_grow hg (fun n hn hx => ?_) (hi.pcok q x hq)
      exact hne (hi.excl q p x pc n hq hp hx hn)
  · intro e hm
    by_cases hep : e.proc = p
    · obtain ⟨hh, ho⟩ := hp2 e hm hep
      refine ⟨?_, ho⟩
      rcases hh with hh | ⟨hk, hh⟩
      · exact Or.inl hh
      · right
        refine ⟨hk, ?_⟩
        simp only [hep, List.getElem?_set, if_true, if_pos hlt, Option.some.injEq]
        exact hh
    · rcases he e hm with h | h
      · obtain ⟨hh, ho⟩ := hi.ents e h
        refine ⟨?_, ho⟩
        rcases hh with hh | ⟨hk, hh⟩
        · exact Or.inl (Points_grow (s' := { silos := silos', holds := holds', idx := idx', procs := s.procs.set p pc' }) hg hh)
        · right
          refine ⟨hk, ?_⟩
          simp only [List.getElem?_set, if_neg (Ne.symm hep)]
          exact hh
      · exact absurd h hep

/-- A step that only changes the place. -/
theorem inv_setPc {max : Nat} {jobs : Nat → Job} {s : St} (hi : Inv max jobs s) {p : Nat} {pc pc' : Pc} (hp : s.procs[p]? = some pc)
    (h3 : ∀ n ∈ pc'.owns, n ∈ pc.owns) (hok : PcOk max (jobs p) s.silos pc')
    (hpend : ∀ n, pc ≠ .install n ∧ pc ≠ .linking n) (hd : pc ≠ .dead) : Inv max jobs (setPc s p pc') := by
  refine inv_move hi hp s.silos s.holds s.idx (fun n hn => hi.held p pc n hp (h3 n hn)) (fun n h => Or.inl h)
    (fun n hn => Or.inl (h3 n hn)) (Grows.refl _ _) hok (fun e h => Or.inl h) ?_
  intro e he hep
  obtain ⟨hh, ho⟩ := hi.ents e he
  refine ⟨?_, ho⟩
  rcases hh with hh | ⟨hk, hh⟩
  · exact Or.inl hh
  · rw [hep, hp] at hh
    simp only [Option.some.injEq] at hh
    rcases hh with h | h | h
    · exact absurd h (hpend _).1
    · exact absurd h (hpend _).2
    · exact absurd h hd

theorem ents_own {max : Nat} {jobs : Nat → Job} {s : St} (hi : Inv max jobs s) {p : Nat} {pc : Pc} (hp : s.procs[p]? = some pc)
    {e : Entry} (he : e ∈ s.idx) (hep : e.proc = p) : (e.Points jobs s ∨ e.kind ≠ .app ∧ (pc = .install e.silo ∨ pc = .linking e.silo ∨ pc = .dead)) ∧ e.OffOk jobs := by
  obtain ⟨hh, ho⟩ := hi.ents e he
  refine ⟨?_, ho⟩
  rcases hh with hh | ⟨hk, hh⟩
  · exact Or.inl hh
  · rw [hep, hp] at hh
    simp only [Option.some.injEq] at hh
    exact Or.inr ⟨hk, hh⟩

theorem upd_true {h : Nat → Bool} {m n : Nat} (hh : h n = true) : upd h m true n = true := by
  unfold upd; split <;> simp [hh]

theorem inv_stepGo {max : Nat} {jobs : Nat → Job} {s s' : St} (hi : Inv max jobs s) {p : Nat} {pc : Pc} (hp : s.procs[p]? = some pc)
    (h : stepGo max (jobs p) s p pc = some s') : Inv max jobs s' := by
  have hpc := hi.pcok p pc hp
  have hown := fun e he hep => ents_own hi hp (e := e) he hep
  cases pc with
  | idle | ready _ | done | dead => cases h
  | probed n =>
    cases h
    refine inv_setPc hi hp ?_ ?_ (by simp) (by simp)
    · split <;> simp [Pc.owns]
    · split <;> trivial
  | opening n =>
    simp only [stepGo, Option.some.injEq] at h
    split at h
    · subst h
      exact inv_setPc hi hp (by simp [Pc.owns]) trivial (by simp) (by simp)
    · rename_i hf
      subst h
      refine inv_move hi hp s.silos _ s.idx ?_ (fun m hm => Or.inl (upd_true hm)) ?_ (Grows.refl _ _) trivial (fun e h => Or.inl h) ?_
      · simp [Pc.owns, upd]
      · simp only [Pc.owns, List.mem_singleton]; rintro m rfl; right; simpa using hf
      · intro e he hep
        obtain ⟨a, b⟩ := hown e he hep
        refine ⟨?_, b⟩
        rcases a with a | ⟨_, a⟩
        · exact Or.inl a
        · simp at a
  | appLock n sn =>
    simp only [stepGo, Option.some.injEq] at h
    split at h
    · subst h
      exact inv_setPc hi hp (by simp [Pc.owns]) trivial (by simp) (by simp)
    · rename_i hf
      subst h
      refine inv_move hi hp s.silos _ s.idx ?_ (fun m hm => Or.inl (upd_true hm)) ?_ (Grows.refl _ _) hpc (fun e h => Or.inl h) ?_
      · simp only [Pc.owns, List.mem_cons, List.not_mem_nil, or_false]
        rintro m (rfl | rfl)
        · exact upd_true (hi.held p _ m hp (by simp [Pc.owns]))
        · simp [upd]
      · simp only [Pc.owns, List.mem_cons, List.not_mem_nil, or_false]
        rintro m (rfl | rfl)
        · left; rfl
        · right; simpa using hf
      · intro e he hep
        obtain ⟨a, b⟩ := hown e he hep
        refine ⟨?_, b⟩
        rcases a with a | ⟨_, a⟩
        · exact Or.inl a
        · simp at a
  | appCheck n sn =>
    cases h
    refine inv_setPc hi hp ?_ ?_ (by simp) (by simp)
    · split <;> simp [Pc.owns]
    · split
      · rename_i hr
        refine ⟨hpc, ?_⟩
        cases hs : s.silos sn with
        | none => rw [hs] at hr; simp [hasRoom] at hr
        | some f =>
          rw [hs] at hr
          simp only [hasRoom, Bool.and_eq_true, decide_eq_true_eq] at hr
          exact ⟨f, rfl, hr.2⟩
      · exact hpc
  | appWrite n sn =>
    obtain ⟨hlt, f, hf, hfit⟩ := hpc
    simp only [stepGo, stepWrite, hf, Option.some.injEq] at h
    have hgrow : Grows (Pc.appWrite n sn).owns s.silos (upd s.silos sn (some { f with data := f.data ++ (jobs p).appended })) := by
      intro m g hg
      by_cases hm : m = sn
      · subst hm
        rw [hf] at hg; cases hg
        exact ⟨{ f with data := f.data ++ (jobs p).appended }, by simp [upd], List.prefix_append _ _, Or.inr (by simp [Pc.owns])⟩
      · exact ⟨g, by simp [upd, hm, hg], List.prefix_refl _, Or.inl rfl⟩
    have hents : ∀ e ∈ s.idx, e.proc = p → (e.Points jobs { s with silos := (upd s.silos sn (some { f with data := f.data ++ (jobs p).appended })) }) ∧ e.OffOk jobs := by
      intro e he hep
      obtain ⟨a, b⟩ := hown e he hep
      refine ⟨?_, b⟩
      rcases a with a | ⟨_, a⟩
      · exact Points_grow hgrow a
      · simp at a
    split at h
    · subst h
      exact inv_move hi hp _ s.holds s.idx (by simp [Pc.owns]) (fun m hm => Or.inl hm) (by simp [Pc.owns]) hgrow trivial
        (fun e h => Or.inl h) (fun e he hep => ⟨Or.inl (hents e he hep).1, (hents e he hep).2⟩)
    · subst h
      refine inv_move hi hp _ s.holds s.idx ?_ (fun m hm => Or.inl hm) (fun m hm => Or.inl hm) hgrow ?_
        (fun e h => Or.inl h) (fun e he hep => ⟨Or.inl (hents e he hep).1, (hents e he hep).2⟩)
      · exact fun m hm => hi.held p _ m hp hm
      · exact ⟨hlt, _, by simp only [upd, if_true]; rfl, by rw [List.drop_left' rfl]; exact List.prefix_refl _, by simp⟩
  | appIdx n sn off =>
    obtain ⟨hlt, f, hf, hpre, hof⟩ := hpc
    cases h
    refine inv_move hi hp s.silos s.holds _ (fun m hm => hi.held p _ m hp hm) (fun m hm => Or.inl hm) (fun m hm => Or.inl hm)
      (Grows.refl _ _) hlt ?_ ?_
    · intro e he
      rcases List.mem_append.1 he with he | he
      · exact Or.inl he
      · right; rw [List.mem_singleton.1 he]
    · intro e he hep
      rcases List.mem_append.1 he with he | he
      · obtain ⟨a, b⟩ := hown e he hep
        refine ⟨?_, b⟩
        rcases a with a | ⟨_, a⟩
        · exact Or.inl a
        · simp at a
      · rw [List.mem_singleton.1 he]
        exact ⟨Or.inl ⟨f, hf, hpre, hof⟩, by simp [Entry.OffOk]⟩
  | appUnlock n sn ok =>
    cases h
    have hlt : sn < n := hpc
    refine inv_move hi hp s.silos _ s.idx ?_ ?_ ?_ (Grows.refl _ _) ?_ (fun e h => Or.inl h) ?_
    · have hn := hi.held p _ n hp (by simp [Pc.owns])
      have : ∀ m ∈ [n], upd s.holds sn false m = true := by
        intro m hm
        rw [List.mem_singleton.1 hm]
        simp [upd, hn, Nat.ne_of_gt hlt]
      split <;> simpa [Pc.owns] using this
    · intro m hm
      by_cases h : m = sn
      · right; simp [Pc.owns, h]
      · left; simp [upd, h, hm]
    · split <;> simp [Pc.owns]
    · split <;> trivial
    · intro e he hep
      obtain ⟨a, b⟩ := hown e he hep
      refine ⟨?_, b⟩
      rcases a with a | ⟨_, a⟩
      · exact Or.inl a
      · simp at a
  | final n =>
    cases h
    refine inv_move hi hp s.silos s.holds _ (fun m hm => hi.held p _ m hp hm) (fun m hm => Or.inl hm) (fun m hm => Or.inl hm)
      (Grows.refl _ _) trivial ?_ ?_
    · intro e he
      rcases List.mem_append.1 he with he | he
      · exact Or.inl he
      · right; rw [List.mem_singleton.1 he]
    · intro e he hep
      rcases List.mem_append.1 he with he | he
      · obtain ⟨a, b⟩ := hown e he hep
        refine ⟨?_, b⟩
        rcases a with a | ⟨_, a⟩
        · exact Or.inl a
        · simp at a
      · rw [List.mem_singleton.1 he]
        exact ⟨Or.inr (by simp), by simp [Entry.OffOk]⟩
  | install n =>
    cases h
    refine inv_move hi hp s.silos s.holds _ (fun m hm => hi.held p _ m hp hm) (fun m hm => Or.inl hm) (fun m hm => Or.inl hm)
      (Grows.refl _ _) trivial ?_ ?_
    · intro e he
      rcases List.mem_append.1 he with he | he
      · exact Or.inl he
      · right; rw [List.mem_singleton.1 he]
    · intro e he hep
      rcases List.mem_append.1 he with he | he
      · obtain ⟨a, b⟩ := hown e he hep
        refine ⟨?_, b⟩
        rcases a with a | ⟨k, a⟩
        · exact Or.inl a
        · right
          refine ⟨k, ?_⟩
          rcases a with a | a | a
          · cases a; right; left; rfl
          · cases a
          · cases a
      · rw [List.mem_singleton.1 he]
        exact ⟨Or.inr (by simp), by simp [Entry.OffOk]⟩
  | linking n =>
    simp only [stepGo, stepLink, Option.some.injEq] at h
    cases hs : s.silos n with
    | some f =>
      rw [hs] at h
      subst h
      refine inv_move hi hp s.silos s.holds s.idx (by simp [Pc.owns]) (fun m hm => Or.inl hm) (by simp [Pc.owns]) (Grows.refl _ _)
        trivial (fun e h => Or.inl h) ?_
      intro e he hep
      obtain ⟨a, b⟩ := hown e he hep
      refine ⟨?_, b⟩
      rcases a with a | ⟨k, a⟩
      · exact Or.inl a
      · exact Or.inr ⟨k, by simp⟩
    | none =>
      rw [hs] at h
      subst h
      have hgrow : Grows (Pc.linking n).owns s.silos (upd s.silos n (some { data := (jobs p).hold n, writable := true })) := by
        intro m g hg
        by_cases hm : m = n
        · subst hm; rw [hs] at hg; cases hg
        · exact ⟨g, by simp [upd, hm, hg], List.prefix_refl _, Or.inl rfl⟩
      refine inv_move hi hp _ s.holds s.idx (fun m hm => hi.held p _ m hp hm) (fun m hm => Or.inl hm) (fun m hm => Or.inl hm)
        hgrow trivial (fun e h => Or.inl h) ?_
      intro e he hep
      obtain ⟨a, b⟩ := hown e he hep
      refine ⟨?_, b⟩
      left
      rcases a with a | ⟨k, a⟩
      · exact Points_grow hgrow a
      · have hen : e.silo = n := by
          rcases a with a | a | a
          · cases a
          · cases a; rfl
          · cases a
        cases hk : e.kind with
        | app => exact absurd hk k
        | obj =>
          have ho := b.1 hk
          refine ⟨{ data := (jobs p).hold n, writable := true }, by simp [upd, hen], ?_, ?_⟩
          · rw [ho, hep, hen, Entry.want, hk]
            simp only [hep, Job.hold, List.append_assoc]
            rw [List.drop_left' rfl]
            exact List.prefix_refl _
          · rw [ho, hep, hen]; simp [Job.hold]
        | info =>
          have ho := b.2 hk
          refine ⟨{ data := (jobs p).hold n, writable := true }, by simp [upd, hen], ?_, by rw [ho]; exact Nat.zero_le _⟩
          rw [ho, Entry.want, hk]
          simp only [hep, hen, Job.hold, List.append_assoc, List.drop_zero]
          exact List.prefix_append _ _
  | del n =>
    cases h
    refine inv_move hi hp s.silos _ s.idx (by simp [Pc.owns]) ?_ (by simp [Pc.owns]) (Grows.refl _ _) trivial (fun e h => Or.inl h) ?_
    · intro m hm
      by_cases h : m = n
      · right; simp [Pc.owns, h]
      · left; simp [upd, h, hm]
    · intro e he hep
      obtain ⟨a, b⟩ := hown e he hep
      refine ⟨?_, b⟩
      rcases a with a | ⟨_, a⟩
      · exact Or.inl a
      · simp at a

theorem inv_step {max : Nat} {jobs : Nat → Job} {s s' : St} (hi : Inv max jobs s) (a : Act) (h : step max jobs s a = some s') :
    Inv max jobs s' := by
  cases a with
  | go p =>
    simp only [step, Option.bind_eq_some_iff] at h
    obtain ⟨pc, hp, h⟩ := h
    exact inv_stepGo hi hp h
  | create p n =>
    simp only [step, Option.bind_eq_some_iff] at h
    obtain ⟨pc, hp, h⟩ := h
    cases pc <;> simp only [stepCreate, Option.some.injEq, reduceCtorEq] at h
    subst h
    exact inv_setPc hi hp (by split <;> simp [Pc.owns]) (by split <;> trivial) (by simp) (by simp)
  | append p sn =>
    simp only [step, Option.bind_eq_some_iff] at h
    obtain ⟨pc, hp, h⟩ := h
    cases pc <;> simp only [stepAppend, reduceCtorEq] at h
    rename_i n
    split at h
    · rename_i hc
      simp only [Option.some.injEq, stepTry] at h
      cases hs : s.silos sn with
      | none =>
        rw [hs] at h; subst h
        exact inv_setPc hi hp (by simp [Pc.owns]) trivial (by simp) (by simp)
      | some f =>
        rw [hs] at h
        simp only at h
        split at h
        · subst h; exact inv_setPc hi hp (by simp [Pc.owns]) trivial (by simp) (by simp)
        · split at h
          · subst h; exact inv_setPc hi hp (by simp [Pc.owns]) trivial (by simp) (by simp)
          · subst h; exact inv_setPc hi hp (by simp [Pc.owns]) hc.2 (by simp) (by simp)
    · cases h
  | giveUp p =>
    simp only [step, Option.bind_eq_some_iff] at h
    obtain ⟨pc, hp, h⟩ := h
    cases pc <;> simp only [stepGiveUp, Option.some.injEq, reduceCtorEq] at h
    subst h
    exact inv_setPc hi hp (by simp [Pc.owns]) trivial (by simp) (by simp)
  | drop p =>
    simp only [step, Option.bind_eq_some_iff] at h
    obtain ⟨pc, hp, h⟩ := h
    cases pc <;> simp only [stepDrop, Option.some.injEq, reduceCtorEq] at h
    subst h
    exact inv_setPc hi hp (by simp [Pc.owns]) trivial (by simp) (by simp)
  | crash p =>
    simp only [step] at h
    split at h
    · rename_i hlt
      cases h
      have hp : s.procs[p]? = some s.procs[p] := List.getElem?_eq_getElem hlt
      refine inv_move hi hp s.silos s.holds s.idx (by simp [Pc.owns]) (fun m hm => Or.inl hm) (by simp [Pc.owns]) (Grows.refl _ _)
        trivial (fun e h => Or.inl h) ?_
      intro e he hep
      obtain ⟨a, b⟩ := ents_own hi hp he hep
      refine ⟨?_, b⟩
      rcases a with a | ⟨k, a⟩
      · exact Or.inl a
      · exact Or.inr ⟨k, by simp⟩
    · cases h
  | rmHold n =>
    simp only [step] at h
    split at h
    · cases h
    · rename_i hn
      cases h
      refine ⟨?_, hi.excl, hi.pcok, hi.ents⟩
      intro p pc m hp hm
      have : m ≠ n := by
        rintro rfl
        apply hn
        rw [List.any_eq_true]
        exact ⟨pc, List.mem_of_getElem? hp, by simpa using hm⟩
      simp only [upd, if_neg this]
      exact hi.held p pc m hp hm
  | protect n =>
    simp only [step, stepProtect] at h
    cases hs : s.silos n with
    | none => rw [hs] at h; cases h
    | some f =>
      rw [hs] at h
      simp only [Option.some.injEq] at h
      subst h
      have hgrow : Grows [] s.silos (upd s.silos n (some { f with writable := false })) := by
        intro m g hg
        by_cases hm : m = n
        · subst hm; rw [hs] at hg; cases hg
          exact ⟨{ f with writable := false }, by simp [upd], List.prefix_refl _, Or.inl rfl⟩
        · exact ⟨g, by simp [upd, hm, hg], List.prefix_refl _, Or.inl rfl⟩
      refine ⟨hi.held, hi.excl, fun p pc hp => PcOk_grow hgrow (by simp) (hi.pcok p pc hp), ?_⟩
      intro e he
      obtain ⟨a, b⟩ := hi.ents e he
      refine ⟨?_, b⟩
      rcases a with a | a
      · exact Or.inl (Points_grow (s' := { s with silos := _ }) hgrow a)
      · exact Or.inr a

theorem inv_run {max : Nat} {jobs : Nat → Job} : ∀ (as : List Act) {s s' : St}, Inv max jobs s → run max jobs s as = some s' →
    Inv max jobs s' := by
  intro as
  induction as with
  | nil => intro s s' hi h; cases h; exact hi
  | cons a as ih =>
    intro s s' hi h
    simp only [run, Option.bind_eq_some_iff] at h
    obtain ⟨t, ht, h⟩ := h
    exact ih (inv_step hi a ht) h

/-- An archive with any silos and hold files, no process in the middle of anything. -/
structure Start (s : St) : Prop where
  idle : ∀ pc ∈ s.procs, pc = .idle
  idx : s.idx = []

theorem inv_start {max : Nat} {jobs : Nat → Job} {s : St} (h : Start s) : Inv max jobs s := by
  have hp : ∀ (p : Nat) (pc : Pc), s.procs[p]? = some pc → pc = .idle := fun p pc hp => h.idle pc (List.mem_of_getElem? hp)
  refine ⟨?_, ?_, ?_, ?_⟩
  · intro p pc n h1 h2; rw [hp p pc h1] at h2; simp [Pc.owns] at h2
  · intro p q a b n h1 _ h2; rw [hp p a h1] at h2; simp [Pc.owns] at h2
  · intro p pc h1; rw [hp p pc h1]; trivial
  · intro e he; rw [h.idx] at he; cases he

end Verif.Commit
