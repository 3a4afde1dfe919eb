/-
C87: which jobs `stow` does, and what its status means.
-/
import Verif.Model.StowMain
import Verif.Props.Config
import Verif.Props.Evloop

namespace Verif.Props
open _root_.Verif.StowMain (Vars JobEnd End argIter target targets mainStow mtreeArgs serverArgs)
open Verif Config Evloop

/-- The value that an option has in the end: that of the last entry with its name. -/
def lastValue (es : List Config.Entry) (name : Bytes) : Option Bytes :=
  ((es.filter (fun e => e.name == name)).getLast?.bind (·.arg))

/-- What the configuration says about a target: the section with the name, in upper or lower case, is not empty and has no unknown options, and there is a directory which can be opened. -/
structure Target (cfg : List Section) (canOpen : Bytes → Bool) (name : Bytes) (v : Vars) : Prop where
  sect : ∃ s ∈ cfg, SameText s.name (b!"stow." ++ name) ∧ s.entries ≠ [] ∧
    (∀ e ∈ s.entries, e.name ∈ [b!"directory", b!"remote", b!"cmd", b!"exclude"]) ∧
    v = ⟨lastValue s.entries b!"directory", lastValue s.entries b!"remote", lastValue s.entries b!"cmd", lastValue s.entries b!"exclude"⟩
  dir : ∃ d, v.directory = some d ∧ canOpen d = true

/-- No two sections have the same name but for case. -/
def OneEach (cfg : List Section) : Prop := cfg.Pairwise (fun a b => ¬SameText a.name b.name)

theorem section_eq {cfg : List Section} (hd : OneEach cfg) {s : Section} {name : Bytes} (hs : s ∈ cfg) (hn : SameText s.name name) : section? cfg name = some s := by
  unfold section?
  induction cfg with
  | nil => cases hs
  | cons t ts ih =>
    obtain ⟨h1, h2⟩ := List.pairwise_cons.1 hd
    rcases List.mem_cons.1 hs with rfl | h
    · exact List.find?_cons_of_pos (p := fun s : Section => strcasecmp s.name name == .eq) ((strcasecmp_beq _ _).2 hn)
    · rw [List.find?_cons_of_neg (p := fun s : Section => strcasecmp s.name name == .eq)]
      · exact ih h2 h
      · intro hc
        have := (strcasecmp_beq _ _).1 hc
        exact h1 s h (this.trans hn.symm)

theorem section_some {cfg : List Section} {s : Section} {name : Bytes} (h : section? cfg name = some s) : s ∈ cfg ∧ SameText s.name name := by
  unfold section? at h
  exact ⟨List.mem_of_find?_eq_some h, (strcasecmp_beq _ _).1 (List.find?_some (p := fun s : Section => strcasecmp s.name name == .eq) h)⟩

/-- The four options. -/
def optNames : List Bytes := [b!"directory", b!"remote", b!"cmd", b!"exclude"]

theorem argIter_known (v : Vars) (e : Config.Entry) : (argIter v e.name e.arg).2 = if e.name ∈ optNames then 0 else 22 := by
  unfold argIter
  by_cases h1 : e.name = b!"directory"
  · rw [if_pos h1, if_pos (by rw [h1]; decide)]
  · rw [if_neg h1]
    by_cases h2 : e.name = b!"remote"
    · rw [if_pos h2, if_pos (by rw [h2]; decide)]
    · rw [if_neg h2]
      by_cases h3 : e.name = b!"cmd"
      · rw [if_pos h3, if_pos (by rw [h3]; decide)]
      · rw [if_neg h3]
        by_cases h4 : e.name = b!"exclude"
        · rw [if_pos h4, if_pos (by rw [h4]; decide)]
        · rw [if_neg h4, if_neg]
          simp only [optNames, List.mem_cons, List.not_mem_nil, or_false, not_or]
          exact ⟨h1, h2, h3, h4⟩

/-- `lastValue`, with what was there before. -/
def lastOr (old : Option Bytes) (es : List Config.Entry) (name : Bytes) : Option Bytes :=
  match (es.filter (fun e => e.name == name)).getLast? with
  | none => old
  | some e => e.arg

theorem lastOr_none (es : List Config.Entry) (name : Bytes) : lastOr none es name = lastValue es name := by
  unfold lastOr lastValue
  cases (es.filter (fun e => e.name == name)).getLast? <;> rfl

theorem lastOr_hit (old : Option Bytes) (e : Config.Entry) (es : List Config.Entry) (name : Bytes) (h : e.name = name) :
    lastOr old (e :: es) name = lastOr e.arg es name := by
  unfold lastOr
  rw [List.filter_cons_of_pos (by simpa using h), List.getLast?_cons]
  cases (es.filter (fun e => e.name == name)).getLast? <;> rfl

theorem lastOr_miss (old : Option Bytes) (e : Config.Entry) (es : List Config.Entry) (name : Bytes) (h : e.name ≠ name) :
    lastOr old (e :: es) name = lastOr old es name := by
  unfold lastOr
  rw [List.filter_cons_of_neg (by simpa using h)]

theorem iter_known : ∀ (es : List Config.Entry) (v : Vars), (∀ e ∈ es, e.name ∈ optNames) →
    iterEntries argIter es v = (⟨lastOr v.directory es b!"directory", lastOr v.remote es b!"remote", lastOr v.cmd es b!"cmd", lastOr v.exclude es b!"exclude"⟩, 0)
  | [], v, _ => rfl
  | e :: es, v, h => by
    have hk := argIter_known v e
    have hm : e.name ∈ optNames := h e (List.mem_cons_self ..)
    rw [if_pos hm] at hk
    unfold iterEntries
    rw [if_neg (by rw [hk]; decide), iter_known es _ (fun x hx => h x (List.mem_cons_of_mem _ hx))]
    simp only [optNames, List.mem_cons, List.not_mem_nil, or_false] at hm
    unfold argIter
    rcases hm with h | h | h | h
    · rw [if_pos h, lastOr_hit _ _ _ _ h, lastOr_miss _ _ _ _ (by rw [h]; decide), lastOr_miss _ _ _ _ (by rw [h]; decide), lastOr_miss _ _ _ _ (by rw [h]; decide)]
    · rw [if_neg (by rw [h]; decide), if_pos h, lastOr_hit _ _ _ _ h, lastOr_miss _ _ _ _ (by rw [h]; decide), lastOr_miss _ _ _ _ (by rw [h]; decide), lastOr_miss _ _ _ _ (by rw [h]; decide)]
    · rw [if_neg (by rw [h]; decide), if_neg (by rw [h]; decide), if_pos h, lastOr_hit _ _ _ _ h, lastOr_miss _ _ _ _ (by rw [h]; decide), lastOr_miss _ _ _ _ (by rw [h]; decide), lastOr_miss _ _ _ _ (by rw [h]; decide)]
    · rw [if_neg (by rw [h]; decide), if_neg (by rw [h]; decide), if_neg (by rw [h]; decide), if_pos h, lastOr_hit _ _ _ _ h, lastOr_miss _ _ _ _ (by rw [h]; decide), lastOr_miss _ _ _ _ (by rw [h]; decide), lastOr_miss _ _ _ _ (by rw [h]; decide)]

theorem iter_unknown : ∀ (es : List Config.Entry) (v : Vars), (∃ e ∈ es, e.name ∉ optNames) → (iterEntries argIter es v).2 = 22
  | [], v, h => by obtain ⟨e, he, _⟩ := h; cases he
  | e :: es, v, h => by
    have hk := argIter_known v e
    unfold iterEntries
    by_cases hm : e.name ∈ optNames
    · rw [if_pos hm] at hk
      rw [if_neg (by rw [hk]; decide)]
      obtain ⟨x, hx, hxn⟩ := h
      rcases List.mem_cons.1 hx with rfl | hx
      · exact absurd hm hxn
      · exact iter_unknown es _ ⟨x, hx, hxn⟩
    · rw [if_neg hm] at hk
      rw [if_pos (by rw [hk]; decide)]
      exact hk

theorem target_cases {cfg : List Section} (hd : OneEach cfg) {bufsiz : Nat} {canOpen : Bytes → Bool} {name : Bytes} (hn : name.length + 5 < bufsiz) :
    (∃ v, Target cfg canOpen name v ∧ target cfg bufsiz canOpen name = .ok (some ⟨name, v⟩)) ∨
    ((∀ v, ¬Target cfg canOpen name v) ∧ target cfg bufsiz canOpen name = .ok none) := by
  unfold target
  rw [show decide (name.length + 5 < bufsiz) = true by simpa using hn]
  simp only [Res.check_true, Res.ok_bind]
  unfold configIter
  cases hs : section? cfg (b!"stow." ++ name) with
  | none =>
    right
    refine ⟨fun v hv => ?_, rfl⟩
    obtain ⟨s, h1, h2, _⟩ := hv.sect
    rw [section_eq hd h1 h2] at hs
    cases hs
  | some s =>
    obtain ⟨h1, h2⟩ := section_some hs
    have uniq : ∀ {v}, Target cfg canOpen name v → s.entries ≠ [] ∧ (∀ e ∈ s.entries, e.name ∈ optNames) ∧
        v = ⟨lastValue s.entries b!"directory", lastValue s.entries b!"remote", lastValue s.entries b!"cmd", lastValue s.entries b!"exclude"⟩ := by
      intro v hv
      obtain ⟨s', k1, k2, k3, k4, k5⟩ := hv.sect
      have := section_eq hd k1 k2
      rw [hs] at this
      cases this
      exact ⟨k3, k4, k5⟩
    dsimp only
    by_cases he : s.entries = []
    · simp only [if_pos he]
      right
      exact ⟨fun v hv => (uniq hv).1 he, rfl⟩
    simp only [if_neg he]
    by_cases hk : ∀ e ∈ s.entries, e.name ∈ optNames
    · rw [iter_known _ _ hk]
      simp only [lastOr_none]
      cases hdir : lastValue s.entries b!"directory" with
      | none =>
        right
        refine ⟨fun v hv => ?_, rfl⟩
        obtain ⟨d, h3, _⟩ := hv.dir
        rw [(uniq hv).2.2] at h3
        rw [show lastValue s.entries b!"directory" = some d from h3] at hdir
        cases hdir
      | some d =>
        by_cases ho : canOpen d = true
        · left
          refine ⟨⟨lastValue s.entries b!"directory", lastValue s.entries b!"remote", lastValue s.entries b!"cmd", lastValue s.entries b!"exclude"⟩,
            ⟨⟨s, h1, h2, he, hk, rfl⟩, ⟨d, hdir, ho⟩⟩, ?_⟩
          simp [ho, hdir]
        · right
          refine ⟨fun v hv => ?_, ?_⟩
          · obtain ⟨d', h3, h4⟩ := hv.dir
            rw [(uniq hv).2.2] at h3
            rw [show lastValue s.entries b!"directory" = some d' from h3] at hdir
            cases hdir
            exact ho h4
          · simp [ho]
    · have hu : ∃ e ∈ s.entries, e.name ∉ optNames := by
        simp only [Classical.not_forall] at hk
        obtain ⟨e, h3, h4⟩ := hk
        exact ⟨e, h3, h4⟩
      rw [iter_unknown _ _ hu]
      right
      exact ⟨fun v hv => hk (uniq hv).2.1, rfl⟩

theorem targets_cases {cfg : List Section} (hd : OneEach cfg) {bufsiz : Nat} {canOpen : Bytes → Bool} : ∀ {args : List Bytes}, (∀ a ∈ args, a.length + 5 < bufsiz) →
    (∃ js : List StowMain.Job, targets cfg bufsiz canOpen args = .ok (some js) ∧ js.map (·.name) = args ∧ ∀ j ∈ js, Target cfg canOpen j.name j.vars) ∨
    ((∃ a ∈ args, ∀ v, ¬Target cfg canOpen a v) ∧ targets cfg bufsiz canOpen args = .ok none)
  | [], _ => .inl ⟨[], rfl, rfl, by simp⟩
  | a :: as, h => by
    unfold targets
    rcases target_cases hd (canOpen := canOpen) (h a (List.mem_cons_self ..)) with ⟨v, h1, h2⟩ | ⟨h1, h2⟩
    · rw [h2]
      rcases targets_cases hd (canOpen := canOpen) (fun x hx => h x (List.mem_cons_of_mem _ hx)) with ⟨js, k1, k2, k3⟩ | ⟨⟨x, hx, k1⟩, k2⟩
      · left
        refine ⟨⟨a, v⟩ :: js, ?_, by rw [List.map_cons, k2], ?_⟩
        · simp [k1]
        · intro j hj
          rcases List.mem_cons.1 hj with rfl | hj
          · exact h1
          · exact k3 j hj
      · right
        exact ⟨⟨x, List.mem_cons_of_mem _ hx, k1⟩, by simp [k2]⟩
    · rw [h2]
      right
      exact ⟨⟨a, List.mem_cons_self .., h1⟩, rfl⟩

/-- **C87** (wrong targets).  If one of the targets is not in the configuration as it should be, then no job is done, and the status is 1. -/
theorem C87_wrong {cfg : List Section} (hd : OneEach cfg) {bufsiz : Nat} {canOpen : Bytes → Bool} (does : Nat → StowMain.Job → JobEnd) {args : List Bytes}
    (hl : ∀ a ∈ args, a.length + 5 < bufsiz) {a : Bytes} (ha : a ∈ args) (hw : ∀ v, ¬Target cfg canOpen a v) :
    mainStow cfg bufsiz canOpen does args = .ok ([], .exit 1) := by
  unfold mainStow
  rw [if_neg (by intro e; rw [e] at ha; cases ha)]
  rcases targets_cases hd (canOpen := canOpen) hl with ⟨js, k1, k2, k3⟩ | ⟨_, k2⟩
  · exfalso
    rw [← k2] at ha
    obtain ⟨j, hj, rfl⟩ := List.mem_map.1 ha
    exact hw _ (k3 j hj)
  · rw [k2]; rfl

theorem jobs_prefix (does : Nat → StowMain.Job → JobEnd) : ∀ (i : Nat) (js : List StowMain.Job), (StowMain.jobs does i js).1 <+: js
  | _, [] => List.prefix_refl _
  | i, j :: js => by
    unfold StowMain.jobs
    have h1 : [j] <+: j :: js := ⟨js, rfl⟩
    split
    · exact h1
    · exact h1
    · split
      · exact h1
      · obtain ⟨t, ht⟩ := jobs_prefix does (i + 1) js
        exact ⟨t, by rw [List.cons_append, ht]⟩

theorem jobs_zero (does : Nat → StowMain.Job → JobEnd) : ∀ (i : Nat) (js : List StowMain.Job), (∀ k j, js[k]? = some j → does (i + k) j ≠ .exits 0) →
    (StowMain.jobs does i js).2 = .exit 0 → (StowMain.jobs does i js).1 = js ∧ ∀ k j, js[k]? = some j → does (i + k) j = .waited 0
  | _, [], _, _ => ⟨rfl, by simp⟩
  | i, j :: js, hx, h => by
    unfold StowMain.jobs at h ⊢
    cases hd : does i j with
    | aborts => rw [hd] at h; cases h
    | exits c =>
      rw [hd] at h
      cases h
      exact absurd hd (hx 0 j rfl)
    | waited st =>
      rw [hd] at h
      dsimp only at h ⊢
      by_cases h0 : st = 0
      · rw [if_neg (by simpa using h0)] at h ⊢
        obtain ⟨k1, k2⟩ := jobs_zero does (i + 1) js (fun k x hk => by
          have := hx (k + 1) x (by simpa using hk)
          rwa [show i + (k + 1) = i + 1 + k by omega] at this) h
        refine ⟨by rw [k1], ?_⟩
        intro k x hk
        cases k with
        | zero =>
          simp at hk
          subst hk
          rw [Nat.add_zero, hd, h0]
        | succ k =>
          have := k2 k x (by simpa using hk)
          rwa [show i + (k + 1) = i + 1 + k by omega]
      · rw [if_pos (by simpa using h0)] at h
        cases h

theorem jobs_all (does : Nat → StowMain.Job → JobEnd) : ∀ (i : Nat) (js : List StowMain.Job), (∀ k j, js[k]? = some j → does (i + k) j = .waited 0) →
    StowMain.jobs does i js = (js, .exit 0)
  | _, [], _ => rfl
  | i, j :: js, h => by
    unfold StowMain.jobs
    have h0 : does i j = .waited 0 := by simpa using h 0 j rfl
    have ih := jobs_all does (i + 1) js (fun k x hk => by
      have := h (k + 1) x (by simpa using hk)
      rwa [show i + (k + 1) = i + 1 + k by omega] at this)
    rw [h0]
    dsimp only
    rw [if_neg (by decide), ih]

/-- **C87** (status).  `stow` ends with status 0 if and only if there is a target, the configuration is right for all of them, and for each of them, in the order of the command line, the job was done and its command ended with status 0.
(`stow` never calls `exit(0)` during a job.) -/
theorem C87_status {cfg : List Section} (hd : OneEach cfg) {bufsiz : Nat} {canOpen : Bytes → Bool} {does : Nat → StowMain.Job → JobEnd} (hx : ∀ i j, does i j ≠ .exits 0) {args : List Bytes}
    (hl : ∀ a ∈ args, a.length + 5 < bufsiz) {ran : List StowMain.Job} :
    mainStow cfg bufsiz canOpen does args = .ok (ran, .exit 0) ↔
      args ≠ [] ∧ ran.map (·.name) = args ∧ (∀ j ∈ ran, Target cfg canOpen j.name j.vars) ∧ ∀ k j, ran[k]? = some j → does k j = .waited 0 := by
  unfold mainStow
  by_cases ha : args = []
  · rw [if_pos ha]
    constructor
    · intro h; cases h
    · intro h; exact absurd ha h.1
  rw [if_neg ha]
  rcases targets_cases hd (canOpen := canOpen) hl with ⟨js, k1, k2, k3⟩ | ⟨⟨a, h1, h2⟩, k2⟩
  · rw [k1]
    show Res.ok (StowMain.jobs does 0 js) = _ ↔ _
    constructor
    · intro h
      have h' : StowMain.jobs does 0 js = (ran, .exit 0) := Res.ok.inj h
      obtain ⟨e1, e2⟩ := jobs_zero does 0 js (fun k j _ => hx _ _) (by rw [h'])
      rw [h'] at e1
      dsimp only at e1
      subst e1
      exact ⟨ha, k2, k3, fun k j hk => by simpa using e2 k j hk⟩
    · rintro ⟨_, h2, h3, h4⟩
      have hj : js = ran := by
        apply List.ext_getElem?
        intro n
        have e : (js.map (·.name))[n]? = (ran.map (·.name))[n]? := by rw [k2, h2]
        rw [List.getElem?_map, List.getElem?_map] at e
        cases h5 : js[n]? with
        | none =>
          cases h6 : ran[n]? with
          | none => rfl
          | some y => rw [h5, h6] at e; cases e
        | some x =>
          cases h6 : ran[n]? with
          | none => rw [h5, h6] at e; cases e
          | some y =>
            rw [h5, h6] at e
            have hn : x.name = y.name := Option.some.inj e
            have tx := k3 x (List.mem_of_getElem? h5)
            have ty := h3 y (List.mem_of_getElem? h6)
            obtain ⟨s, a1, a2, a3, a4, a5⟩ := tx.sect
            obtain ⟨t, b1, b2, b3, b4, b5⟩ := ty.sect
            have e1 := section_eq hd a1 a2
            have e2 := section_eq hd b1 b2
            rw [hn, e2] at e1
            cases e1
            congr 1
            cases x
            cases y
            simp only at hn a5 b5
            rw [hn, a5, b5]
      subst hj
      rw [jobs_all does 0 js (fun k j hk => by simpa using h4 k j hk)]
  · rw [k2]
    constructor
    · intro h; cases h
    · rintro ⟨_, h3, h4, _⟩
      rw [← h3] at h1
      obtain ⟨j, hj, rfl⟩ := List.mem_map.1 h1
      exact absurd (h4 j hj) (h2 _)

/-- **C87** (order).  Whatever happens, the jobs that were started are the first ones of those asked for, with what the configuration says. -/
theorem C87_order {cfg : List Section} (hd : OneEach cfg) {bufsiz : Nat} {canOpen : Bytes → Bool} {does : Nat → StowMain.Job → JobEnd} {args : List Bytes} (hl : ∀ a ∈ args, a.length + 5 < bufsiz)
    {ran : List StowMain.Job} {e : End} (h : mainStow cfg bufsiz canOpen does args = .ok (ran, e)) :
    ran.map (·.name) <+: args ∧ ∀ j ∈ ran, Target cfg canOpen j.name j.vars := by
  unfold mainStow at h
  by_cases ha : args = []
  · rw [if_pos ha] at h
    cases h
    exact ⟨⟨args, by simp⟩, by simp⟩
  rw [if_neg ha] at h
  rcases targets_cases hd (canOpen := canOpen) hl with ⟨js, k1, k2, k3⟩ | ⟨_, k2⟩
  · rw [k1] at h
    have h' : StowMain.jobs does 0 js = (ran, e) := Res.ok.inj h
    obtain ⟨t, ht⟩ := jobs_prefix does 0 js
    rw [h'] at ht
    dsimp only at ht
    refine ⟨⟨t.map (·.name), by rw [← k2, ← ht, List.map_append]⟩, fun j hj => k3 j (by rw [← ht]; exact List.mem_append_left _ hj)⟩
  · rw [k2] at h
    cases h
    exact ⟨⟨args, by simp⟩, by simp⟩

/-- **C87** (commands).  mtree(8) gets the directory, and the file with what to leave out as the argument of `-X`; the server is what `cmd` says, at `remote` if that is given. -/
theorem C87_commands {cfg : List Section} {canOpen : Bytes → Bool} {name : Bytes} {v : Vars} (h : Target cfg canOpen name v) :
    (∃ d, v.directory = some d ∧ mtreeArgs v = [b!"mtree", b!"-n", b!"-c", b!"-Ksha256digest", b!"-j", b!"-p", d] ++ (match v.exclude with | none => [] | some e => [b!"-X", e])) ∧
    ∀ c, v.cmd = some c → serverArgs v = (match v.remote with | none => [b!"/bin/sh", b!"-ec", c] | some r => [b!"ssh", r, c]) := by
  obtain ⟨d, h1, _⟩ := h.dir
  refine ⟨⟨d, h1, ?_⟩, ?_⟩
  · unfold mtreeArgs
    rw [h1]
    cases v.exclude <;> rfl
  · intro c hc
    unfold serverArgs
    rw [hc]
    cases v.remote <;> rfl

namespace StowMainExample

def conf : List Section :=
  [⟨b!"Stow.home", [⟨b!"directory", some b!"/tmp"⟩, ⟨b!"cmd", some b!"aardwarc stevedore"⟩, ⟨b!"remote", some b!"host"⟩, ⟨b!"directory", some b!"/home"⟩]⟩,
   ⟨b!"stow.etc", [⟨b!"directory", some b!"/etc"⟩, ⟨b!"remote", some b!"host"⟩]⟩,
   ⟨b!"stow.bad", [⟨b!"directory", some b!"/bad"⟩, ⟨b!"Cmd", some b!"x"⟩]⟩]

def can (d : Bytes) : Bool := decide (d ≠ b!"/none")

def home : StowMain.Job := ⟨b!"home", ⟨some b!"/home", some b!"host", some b!"aardwarc stevedore", none⟩⟩

def etc : StowMain.Job := ⟨b!"etc", ⟨some b!"/etc", some b!"host", none, none⟩⟩

/-- Two jobs; the later directory is the one that counts. -/
example : mainStow conf 1024 can (fun _ _ => .waited 0) [b!"home", b!"etc"] = .ok ([home, etc], .exit 0) := by decide +kernel

/-- The command of the first one fails. -/
example : mainStow conf 1024 can (fun _ _ => .waited 256) [b!"home", b!"etc"] = .ok ([home], .exit 2) := by decide +kernel

/-- The last one is wrong: options are told apart by case, other than sections. -/
example : mainStow conf 1024 can (fun _ _ => .waited 0) [b!"home", b!"bad"] = .ok ([], .exit 1) := by decide +kernel

example : Target conf can b!"home" home.vars := by
  refine ⟨⟨_, List.mem_cons_self .., by unfold SameText; decide, by decide, by decide, by decide⟩, ⟨b!"/home", rfl, by decide⟩⟩

end StowMainExample

open StowMainExample EvExample

/-- A target without `cmd` is taken: `ssh` is run without a command, so what is sent goes to a shell as its input. -/
theorem C87_counterexample_cmd : mainStow conf 1024 can (fun _ _ => .waited 0) [b!"etc"] = .ok ([etc], .exit 0) ∧ serverArgs etc.vars = [b!"ssh", b!"host"] := by decide +kernel

/-- mtree has ended. -/
def mtreeEnds : Turn := ⟨9, fun fds => fds.map (fun p => if p.1 = 13 then 1 else 0), fun l c => if c.addr = 4 then [.del 4, .ctl (varOf l 1) true] else []⟩

/-- The server is gone: the ends of its standard output and error output are read. -/
def gone : Turn := ⟨9, fun fds => fds.map (fun p => if p.1 = 10 then 0 else 1), fun l c =>
  if c.addr = 2 then [.del 2]
  else if c.addr = 3 then (if live l 1 then [.del 1] else []) ++ (if live l 2 then [.del 2] else []) ++ [.del 3]
  else []⟩

theorem gone_hand : StowHand vars mtreeEnds.hand ∧ StowHand vars gone.hand := by
  refine ⟨⟨?_, ?_, ?_, ?_⟩, ⟨?_, ?_, ?_, ?_⟩⟩
  · intro l c h; left; simp [mtreeEnds, show c.addr = 1 from h]
  · intro l c h; left; simp [mtreeEnds, show c.addr = 2 from h]
  · intro l c h; left; simp [mtreeEnds, show c.addr = 3 from h]
  · intro l c h; right; simp [mtreeEnds, show c.addr = 4 from h, vars]
  · intro l c h; left; simp [gone, show c.addr = 1 from h]
  · intro l c h; right; left; simp [gone, show c.addr = 2 from h, vars]
  · intro l c h; right; simp [gone, show c.addr = 3 from h, vars, List.append_assoc]; try rfl
  · intro l c h; left; exact ⟨0, by simp [gone, show c.addr = 4 from h]⟩

/-- It is not true that `stow` ends with status 0 only if the files were stowed: if the server ends with status 0 at once, as it does when its configuration does not allow the metadata (`C86_refuses`), and
mtree has ended by then, then the loop ends without having sent anything, and the job counts as done. -/
theorem C87_counterexample_refused : StowHand vars mtreeEnds.hand ∧ StowHand vars gone.hand ∧
    dispatch 0 loop0 [mtreeEnds, gone] = some (.ok (⟨[], 4⟩, [[⟨4, 13, 1⟩], [⟨2, 11, 1⟩, ⟨3, 12, 1⟩]])) ∧
    mainStow conf 1024 can (fun _ _ => .waited 0) [b!"home"] = .ok ([home], .exit 0) :=
  ⟨gone_hand.1, gone_hand.2, by decide, by decide +kernel⟩

end Verif.Props
