/-
C76: which silos are staged (utilities/select_silos.py).
-/
import Verif.Proofs.Backup

namespace Verif.Props

open Backup

/-! ## Specification -/

/-- `n` runs, the first one with number `k`; each run finds the `silodates.txt` of the one
    before. -/
def runsFrom (E : Nat → Env) (W : Nat → World) : (k n : Nat) → Option Bytes → Res (List Out)
  | _, 0, _ => .ok []
  | k, n + 1, old => do
    let o ← main (E k) (W k) old
    let r ← runsFrom E W (k + 1) n (some o.dates)
    pure (o :: r)

/-- The silo `f` in the directory `p` is staged: its encrypted copy and what belongs to it are
    among the files. -/
def Offered (E : Env) (W : World) (o : Out) (p f : Bytes) : Prop :=
  ∃ k fs, getSecrets E.secrets = .ok k ∧
    encryptFile E.C k (p ++ 47 :: f) (W.read (p ++ 47 :: f)) (E.sdir ++ 47 :: (f ++ b!".bin")) = .ok fs ∧
    ∀ x ∈ fs, x ∈ o.files

/-- The file is a silo: its name ends in ".warc.gz". -/
def IsSiloFile (W : World) (p f : Bytes) : Prop := (p, f) ∈ W.files ∧ b!".warc.gz" <:+ f

/-! ## Lemmas -/

theorem isSilo_iff (f : Bytes) : isSilo f = true ↔ b!".warc.gz" <:+ f := by
  rw [isSilo, beq_iff_eq]
  constructor
  · intro h
    exact h ▸ List.drop_suffix _ _
  · rintro ⟨a, rfl⟩
    have e : (a ++ b!".warc.gz").length - 8 = a.length := by simp
    rw [e, List.drop_left]

theorem isSiloFile_iff (W : World) (p f : Bytes) : IsSiloFile W p f ↔ (p, f) ∈ siloFiles W.files := by
  rw [IsSiloFile, siloFiles, List.mem_filter, isSilo_iff]

theorem silo_ne_bin (p d f : Bytes) (h : b!".warc.gz" <:+ f) : join p f ≠ join d (f ++ b!".bin") := by
  obtain ⟨a, rfl⟩ := h
  intro e
  have := congrArg (fun l => l.reverse.head?) e
  simp [join] at this

theorem length_filter_lt {α : Type} (p q : α → Bool) (l : List α) (h : ∀ x ∈ l, q x = true → p x = true)
    (hs : ∃ x ∈ l, p x = true ∧ q x = false) : (l.filter q).length < (l.filter p).length := by
  have le : ∀ l : List α, (∀ x ∈ l, q x = true → p x = true) →
      (l.filter q).length ≤ (l.filter p).length := by
    intro l
    induction l with
    | nil => simp
    | cons a l ih =>
      intro h
      have h1 := ih (fun x hx => h x (by simp [hx]))
      have h2 := h a (by simp)
      cases hq : q a <;> cases hp : p a <;> simp [List.filter_cons, hq, hp] at h2 ⊢ <;> omega
  induction l with
  | nil => simp at hs
  | cons a l ih =>
    have hle := le l (fun x hx => h x (by simp [hx]))
    have h2 := h a (by simp)
    obtain ⟨x, hx, hpx, hqx⟩ := hs
    rcases List.mem_cons.mp hx with rfl | hx
    · simp [List.filter_cons, hqx, hpx]; omega
    · have := ih (fun x hx => h x (by simp [hx])) ⟨x, hx, hpx, hqx⟩
      cases hq : q a <;> cases hp : p a <;> simp [List.filter_cons, hq, hp] at h2 ⊢ <;> omega

/-- What is asked of the world of the runs. -/
structure Plain (E : Env) (W : World) : Prop where
  keys : ∃ k, getSecrets E.secrets = .ok k
  distinct : ((siloFiles W.files).map Prod.snd).Nodup
  blank : ∀ p f, (p, f) ∈ siloFiles W.files → ∀ c ∈ f, isSpace c = false

/-- What is known of the silos read from `silodates.txt`: those staged since `T` have the size
    they had then. -/
structure Known (W : World) (T : Nat) (d : List Silo) : Prop where
  nodup : (names d).Nodup
  there : ∀ n ∈ names d, ∃ p, (p, n) ∈ siloFiles W.files
  same : ∀ p n, (p, n) ∈ siloFiles W.files → T ≤ (entry d n).lastTm →
    (entry d n).lastSz = W.stat (join p n)

theorem goodName_of_silo {E : Env} {W : World} (hP : Plain E W) {p n : Bytes}
    (h : (p, n) ∈ siloFiles W.files) : GoodName n := by
  refine ⟨?_, hP.blank p n h⟩
  intro e
  subst e
  have := (isSiloFile_iff W p []).mpr h
  exact absurd this.2 (by decide)

/-- One run. -/
theorem main_step {E : Env} {W : World} {T : Nat} {old : Option Bytes} {d : List Silo}
    (hP : Plain E W) (hq : ∀ p n, (p, n) ∈ siloFiles W.files → W.stat (join p n) ≤ E.quota)
    (hT : 0 < T) (hclk : ∀ i, T ≤ E.clk i) (hd : load old = .ok d) (hK : Known W T d) :
    ∃ o d', main E W old = .ok o ∧ load (some o.dates) = .ok d' ∧ Known W T d' ∧
      (∀ p n, (p, n) ∈ siloFiles W.files → (entry d n).lastTm < T →
        (entry d' n).lastTm < T ∨ Offered E W o p n) ∧
      (∀ p n, (p, n) ∈ siloFiles W.files → (entry d' n).lastTm < T → (entry d n).lastTm < T) ∧
      ((∃ p n, (p, n) ∈ siloFiles W.files ∧ (entry d n).lastTm < T) →
        ∃ p n, (p, n) ∈ siloFiles W.files ∧ (entry d n).lastTm < T ∧ ¬ (entry d' n).lastTm < T) := by
  obtain ⟨k, hk⟩ := hP.keys
  generalize hD : walk W W.files d = D
  have hDn : (names D).Nodup := hD ▸ walk_nodup W W.files d hK.nodup
  have hDnames : ∀ n, n ∈ names D ↔ ∃ p, (p, n) ∈ siloFiles W.files := by
    intro n
    rw [← hD, walk_names]
    exact ⟨fun h => h.elim (hK.there n) id, Or.inr⟩
  have hDe : ∀ p n, (p, n) ∈ siloFiles W.files → entry D n =
      { entry d n with
        nowSz := W.stat (join p n), fpn := some (join p n) } := by
    intro p n h
    rw [← hD]
    exact walk_entry W W.files d p n hP.distinct h
  have hDm : ∀ s ∈ D, ∃ p, (p, s.fn) ∈ siloFiles W.files ∧
      s = { entry d s.fn with
        nowSz := W.stat (join p s.fn), fpn := some (join p s.fn) } := by
    intro s hs
    obtain ⟨p, hp⟩ := (hDnames s.fn).mp (List.mem_map_of_mem hs)
    exact ⟨p, hp, by rw [← hDe p _ hp, entry_of_mem hDn hs]⟩
  have hperm := sortSilos_perm before D
  have hfpn : ∀ s ∈ sortSilos before D, ∃ p, s.fpn = some p ∧ p ≠ join E.sdir (s.fn ++ b!".bin") := by
    intro s hs
    obtain ⟨p, hp, e⟩ := hDm s (hperm.mem_iff.mp hs)
    refine ⟨join p s.fn, (congrArg Silo.fpn e).trans rfl, ?_⟩
    exact silo_ne_bin _ _ _ ((isSiloFile_iff W p s.fn).mpr hp).2
  obtain ⟨t, ht⟩ := stage_total (W := W) hk 0 0 (sortSilos before D) hfpn
  obtain ⟨pre, post, e1, e2, h3, h4, _, h6, h7⟩ := stage_ok ht
  have hmain : main E W old = .ok ⟨t.files, dates t.silos⟩ := by
    simp only [main, hd, Res.ok_bind, hD, ht, Res.pure_eq]
  have htn : names t.silos = names (pre ++ post) := by
    rw [e2]
    have := mark_names E 0 pre
    simp only [names] at this
    simp [names, this]
  have hSn : (names (pre ++ post)).Nodup := by
    rw [← e1]
    exact (hperm.map Silo.fn).nodup_iff.mpr hDn
  have htnd : (names t.silos).Nodup := htn ▸ hSn
  have htmem : ∀ n, n ∈ names t.silos ↔ ∃ p, (p, n) ∈ siloFiles W.files := by
    intro n
    rw [htn, ← e1, ← hDnames]
    exact (hperm.map Silo.fn).mem_iff
  have hgood : ∀ s ∈ t.silos, GoodName s.fn := by
    intro s hs
    obtain ⟨p, hp⟩ := (htmem s.fn).mp (List.mem_map_of_mem hs)
    exact goodName_of_silo hP hp
  have hload := load_dates t.silos hgood htnd
  generalize hd' : (sortSilos nameBefore t.silos).map fresh = d' at hload
  have hp2 := sortSilos_perm nameBefore t.silos
  have hd'names : (names d').Perm (names t.silos) := by
    have : names d' = (sortSilos nameBefore t.silos).map Silo.fn := by
      rw [← hd', names, List.map_map]
      rfl
    rw [this]
    exact hp2.map Silo.fn
  have hd'nd : (names d').Nodup := hd'names.nodup_iff.mpr htnd
  have hd'e : ∀ s ∈ t.silos, entry d' s.fn = fresh s := by
    intro s hs
    have hm : fresh s ∈ d' := by
      rw [← hd']
      exact List.mem_map_of_mem (hp2.mem_iff.mpr hs)
    exact entry_of_mem hd'nd hm
  have inPre : ∀ s ∈ pre, ∃ j, entry d' s.fn = { fn := s.fn, lastSz := s.nowSz, lastTm := E.clk j } := by
    intro s hs
    have hsn : s.fn ∈ names (mark E 0 pre) := by
      rw [mark_names]
      exact List.mem_map_of_mem hs
    obtain ⟨x, hx, hxn⟩ := List.mem_map.mp hsn
    obtain ⟨s', hs', j, e⟩ := mark_mem hx
    have hpn : (names pre).Nodup := by
      have : names (pre ++ post) = names pre ++ names post := by simp [names]
      rw [this] at hSn
      exact (List.nodup_append.mp hSn).1
    have hss : s' = s := by
      have hfn : s'.fn = s.fn := by
        rw [← hxn, e]
      rw [← entry_of_mem hpn hs', ← entry_of_mem hpn hs, hfn]
    subst hss
    refine ⟨j, ?_⟩
    have := hd'e x (by rw [e2]; exact List.mem_append_left _ hx)
    rw [hxn] at this
    rw [this, e]
    rfl
  have inPost : ∀ s ∈ post, entry d' s.fn = fresh s := by
    intro s hs
    exact hd'e s (by rw [e2]; exact List.mem_append_right _ hs)
  have cover : ∀ p n, (p, n) ∈ siloFiles W.files → ∃ s, (s ∈ pre ∨ s ∈ post) ∧ s.fn = n ∧
      s = { entry d n with
        nowSz := W.stat (join p n), fpn := some (join p n) } := by
    intro p n h
    have hm : entry D n ∈ D := entry_mem ((hDnames n).mpr ⟨p, h⟩)
    have hm2 : entry D n ∈ pre ++ post := by rw [← e1]; exact hperm.mem_iff.mpr hm
    exact ⟨entry D n, List.mem_append.mp hm2, entry_fn _ _, hDe p n h⟩
  refine ⟨_, d', hmain, hload, ⟨hd'nd, ?_, ?_⟩, ?_, ?_, ?_⟩
  · intro n hn
    exact (htmem n).mp (hd'names.mem_iff.mp hn)
  · intro p n h hT'
    obtain ⟨s, hs, hsn, e⟩ := cover p n h
    rcases hs with hs | hs
    · obtain ⟨j, ej⟩ := inPre s hs
      rw [hsn] at ej
      rw [ej, e]
    · have ej := inPost s hs
      rw [hsn] at ej
      rw [ej] at hT' ⊢
      rw [e] at hT' ⊢
      exact hK.same p n h hT'
  · intro p n h hlt
    obtain ⟨s, hs, hsn, e⟩ := cover p n h
    rcases hs with hs | hs
    · refine Or.inr ?_
      obtain ⟨p', k', fs, hp', hk', hfs⟩ := h3 s hs
      have hp'' : p' = join p n := by
        rw [e] at hp'
        exact (Option.some.inj hp').symm
      subst hp''
      refine ⟨k', fs, hk', ?_, ?_⟩
      · rw [hsn] at hfs
        exact hfs
      · intro x hx
        simp only [h4 k' hk', List.mem_flatMap]
        refine ⟨s, hs, ?_⟩
        simp only [filesOf, hp', hfs]
        exact hx
    · refine Or.inl ?_
      have ej := inPost s hs
      rw [hsn] at ej
      rw [ej, e]
      exact hlt
  · intro p n h hlt
    obtain ⟨s, hs, hsn, e⟩ := cover p n h
    rcases hs with hs | hs
    · obtain ⟨j, ej⟩ := inPre s hs
      rw [hsn] at ej
      rw [ej] at hlt
      exact absurd (hclk j) (Nat.not_le.mpr hlt)
    · have ej := inPost s hs
      rw [hsn] at ej
      rw [ej, e] at hlt
      exact hlt
  · rintro ⟨p, n, h, hlt⟩
    have hm : entry D n ∈ sortSilos before D :=
      hperm.mem_iff.mpr (entry_mem ((hDnames n).mpr ⟨p, h⟩))
    have hsorted := sortSilos_sorted D
    cases hS : sortSilos before D with
    | nil => rw [hS] at hm; simp at hm
    | cons x r =>
      have hxD : x ∈ D := hperm.mem_iff.mp (by rw [hS]; simp)
      obtain ⟨p', hp', ex⟩ := hDm x hxD
      have hxlt : (entry d x.fn).lastTm < T := by
        refine Nat.not_le.mp fun hge => ?_
        have hsz := hK.same p' x.fn hp' hge
        have hxc : x.change = 0 := by
          rw [Silo.change]
          have h1 : x.nowSz = W.stat (join p' x.fn) := congrArg Silo.nowSz ex
          have h2 : x.lastSz = (entry d x.fn).lastSz := (congrArg Silo.lastSz ex :)
          omega
        have hxt : x.lastTm = (entry d x.fn).lastTm := (congrArg Silo.lastTm ex :)
        rw [hS] at hm hsorted
        rcases List.mem_cons.mp hm with hm | hm
        · have hn : n = x.fn := by rw [← hm, entry_fn]
          rw [← hn] at hge
          omega
        · have := (List.pairwise_cons.mp hsorted).1 _ hm
          rw [before_false] at this
          have ht' : (entry D n).lastTm = (entry d n).lastTm := by rw [hDe p n h]
          omega
      have hpre : x ∈ pre := by
        cases hpre : pre with
        | nil =>
          rw [hpre, List.nil_append, hS] at e1
          have := h7 x r e1.symm
          have hxs : x.nowSz ≤ E.quota := by rw [ex]; exact hq p' _ hp'
          rw [hpre] at this
          simp only [total, List.map_nil, List.sum_nil] at this
          omega
        | cons y pre' =>
          rw [hpre, hS, List.cons_append, List.cons.injEq] at e1
          simp [e1.1]
      obtain ⟨j, ej⟩ := inPre x hpre
      refine ⟨p', x.fn, hp', hxlt, ?_⟩
      rw [ej]
      exact Nat.not_lt.mpr (hclk j)

/-! ## C76 -/

/-- C76.  Every silo is staged in turn.  If nothing changes in `SILODIR`, every silo fits in the
    quota, all keys of `silodates.txt` are silos, and the clock is past all its times, then as
    many runs as there are silos come to their end and every silo is staged in one of them.

    Missing: it fails as soon as one silo is larger than the quota
    (`C76_counterexample_large`), a silo of `silodates.txt` is gone (`C76_counterexample_gone`)
    or a name has a blank (`C76_counterexample_blank`). -/
theorem C76_eventually_partial (E : Nat → Env) (W : Nat → World) (files : List (Bytes × Bytes))
    (stat : Bytes → Nat) (quota T : Nat) (old : Option Bytes) (d : List Silo) (n : Nat)
    (hfiles : ∀ k, (W k).files = files) (hstat : ∀ k, (W k).stat = stat)
    (hquota : ∀ k, (E k).quota = quota)
    (hkeys : ∀ k, ∃ s, getSecrets (E k).secrets = .ok s)
    (hdist : ((files.filter (fun x => b!".warc.gz".isSuffixOf x.2)).map Prod.snd).Nodup)
    (hblank : ∀ x ∈ files, b!".warc.gz" <:+ x.2 → ∀ c ∈ x.2, isSpace c = false)
    (hfit : ∀ x ∈ files, b!".warc.gz" <:+ x.2 → stat (x.1 ++ 47 :: x.2) ≤ quota)
    (hclk : ∀ k i, T ≤ (E k).clk i) (hT : 0 < T)
    (hload : load old = .ok d) (hnd : (d.map Silo.fn).Nodup)
    (hthere : ∀ s ∈ d, ∃ x ∈ files, x.2 = s.fn ∧ b!".warc.gz" <:+ s.fn)
    (hpast : ∀ s ∈ d, s.lastTm < T)
    (hn : (files.filter (fun x => b!".warc.gz".isSuffixOf x.2)).length ≤ n) :
    ∃ outs, runsFrom E W 0 n old = .ok outs ∧
      ∀ x ∈ files, b!".warc.gz" <:+ x.2 →
        ∃ k o, outs[k]? = some o ∧ Offered (E k) (W k) o x.1 x.2 := by
  have hflt : files.filter (fun x => b!".warc.gz".isSuffixOf x.2) = siloFiles files := by
    rw [siloFiles]
    refine List.filter_congr ?_
    intro x _
    rw [Bool.eq_iff_iff, List.isSuffixOf_iff_suffix, isSilo_iff]
  rw [hflt] at hdist hn
  have hmem : ∀ p f, (p, f) ∈ siloFiles files ↔ (p, f) ∈ files ∧ b!".warc.gz" <:+ f := by
    intro p f
    rw [siloFiles, List.mem_filter, isSilo_iff]
  have key : ∀ n k old d, load old = .ok d → Known (W k) T d →
      ((siloFiles files).filter (fun x => decide ((entry d x.2).lastTm < T))).length ≤ n →
      ∃ outs, runsFrom E W k n old = .ok outs ∧
        ∀ p f, (p, f) ∈ siloFiles files → (entry d f).lastTm < T →
          ∃ j o, outs[j]? = some o ∧ Offered (E (k + j)) (W (k + j)) o p f := by
    intro n
    induction n with
    | zero =>
      intro k old d _ _ hle
      refine ⟨[], rfl, ?_⟩
      intro p f hpf hlt
      have : (p, f) ∈ (siloFiles files).filter (fun x => decide ((entry d x.2).lastTm < T)) := by
        rw [List.mem_filter]
        exact ⟨hpf, by simpa using hlt⟩
      rw [List.length_eq_zero_iff.mp (Nat.le_zero.mp hle)] at this
      simp at this
    | succ n ih =>
      intro k old d hl hK hle
      have hP : Plain (E k) (W k) := by
        refine ⟨hkeys k, by rw [hfiles]; exact hdist, ?_⟩
        intro p f hpf
        rw [hfiles, hmem] at hpf
        exact hblank (p, f) hpf.1 hpf.2
      obtain ⟨o, d', hm, hl', hK', hoff, hmono, hprog⟩ := main_step hP (by
        intro p f hpf
        rw [hfiles, hmem] at hpf
        rw [hstat, hquota]
        exact hfit (p, f) hpf.1 hpf.2) hT (hclk k) hl hK
      rw [hfiles] at hoff hmono hprog
      have hK'' : Known (W (k + 1)) T d' := by
        refine ⟨hK'.nodup, ?_, ?_⟩
        · have := hK'.there
          rw [hfiles] at this ⊢
          exact this
        · have := hK'.same
          rw [hfiles, hstat] at this ⊢
          exact this
      have hle' : ((siloFiles files).filter (fun x => decide ((entry d' x.2).lastTm < T))).length ≤ n := by
        by_cases hex : ∃ p f, (p, f) ∈ siloFiles files ∧ (entry d f).lastTm < T
        · obtain ⟨p, f, h1, h2, h3⟩ := hprog hex
          have := length_filter_lt (fun x => decide ((entry d x.2).lastTm < T))
            (fun x => decide ((entry d' x.2).lastTm < T)) (siloFiles files)
            (by
              intro x hx hlt
              simp only [decide_eq_true_eq] at hlt ⊢
              exact hmono x.1 x.2 hx hlt)
            ⟨(p, f), h1, by simpa using h2, by simpa using h3⟩
          omega
        · have : (siloFiles files).filter (fun x => decide ((entry d' x.2).lastTm < T)) = [] := by
            rw [List.filter_eq_nil_iff]
            intro x hx hlt
            simp only [decide_eq_true_eq] at hlt
            exact hex ⟨x.1, x.2, hx, hmono x.1 x.2 hx hlt⟩
          rw [this]
          exact Nat.zero_le n
      obtain ⟨outs, hr, hall⟩ := ih (k + 1) (some o.dates) d' hl' hK'' hle'
      refine ⟨o :: outs, ?_, ?_⟩
      · simp only [runsFrom, hm, Res.ok_bind, hr, Res.pure_eq]
      · intro p f hpf hlt
        rcases hoff p f hpf hlt with h | h
        · obtain ⟨j, o', ho', hO⟩ := hall p f hpf h
          refine ⟨j + 1, o', by simpa using ho', ?_⟩
          rw [show k + (j + 1) = k + 1 + j from by omega]
          exact hO
        · exact ⟨0, o, rfl, h⟩
  have hpast' : ∀ f, (entry d f).lastTm < T := by
    intro f
    by_cases h : f ∈ names d
    · exact hpast _ (entry_mem h)
    · rw [entry_not_mem h]
      exact hT
  obtain ⟨outs, hr, hall⟩ := key n 0 old d hload
    ⟨hnd, by
      intro f hf
      obtain ⟨s, hs, rfl⟩ := List.mem_map.mp hf
      obtain ⟨x, hx, e, hsuf⟩ := hthere s hs
      refine ⟨x.1, ?_⟩
      rw [hfiles, hmem, ← e]
      exact ⟨hx, by rw [e]; exact hsuf⟩, by
      intro p f _ hge
      exact absurd (hpast' f) (Nat.not_lt.mpr hge)⟩
    (Nat.le_trans (List.length_filter_le _ _) hn)
  refine ⟨outs, hr, ?_⟩
  intro x hx hsuf
  obtain ⟨j, o, ho, hO⟩ := hall x.1 x.2 ((hmem _ _).mpr ⟨hx, hsuf⟩) (hpast' _)
  exact ⟨j, o, ho, by simpa using hO⟩

/-! ## The quota and the order -/

theorem main_ok {E : Env} {W : World} {old : Option Bytes} {o : Out} (h : main E W old = .ok o) :
    ∃ d t, load old = .ok d ∧ stage E W 0 0 (sortSilos before (walk W W.files d)) = .ok t ∧
      o = ⟨t.files, dates t.silos⟩ := by
  simp only [main, Res.bind_eq_ok, Res.pure_eq, Res.ok.injEq] at h
  obtain ⟨d, hd, t, ht, e⟩ := h
  exact ⟨d, t, hd, ht, e.symm⟩

theorem upd_keeps {d : List Silo} {f : Bytes} {g : Silo → Silo} (P : Silo → Prop)
    (hd : ∀ s ∈ d, P s) (hnew : P (g { fn := f })) (hg : ∀ s, P s → P (g s)) :
    ∀ s ∈ upd f g d, P s := by
  induction d with
  | nil =>
    intro s hs
    simp only [upd, List.mem_singleton] at hs
    rw [hs]; exact hnew
  | cons a d ih =>
    intro s hs
    rw [upd] at hs
    by_cases h : a.fn = f
    · rw [if_pos h] at hs
      rcases List.mem_cons.mp hs with rfl | hs
      · exact hg a (hd a (by simp))
      · exact hd s (by simp [hs])
    · rw [if_neg h] at hs
      rcases List.mem_cons.mp hs with rfl | hs
      · exact hd _ (by simp)
      · exact ih (fun x hx => hd x (by simp [hx])) s hs

/-- A silo has the size of the file it was found as. -/
def Probed (W : World) (s : Silo) : Prop := ∀ p, s.fpn = some p → s.nowSz = W.stat p

theorem loadLines_probed {W : World} {L : List Bytes} {d d' : List Silo} (hd : ∀ s ∈ d, Probed W s)
    (h : loadLines L d = .ok d') : ∀ s ∈ d', Probed W s := by
  induction L generalizing d with
  | nil =>
    simp only [loadLines, Res.ok.injEq] at h
    exact h ▸ hd
  | cons l L ih =>
    simp only [loadLines, Res.bind_eq_ok] at h
    obtain ⟨d1, h1, h2⟩ := h
    refine ih ?_ h2
    rw [loadLine] at h1
    split at h1
    · split at h1
      · rw [Res.ok.injEq] at h1
        subst h1
        refine upd_keeps (Probed W) hd ?_ ?_
        · intro p hp
          simp at hp
        · intro s hs p hp
          exact hs p hp
      · simp at h1
    · simp at h1

theorem load_probed {W : World} {old : Option Bytes} {d : List Silo} (h : load old = .ok d) :
    ∀ s ∈ d, Probed W s := by
  cases old with
  | none =>
    simp only [load, Res.ok.injEq] at h
    subst h
    simp
  | some txt => exact loadLines_probed (by simp) h

theorem walk_probed {W : World} (fs : List (Bytes × Bytes)) {d : List Silo}
    (hd : ∀ s ∈ d, Probed W s) : ∀ s ∈ walk W fs d, Probed W s := by
  induction fs generalizing d with
  | nil => exact hd
  | cons x fs ih =>
    obtain ⟨p, f⟩ := x
    rw [walk]
    by_cases h : isSilo f = true
    · rw [if_pos h]
      refine ih (upd_keeps (Probed W) hd ?_ ?_)
      · intro q hq
        exact congrArg W.stat (Option.some.inj hq)
      · intro s _ q hq
        exact congrArg W.stat (Option.some.inj hq)
    · rw [if_neg h]
      exact ih hd

/-- The bytes of the encrypted silos among some files. -/
def binBytes (fs : List File) : Nat :=
  ((fs.filter (fun x => b!".bin".isSuffixOf x.name)).map (fun x => x.data.length)).sum

theorem binBytes_append (a b : List File) : binBytes (a ++ b) = binBytes a + binBytes b := by
  simp [binBytes]

theorem bin_suffix (a : Bytes) : b!".bin".isSuffixOf (a ++ b!".bin") = true :=
  List.isSuffixOf_iff_suffix.mpr (List.suffix_append _ _)

theorem hmac_no_bin (a : Bytes) : b!".bin".isSuffixOf (a ++ b!".hmac") = false := by
  rw [← Bool.not_eq_true, List.isSuffixOf_iff_suffix]
  rintro ⟨x, hx⟩
  have := congrArg (fun l => l.reverse.head?) hx
  simp at this

theorem sha_no_bin (a : Bytes) : b!".bin".isSuffixOf (a ++ b!".sha256") = false := by
  rw [← Bool.not_eq_true, List.isSuffixOf_iff_suffix]
  rintro ⟨x, hx⟩
  have := congrArg (fun l => l.reverse.head?) hx
  simp at this

theorem binBytes_encrypt {C : Crypto} {k : Secrets} {sfn content d n : Bytes} {fs : List File}
    (h : encryptFile C k sfn content (join d (n ++ b!".bin")) = .ok fs) :
    binBytes fs = content.length := by
  obtain ⟨_, e⟩ := encryptFile_ok h
  subst e
  have e1 : join d (n ++ b!".bin") = join d n ++ b!".bin" := by simp [join]
  simp only [binBytes, e1, List.filter_cons, bin_suffix, hmac_no_bin, sha_no_bin, if_true]
  simp [xorFrom_length]

theorem binBytes_flatMap (g : Silo → List File) (l : List Silo) (h : ∀ s ∈ l, binBytes (g s) = s.nowSz) :
    binBytes (l.flatMap g) = total l := by
  induction l with
  | nil => rfl
  | cons s r ih =>
    rw [List.flatMap_cons, binBytes_append, h s (by simp), ih (fun x hx => h x (by simp [hx]))]
    rfl

/-- C76.  A run stages at most `QUOTA` bytes of encrypted silos, if no silo grows while it
    runs. -/
theorem C76_quota (E : Env) (W : World) (old : Option Bytes) (o : Out)
    (hread : ∀ p, (W.read p).length = W.stat p) (h : main E W old = .ok o) :
    ((o.files.filter (fun x => b!".bin".isSuffixOf x.name)).map (fun x => x.data.length)).sum
      ≤ E.quota := by
  obtain ⟨d, t, hd, ht, rfl⟩ := main_ok h
  have hprobed : ∀ s ∈ sortSilos before (walk W W.files d), Probed W s := fun s hs =>
    walk_probed W.files (load_probed hd) s ((sortSilos_perm _ _).mem_iff.mp hs)
  obtain ⟨pre, post, e1, _, h3, h4, h5, h6, _⟩ := stage_ok ht
  change binBytes t.files ≤ E.quota
  by_cases hpre : pre = []
  · rw [h5 hpre]
    exact Nat.zero_le _
  · have hle := h6 hpre
    obtain ⟨k, hk⟩ : ∃ k, getSecrets E.secrets = .ok k := by
      cases pre with
      | nil => exact absurd rfl hpre
      | cons s r =>
        obtain ⟨_, k, _, _, hk, _⟩ := h3 s (by simp)
        exact ⟨k, hk⟩
    rw [h4 k hk]
    have hall : ∀ s ∈ pre, binBytes (filesOf E W k s) = s.nowSz := by
      intro s hs
      obtain ⟨p, k', fs, hp, hk', hfs⟩ := h3 s hs
      have : k' = k := by rw [hk] at hk'; exact (Res.ok.inj hk').symm
      subst this
      simp only [filesOf, hp, hfs]
      rw [binBytes_encrypt hfs, hread,
        hprobed s (by rw [e1]; exact List.mem_append_left _ hs) p hp]
    have := binBytes_flatMap _ _ hall
    omega

theorem entry_walk_mem (W : World) {d : List Silo} {p f : Bytes} (hsilo : (p, f) ∈ siloFiles W.files) :
    entry (walk W W.files d) f ∈ walk W W.files d :=
  entry_mem ((walk_names W W.files d f).mpr (Or.inr ⟨p, hsilo⟩))

/-- C76.  The silos are staged in the order of the bytes added since they were last staged and
    of the time since then: if a silo is staged, so is every silo that has more new bytes, or as
    many and was staged longer ago.  (`d` is what `silodates.txt` says; a silo that is not there
    has size 0 and time 0.) -/
theorem C76_order (E : Env) (W : World) (old : Option Bytes) (o : Out) (d : List Silo)
    (p f p' f' : Bytes) (s s' : Silo)
    (hdist : ((siloFiles W.files).map Prod.snd).Nodup) (hnd : (d.map Silo.fn).Nodup)
    (h : main E W old = .ok o) (hd : load old = .ok d)
    (hf : IsSiloFile W p f) (hf' : IsSiloFile W p' f')
    (hs : s = (d.find? (fun x => decide (x.fn = f))).getD { fn := f })
    (hs' : s' = (d.find? (fun x => decide (x.fn = f'))).getD { fn := f' })
    (hlt : Int.natAbs ((W.stat (p' ++ 47 :: f') : Int) - s'.lastSz) <
        Int.natAbs ((W.stat (p ++ 47 :: f) : Int) - s.lastSz) ∨
      Int.natAbs ((W.stat (p' ++ 47 :: f') : Int) - s'.lastSz) =
        Int.natAbs ((W.stat (p ++ 47 :: f) : Int) - s.lastSz) ∧ s.lastTm < s'.lastTm)
    (hoff : ∃ x ∈ o.files, x.name = E.sdir ++ 47 :: (f' ++ b!".bin")) :
    Offered E W o p f := by
  obtain ⟨d', t, hd', ht, rfl⟩ := main_ok h
  have : d' = d := by rw [hd] at hd'; exact (Res.ok.inj hd').symm
  subst this
  rw [isSiloFile_iff] at hf hf'
  have hDn := walk_nodup W W.files d' hnd
  have e := walk_entry W W.files d' p f hdist hf
  have e' := walk_entry W W.files d' p' f' hdist hf'
  have hes : entry d' f = s := hs.symm
  have hes' : entry d' f' = s' := hs'.symm
  rw [hes] at e
  rw [hes'] at e'
  have hperm := sortSilos_perm before (walk W W.files d')
  have hsorted := sortSilos_sorted (walk W W.files d')
  obtain ⟨pre, post, e1, _, h3, h4, h5, _, _⟩ := stage_ok ht
  have hb : before (entry (walk W W.files d') f) (entry (walk W W.files d') f') = true := by
    rw [before_iff, e, e']
    simp only [Silo.change, join]
    omega
  have hnames : ∀ x ∈ pre ++ post, entry (walk W W.files d') x.fn = x := by
    intro x hx
    rw [← e1] at hx
    exact entry_of_mem hDn (hperm.mem_iff.mp hx)
  have hpre' : entry (walk W W.files d') f' ∈ pre := by
    obtain ⟨x, hx, hxn⟩ := hoff
    by_cases hpre : pre = []
    · rw [h5 hpre] at hx
      simp at hx
    · obtain ⟨k, hk⟩ : ∃ k, getSecrets E.secrets = .ok k := by
        cases pre with
        | nil => exact absurd rfl hpre
        | cons s r =>
          obtain ⟨_, k, _, _, hk, _⟩ := h3 s (by simp)
          exact ⟨k, hk⟩
      rw [h4 k hk, List.mem_flatMap] at hx
      obtain ⟨y, hy, hxy⟩ := hx
      obtain ⟨q, k', fs, hq, hk', hfs⟩ := h3 y hy
      simp only [filesOf, hq] at hxy
      have : k' = k := by rw [hk] at hk'; exact (Res.ok.inj hk').symm
      subst this
      simp only [hfs] at hxy
      obtain ⟨_, e2⟩ := encryptFile_ok hfs
      subst e2
      have hsuf : b!".bin".isSuffixOf x.name = true := by
        rw [hxn]
        have := bin_suffix (E.sdir ++ 47 :: f')
        simpa using this
      have hyf : y.fn = f' := by
        simp only [List.mem_cons, List.not_mem_nil, or_false] at hxy
        rcases hxy with hxy | hxy | hxy
        · rw [hxy] at hxn
          simp only [join, List.append_cancel_left_eq, List.cons.injEq, true_and,
            List.append_cancel_right_eq] at hxn
          exact hxn
        · rw [hxy] at hsuf
          have := hmac_no_bin (join E.sdir (y.fn ++ b!".bin"))
          rw [this] at hsuf
          exact absurd hsuf (by decide)
        · rw [hxy] at hsuf
          have := sha_no_bin (join E.sdir (y.fn ++ b!".bin"))
          rw [this] at hsuf
          exact absurd hsuf (by decide)
      rw [← hyf, hnames y (List.mem_append_left _ hy)]
      exact hy
  have hmem : entry (walk W W.files d') f ∈ pre ++ post := by
    rw [← e1]
    exact hperm.mem_iff.mpr (entry_walk_mem W hf)
  have hpre : entry (walk W W.files d') f ∈ pre := by
    rcases List.mem_append.mp hmem with hm | hm
    · exact hm
    · rw [e1] at hsorted
      have := (List.pairwise_append.mp hsorted).2.2 _ hpre' _ hm
      rw [hb] at this
      exact absurd this (by decide)
  obtain ⟨q, k, fs, hq, hk, hfs⟩ := h3 _ hpre
  have hqp : q = join p f := by
    rw [e] at hq
    exact (Option.some.inj hq).symm
  subst hqp
  rw [entry_fn] at hfs
  refine ⟨k, fs, hk, hfs, ?_⟩
  intro x hx
  simp only [h4 k hk, List.mem_flatMap]
  refine ⟨_, hpre, ?_⟩
  simp only [filesOf, hq, entry_fn, hfs]
  exact hx

end Verif.Props
