/-
C07 to C10: housekeeping with crashes, several housekeepers, concurrent inserts and lookups.
-/
import Verif.Proofs.Hk
import Mathlib.Tactic.Push

namespace Verif.Props
open Verif Index Spec Hk

/-- All records in the named index files. -/
def onDisk (s : St) : List Bytes :=
  sortedRows s.sorted ++ (s.appendix.map s.file).getD [] ++ (s.housekeep.map s.file).getD []

/-- A record as the insert API builds it. -/
def IsRecord (r : Bytes) : Prop := ∃ i : Ins, i.Valid ∧ idxRecord i.id i.flags i.silo i.off i.cont = .ok r

/-- Everything that can come about with any number of housekeepers, inserts and lookups, in any order, with
any crashes, and with the hold file removed after crashes. -/
def HkReachable (m : Nat) (s : St) : Prop :=
  ∃ nh rs nr as, (∀ r ∈ rs, IsRecord r) ∧ run m (init nh rs nr) as = some s

theorem IsRecord.good {r : Bytes} (h : IsRecord r) : GoodRec r := by
  obtain ⟨i, hv, hr⟩ := h
  obtain ⟨r', h1, h2, -⟩ := idxRecord_spec hv
  rw [h1] at hr
  cases hr
  exact h2

theorem HkReachable.inv {m : Nat} (hm : 0 < m) {s : St} (h : HkReachable m s) : Inv m s := by
  obtain ⟨nh, rs, nr, as, hr, hs⟩ := h
  exact inv_run hm as (inv_init m nh rs nr fun r hm => (hr r hm).good) hs

theorem run_append (m : Nat) (as bs : List Act) (s : St) :
    run m s (as ++ bs) = (run m s as).bind fun s' => run m s' bs := by
  induction as generalizing s with
  | nil => rfl
  | cons a as ih =>
    simp only [List.cons_append, run]
    cases step m s a with
    | none => rfl
    | some s1 => simp [ih]

theorem HkReachable.run {m : Nat} {s s' : St} {as : List Act} (h : HkReachable m s) (hs : Hk.run m s as = some s') :
    HkReachable m s' := by
  obtain ⟨nh, rs, nr, as', hr, h'⟩ := h
  exact ⟨nh, rs, nr, as' ++ as, hr, by rw [run_append, h']; exact hs⟩

theorem mem_onDisk {m : Nat} {s : St} (h : Inv m s) {r : Bytes} (hr : r ∈ s.safe) : r ∈ onDisk s := by
  simp only [onDisk, List.mem_append]
  rcases h.safe r hr with e | e | e
  · exact .inl (.inl e)
  · exact .inl (.inr e)
  · exact .inr e

theorem safe_step {m : Nat} {s s' : St} {a : Act} (hs : step m s a = some s') {r : Bytes} (hr : r ∈ s.safe) : r ∈ s'.safe := by
  cases a with
  | hk p =>
    simp only [step, Option.bind_eq_some_iff] at hs
    obtain ⟨pc, hp, hs⟩ := hs
    cases pc <;> simp only [stepHk, stepLink, stepOpen, stepRead, stepMerge, stepRename, Option.some.injEq, reduceCtorEq] at hs
    all_goals subst hs
    all_goals try exact hr
    all_goals (split <;> try exact hr)
    all_goals (split <;> exact hr)
  | crash p =>
    simp only [step] at hs
    split at hs
    · cases hs; exact hr
    · cases hs
  | rmHold =>
    simp only [step, stepRmHold] at hs
    split at hs
    · cases hs
    · cases hs; exact hr
  | ins p =>
    simp only [step, Option.bind_eq_some_iff] at hs
    obtain ⟨pc, hp, hs⟩ := hs
    cases pc with
    | start r' =>
      simp only [stepIns] at hs
      split at hs <;> cases hs <;> exact hr
    | opened r' i =>
      simp only [stepIns, Option.some.injEq] at hs
      subst hs
      simp only [setIns]
      split
      · exact List.mem_append.2 (.inl hr)
      · exact hr
    | done r' => cases hs
  | rd p =>
    simp only [step, Option.bind_eq_some_iff] at hs
    obtain ⟨pc, hp, hs⟩ := hs
    cases pc <;> simp only [stepRd, Option.some.injEq, reduceCtorEq] at hs <;> subst hs <;> exact hr

theorem safe_run {m : Nat} (as : List Act) {s s' : St} (hs : run m s as = some s') {r : Bytes} (hr : r ∈ s.safe) : r ∈ s'.safe := by
  induction as generalizing s with
  | nil => cases hs; exact hr
  | cons a as ih =>
    simp only [run, Option.bind_eq_some_iff] at hs
    obtain ⟨s1, h1, h2⟩ := hs
    exact ih h2 (safe_step h1 hr)

theorem write_safe {m : Nat} {s s' : St} {p i : Nat} {r : Bytes} (hp : s.inss[p]? = some (.opened r i)) (hl : s.live m i = true)
    (hs : step m s (.ins p) = some s') : r ∈ s'.safe := by
  simp only [step, hp, Option.bind_some, stepIns, Option.some.injEq] at hs
  subst hs
  simp [setIns, hl]

/-! ### C07 -/

/-- An insert that is not disturbed survives everything that happens later: whatever housekeepers do, and
wherever they are killed, its record is in one of the index files. -/
theorem C07_nothing_lost {m : Nat} (hm : 0 < m) {s s' : St} (h : HkReachable m s) {p : Nat} {r : Bytes}
    (hp : s.inss[p]? = some (.start r)) (as : List Act) (hs : run m s (.ins p :: .ins p :: as) = some s') :
    r ∈ onDisk s' := by
  have hinv := (h.run hs).inv hm
  apply mem_onDisk hinv
  simp only [run, Option.bind_eq_some_iff] at hs
  obtain ⟨s1, h1, s2, h2, h3⟩ := hs
  refine safe_run as h3 ?_
  have hlen : p < s.inss.length := (List.getElem?_eq_some_iff.1 hp).1
  simp only [step, hp, Option.bind_some, stepIns] at h1
  have hopen : ∃ i, s1.inss[p]? = some (.opened r i) ∧ s1.appendix = some i := by
    split at h1
    · rename_i a ha
      cases h1
      exact ⟨a, by simp [setIns, hlen], ha⟩
    · cases h1
      exact ⟨s.inodes.length, by simp [setIns, hlen], rfl⟩
  obtain ⟨i, ho, ha⟩ := hopen
  exact write_safe ho (by simp [St.live, ha]) h2

theorem chunksAux_fuel {k : Nat} (hk : 0 < k) (f : Nat) : ∀ (g : Nat) (l : Bytes), l.length ≤ f → l.length ≤ g →
    chunksAux k f l = chunksAux k g l := by
  induction f with
  | zero =>
    intro g l hf _
    have : l = [] := List.length_eq_zero_iff.1 (by omega)
    subst this
    cases g <;> simp [chunksAux]
  | succ f ih =>
    intro g l hf hg
    by_cases hl : l = []
    · subst hl
      cases g <;> simp [chunksAux]
    · cases g with
      | zero => exact absurd (List.length_eq_zero_iff.1 (by omega)) hl
      | succ g =>
        have : 0 < l.length := List.length_pos_iff.2 hl
        rw [chunksAux, chunksAux, if_neg hl, if_neg hl, ih g]
        · rw [List.length_drop]; omega
        · rw [List.length_drop]; omega

theorem chunksOf_cons {k : Nat} (hk : 0 < k) {l : Bytes} (hl : l ≠ []) : chunksOf k l = l.take k :: chunksOf k (l.drop k) := by
  have : 0 < l.length := List.length_pos_iff.2 hl
  unfold chunksOf
  obtain ⟨n, hn⟩ : ∃ n, l.length = n + 1 := ⟨l.length - 1, by omega⟩
  conv => lhs; rw [hn, chunksAux]
  rw [if_neg hl, chunksAux_fuel hk n (l.drop k).length]
  · rw [List.length_drop]; omega
  · exact Nat.le_refl _

theorem setHk_setHk (s : St) (o : Option Bytes) (p : Nat) (a b : HkPc) :
    setHk { setHk s p a with sorted := o } p b = setHk { s with sorted := o } p b := by
  simp [setHk]

/-- Reading a snapshot nobody appends to, chunk by chunk: the steps do what the sequential model does. -/
theorem hk_read_loop {m : Nat} (hm : 0 < m) (p ino : Nat) (ret : Bool) (k : Nat) :
    ∀ (s : St) (pos : Nat) (new : Option Bytes), s.hks[p]? = some (.read ino pos ret) →
      (s.file ino).length - pos ≤ k → Len32 (s.file ino) →
      mergeChunks (chunksOf (32 * m) ((s.file ino).drop pos).flatten) s.sorted = .ok new →
      ∃ n, run m s (List.replicate n (.hk p)) = some (setHk { s with sorted := new } p (.unlinkHk ret)) := by
  induction k with
  | zero =>
    intro s pos new hp hk hl hmc
    have hd : (s.file ino).drop pos = [] := List.drop_of_length_le (by omega)
    rw [hd] at hmc
    have : new = s.sorted := by
      simp only [List.flatten_nil, chunksOf, List.length_nil, chunksAux, mergeChunks, Res.ok.injEq] at hmc
      exact hmc.symm
    subst this
    refine ⟨1, ?_⟩
    simp [run, step, hp, stepHk, stepRead, hd]
  | succ k ih =>
    intro s pos new hp hk hl hmc
    have hplen : p < s.hks.length := (List.getElem?_eq_some_iff.1 hp).1
    by_cases hd : (s.file ino).drop pos = []
    · rw [hd] at hmc
      have : new = s.sorted := by
        simp only [List.flatten_nil, chunksOf, List.length_nil, chunksAux, mergeChunks, Res.ok.injEq] at hmc
        exact hmc.symm
      subst this
      refine ⟨1, ?_⟩
      simp [run, step, hp, stepHk, stepRead, hd]
    · obtain ⟨l, hlq⟩ : ∃ l, l = (s.file ino).drop pos := ⟨_, rfl⟩
      have hll : Len32 l := by
        rw [hlq]; exact fun r hr => hl r (List.mem_of_mem_drop hr)
      rw [← hlq] at hmc hd
      have hfl := flatten_len32 l hll
      have hlpos : 0 < l.length := List.length_pos_iff.2 hd
      have htake : l.flatten.take (32 * m) = (l.take m).flatten := by
        by_cases hle : m ≤ l.length
        · have : l.flatten = (l.take m).flatten ++ (l.drop m).flatten := by
            rw [← List.flatten_append, List.take_append_drop]
          rw [this]
          apply List.take_left'
          rw [flatten_len32 _ (fun r hr => hll r (List.mem_of_mem_take hr)), List.length_take]
          congr 1
          omega
        · rw [List.take_of_length_le (by omega), List.take_of_length_le (l := l) (by omega)]
      have hdrop : l.flatten.drop (32 * m) = (l.drop m).flatten := by
        by_cases hle : m ≤ l.length
        · have : l.flatten = (l.take m).flatten ++ (l.drop m).flatten := by
            rw [← List.flatten_append, List.take_append_drop]
          rw [this]
          apply List.drop_left'
          rw [flatten_len32 _ (fun r hr => hll r (List.mem_of_mem_take hr)), List.length_take]
          congr 1
          omega
        · rw [List.drop_of_length_le (by omega), List.drop_of_length_le (l := l) (by omega)]
          rfl
      have hchunks : chunksOf (32 * m) l.flatten = (l.take m).flatten :: chunksOf (32 * m) (l.drop m).flatten := by
        have hfne : l.flatten ≠ [] := by
          intro e
          rw [e] at hfl
          simp at hfl
          omega
        rw [chunksOf_cons (by omega) hfne, htake, hdrop]
      rw [hchunks] at hmc
      have hlt : Len32 (l.take m) := fun r hr => hll r (List.mem_of_mem_take hr)
      have htne : l.take m ≠ [] := by
        intro e
        rcases List.take_eq_nil_iff.1 e with e | e
        · omega
        · exact hd e
      have hctl : chunksOf 32 (l.take m).flatten = l.take m := chunksOf_flatten (by omega) _ hlt
      simp only [mergeChunks, hctl] at hmc
      rw [show decide ((l.take m).flatten.length % 32 = 0) = true by rw [flatten_len32 _ hlt]; simp] at hmc
      simp only [Res.check_true, Res.ok_bind] at hmc
      rw [Res.bind_eq_ok] at hmc
      obtain ⟨f, hf1, hf2⟩ := hmc
      -- the three steps: read, merge, rename
      have hstep3 : ∀ n, run m s (List.replicate (n + 3) (.hk p)) =
          run m (setHk { s with sorted := some f } p (if (l.take m).length = m then .read ino (pos + (l.take m).length) ret else .unlinkHk ret))
            (List.replicate n (.hk p)) := by
        intro n
        have e1 : step m s (.hk p) = some (setHk s p (.merge ino pos (l.take m) ret)) := by
          simp [step, hp, stepHk, stepRead, ← hlq, htne]
        have e2 : step m (setHk s p (.merge ino pos (l.take m) ret)) (.hk p) = some (setHk s p (.rename ino pos (l.take m) f ret)) := by
          simp [step, setHk, hplen, stepHk, stepMerge, hf1]
        have e3 : step m (setHk s p (.rename ino pos (l.take m) f ret)) (.hk p) =
            some (setHk { s with sorted := some f } p (if (l.take m).length = m then .read ino (pos + (l.take m).length) ret else .unlinkHk ret)) := by
          simp [step, setHk, hplen, stepHk, stepRename]
        show run m s (.hk p :: .hk p :: .hk p :: List.replicate n (.hk p)) = _
        simp only [run, e1, e2, e3, Option.bind_some]
      by_cases hfull : (l.take m).length = m
      · have hfull' : m ≤ l.length := by rw [List.length_take] at hfull; omega
        obtain ⟨n, hn⟩ := ih (setHk { s with sorted := some f } p (.read ino (pos + m) ret)) (pos + m) new
          (by simp [setHk, hplen])
          (by
            show (s.file ino).length - (pos + m) ≤ k
            have := congrArg List.length hlq
            rw [List.length_drop] at this
            omega)
          hl
          (by
            show mergeChunks (chunksOf (32 * m) (List.drop (pos + m) (s.file ino)).flatten) (some f) = Res.ok new
            rw [← List.drop_drop, ← hlq]
            exact hf2)
        refine ⟨n + 3, ?_⟩
        rw [hstep3, if_pos hfull, hfull, hn, setHk_setHk]
      · have hd2 : l.drop m = [] := by
          rw [List.length_take] at hfull
          exact List.drop_of_length_le (by omega)
        rw [hd2] at hf2
        have : new = some f := by
          simp only [List.flatten_nil, chunksOf, List.length_nil, chunksAux, mergeChunks, Res.ok.injEq] at hf2
          exact hf2.symm
        subst this
        exact ⟨0 + 3, by rw [hstep3, if_neg hfull]; rfl⟩

theorem run_add (m : Nat) (s : St) (x : Act) (a b : Nat) :
    run m s (List.replicate (a + b) x) = (run m s (List.replicate a x)).bind fun s' => run m s' (List.replicate b x) := by
  rw [← List.replicate_append_replicate, run_append]

theorem run_one {m : Nat} {s s1 : St} {a : Act} (n : Nat) (h : step m s a = some s1) :
    run m s (List.replicate (n + 1) a) = run m s1 (List.replicate n a) := by
  rw [List.replicate_succ, run, h]; rfl

/-- One round of the housekeeper alone is `idx_attempt_merge` of the sequential model. -/
theorem hk_attempt {m : Nat} (hm : 0 < m) {s : St} {p : Nat} {d' : Dir} {r : Int} (hp : s.hks[p]? = some .link)
    (hl : ∀ i, Len32 (s.file i)) (ha : attemptMerge (32 * m) s.dir = .ok (d', r)) :
    ∃ n s', run m s (List.replicate n (.hk p)) = some s' ∧ s'.dir = d' ∧ s'.inodes = s.inodes ∧
      s'.hks = s.hks.set p (if r > 0 then .link else .release) ∧
      (s'.appendix = s.appendix ∨ s'.appendix = none) ∧ (s'.housekeep = s.housekeep ∨ s'.housekeep = none) := by
  have hplen : p < s.hks.length := (List.getElem?_eq_some_iff.1 hp).1
  unfold attemptMerge at ha
  cases happ : s.appendix with
  | none =>
    simp only [St.dir, happ, Option.map_none, Res.ok.injEq, Prod.mk.injEq] at ha
    obtain ⟨e1, e2⟩ := ha
    subst e2
    refine ⟨1, setHk s p .release, ?_, ?_, rfl, ?_, .inl happ, .inl rfl⟩
    · simp [run, step, hp, stepHk, stepLink, happ]
    · rw [← e1]
      simp [St.dir, setHk, happ]
      rfl
    · simp [setHk]
  | some a =>
    cases hhk : s.housekeep with
    | none =>
      simp only [St.dir, happ, hhk, Option.map_none, Option.map_some] at ha
      rw [Res.bind_eq_ok] at ha
      obtain ⟨new, h1, h2⟩ := ha
      cases h2
      have e1 : step m s (.hk p) = some (setHk { s with housekeep := some a } p .unlinkApp) := by
        simp [step, hp, stepHk, stepLink, happ, hhk]
      have e2 : step m (setHk { s with housekeep := some a } p .unlinkApp) (.hk p) =
          some (setHk { s with housekeep := some a, appendix := none } p (.opening false)) := by
        simp [step, setHk, hplen, stepHk]
      have e3 : step m (setHk { s with housekeep := some a, appendix := none } p (.opening false)) (.hk p) =
          some (setHk { s with housekeep := some a, appendix := none } p (.read a 0 false)) := by
        simp [step, setHk, hplen, stepHk, stepOpen]
      obtain ⟨n, hn⟩ := hk_read_loop hm p a false _ (setHk { s with housekeep := some a, appendix := none } p (.read a 0 false)) 0 new
        (by simp [setHk, hplen]) (Nat.le_refl _) (hl a) h1
      refine ⟨3 + (n + 1), setHk { s with sorted := new, housekeep := none, appendix := none } p .release, ?_, ?_, rfl, ?_, .inr rfl, .inr rfl⟩
      · rw [run_add, show List.replicate 3 (Act.hk p) = [.hk p, .hk p, .hk p] from rfl]
        simp only [run, e1, e2, e3, Option.bind_some]
        rw [run_add, hn]
        simp [run, step, setHk, hplen, stepHk]
      · simp [St.dir, setHk]
      · simp [setHk]
    | some h =>
      simp only [St.dir, happ, hhk, Option.map_some] at ha
      rw [Res.bind_eq_ok] at ha
      obtain ⟨new, h1, h2⟩ := ha
      cases h2
      have e1 : step m s (.hk p) = some (setHk s p (.opening true)) := by
        simp [step, hp, stepHk, stepLink, happ, hhk]
      have e3 : step m (setHk s p (.opening true)) (.hk p) = some (setHk s p (.read h 0 true)) := by
        simp [step, setHk, hplen, stepHk, stepOpen, hhk]
      obtain ⟨n, hn⟩ := hk_read_loop hm p h true _ (setHk s p (.read h 0 true)) 0 new
        (by simp [setHk, hplen]) (Nat.le_refl _) (hl h) h1
      refine ⟨2 + (n + 1), setHk { s with sorted := new, housekeep := none } p .link, ?_, ?_, rfl, ?_, .inl happ, .inr rfl⟩
      · rw [run_add, show List.replicate 2 (Act.hk p) = [.hk p, .hk p] from rfl]
        simp only [run, e1, e3, Option.bind_some]
        rw [run_add, hn]
        simp [run, step, setHk, hplen, stepHk]
      · simp [St.dir, setHk, happ]
        rfl
      · simp [setHk]

/-- A housekeeper that is not disturbed does what the sequential model says. -/
theorem hk_alone {m : Nat} (hm : 0 < m) {s : St} {p : Nat} {d' : Dir} (hp : s.hks[p]? = some .start) (hh : s.hold = false)
    (hl : ∀ i, Len32 (s.file i)) (ha : idxResort (32 * m) s.dir = .ok d') :
    ∃ n s', run m s (List.replicate n (.hk p)) = some s' ∧ s'.dir = d' ∧ s'.hks[p]? = some .done ∧ s'.inodes = s.inodes := by
  have hplen : p < s.hks.length := (List.getElem?_eq_some_iff.1 hp).1
  have e0 : step m s (.hk p) = some (setHk { s with hold := true } p .link) := by
    simp [step, hp, stepHk, hh]
  obtain ⟨s0, hs0⟩ : ∃ s0, s0 = setHk { s with hold := true } p .link := ⟨_, rfl⟩
  rw [← hs0] at e0
  have hd0 : s0.dir = { s.dir with hold := true } := by rw [hs0]; rfl
  have hp0 : s0.hks[p]? = some .link := by rw [hs0]; simp [setHk, hplen]
  have hl0 : ∀ i, Len32 (s0.file i) := by rw [hs0]; exact hl
  have hi0 : s0.inodes = s.inodes := by rw [hs0]; rfl
  have hlen0 : s0.hks.length = s.hks.length := by rw [hs0]; simp [setHk]
  unfold idxResort at ha
  rw [show s.dir.hold = false from hh] at ha
  simp only [Bool.false_eq_true, if_false, Res.bind_eq_ok] at ha
  obtain ⟨d2, hloop, hd2⟩ := ha
  rw [← hd0] at hloop
  cases hd2
  have hrel : ∀ s2 : St, s2.hks[p]? = some .release →
      step m s2 (.hk p) = some (setHk { s2 with hold := false } p .done) := by
    intro s2 h2
    simp [step, h2, stepHk]
  simp only [resortLoop, Res.bind_eq_ok] at hloop
  obtain ⟨⟨d1, r1⟩, hat, hrest⟩ := hloop
  obtain ⟨n1, s1, hr1, hdir1, hin1, hks1, hap1, hhk1⟩ := hk_attempt hm hp0 hl0 hat
  by_cases hr : r1 > 0
  · simp only [hr, if_true, Res.bind_eq_ok] at hrest hks1
    obtain ⟨⟨d3, r3⟩, hat3, hrest⟩ := hrest
    have hp1 : s1.hks[p]? = some .link := by rw [hks1]; simp [hlen0, hplen]
    rw [← hdir1] at hat3
    obtain ⟨n2, s2, hr2, hdir2, hin2, hks2, -, -⟩ := hk_attempt hm hp1
      (fun i => by have := hl0 i; simpa [St.file, hin1] using this) hat3
    by_cases hr' : r3 > 0
    · simp [hr'] at hrest
    · simp only [hr', if_false] at hrest hks2
      cases hrest
      have hp2 : s2.hks[p]? = some .release := by rw [hks2, hks1]; simp [hlen0, hplen]
      refine ⟨1 + (n1 + (n2 + 1)), setHk { s2 with hold := false } p .done, ?_, ?_, ?_, ?_⟩
      · rw [run_add, show List.replicate 1 (Act.hk p) = [.hk p] from rfl]
        simp only [run, e0, Option.bind_some]
        rw [run_add, hr1, Option.bind_some, run_add, hr2]
        simp only [List.replicate, run, hrel s2 hp2, Option.bind_some]
      · rw [← hdir2]; rfl
      · simp [setHk, hks2, hks1, hlen0, hplen]
      · show s2.inodes = s.inodes
        rw [hin2, hin1, hi0]
  · simp only [hr, if_false] at hrest hks1
    cases hrest
    have hp1 : s1.hks[p]? = some .release := by rw [hks1]; simp [hlen0, hplen]
    refine ⟨1 + (n1 + 1), setHk { s1 with hold := false } p .done, ?_, ?_, ?_, ?_⟩
    · rw [run_add, show List.replicate 1 (Act.hk p) = [.hk p] from rfl]
      simp only [run, e0, Option.bind_some]
      rw [run_add, hr1]
      simp only [List.replicate, run, hrel s1 hp1, Option.bind_some]
    · rw [← hdir1]; rfl
    · simp [setHk, hks1, hlen0, hplen]
    · show s1.inodes = s.inodes
      rw [hin1, hi0]

/-- After any crashes, once no living housekeeper has the hold file and it has been removed, a new
housekeeping run completes: it gives back the hold file and keeps the set of records; if there was
anything to do, neither appendix nor snapshot remain.  (The files have fewer than `2 ^ 39` records.) -/
theorem C07_recovery {m : Nat} (hm : 0 < m) {s : St} (h : HkReachable m s) {p : Nat} (hp : s.hks[p]? = some .start)
    (hh : s.hold = false) (hb : (onDisk s).length < 2 ^ 39) :
    ∃ n s', run m s (List.replicate n (.hk p)) = some s' ∧ s'.hks[p]? = some .done ∧ s'.hold = false ∧
      (∀ r, r ∈ onDisk s' ↔ r ∈ onDisk s) ∧
      (s.appendix ≠ none → s'.appendix = none ∧ s'.housekeep = none) := by
  have hinv := h.inv hm
  have hgood : Good (2 ^ 40 - 1) s.dir (sortedRows s.sorted) (s.named s.appendix) (s.named s.housekeep) := by
    refine ⟨hinv.sorted, ?_, ?_, ?_⟩
    · unfold St.dir St.named
      cases s.appendix with
      | none => exact .inl ⟨rfl, rfl⟩
      | some a => exact .inr rfl
    · unfold St.dir St.named
      cases s.housekeep with
      | none => exact .inl ⟨rfl, rfl⟩
      | some a => exact .inr rfl
    · have hn : ∀ o, ∀ r ∈ s.named o, GoodRec r := by
        intro o r hr
        cases o with
        | none => cases hr
        | some i => exact file_good hinv i r hr
      rintro r (hr | hr | hr)
      · exact hinv.sortedGood r hr
      · exact hn _ r hr
      · exact hn _ r hr
  have h39 : 2 ^ 39 = 549755813888 := by decide
  have h26 : 2 ^ 26 = 67108864 := by decide
  have h40 : 2 ^ 40 = 1099511627776 := by decide
  have hlen : (onDisk s).length = (sortedRows s.sorted).length + (s.named s.appendix).length + (s.named s.housekeep).length := by
    simp [onDisk, St.named, Nat.add_assoc]
  obtain ⟨d', rs', as', hs', e1, e2, e3, e4, e5, e6, e7, e8⟩ := idxResort_spec (B := 2 ^ 40 - 1) (by omega) (32 * m) (by omega) (by omega)
    s.dir _ _ _ hgood (by omega)
  obtain ⟨n, s', r1, r2, r3, r4⟩ := hk_alone hm hp hh (fun i r hr => (file_good hinv i r hr).1) e1
  have hinv' := (h.run r1).inv hm
  refine ⟨n, s', r1, r3, ?_, ?_, ?_⟩
  · have : s'.dir.hold = false := by rw [r2, e3]; exact hh
    exact this
  · have hrs : ∀ r, r ∈ onDisk s' ↔ r ∈ rs' ∨ r ∈ as' ∨ r ∈ hs' := by
      have happ : ∀ o os : Option Nat, ∀ l, IsApp (o.map fun i => (s'.file i).flatten) l → (∀ r ∈ l, GoodRec r) →
          (o.map s'.file).getD [] = l := by
        intro o _ l hl hg
        cases o with
        | none =>
          rcases hl with ⟨_, e⟩ | e
          · simp [e]
          · cases e
        | some i =>
          rcases hl with ⟨e, _⟩ | e
          · cases e
          · simp only [Option.map_some, Option.some.injEq] at e
            have h1 := chunksOf_flatten (k := 32) (by omega) (s'.file i) (fun r hr => (file_good hinv' i r hr).1)
            have h2 := chunksOf_flatten (k := 32) (by omega) l (fun r hr => (hg r hr).1)
            rw [e] at h1
            exact h1.symm.trans h2
      intro r
      have g1 := e2.app
      have g2 := e2.hk
      have g3 := e2.sorted
      rw [← r2] at g1 g2 g3
      have f1 := happ s'.appendix none as' g1 (fun r hr => e2.good r (.inr (.inl hr)))
      have f2 := happ s'.housekeep none hs' g2 (fun r hr => e2.good r (.inr (.inr hr)))
      have f3 : sortedRows s'.sorted = rs' := by
        have : s'.dir.sorted = s'.sorted := rfl
        rw [this] at g3
        cases hsrt : s'.sorted with
        | none => rw [hsrt] at g3; exact g3.symm
        | some F =>
          rw [hsrt] at g3
          obtain ⟨bp0, g, -⟩ := g3
          exact sortedRows_index g
      simp only [onDisk, f1, f2, f3, List.mem_append, or_assoc]
    intro r
    rw [hrs, e4]
    simp only [onDisk, List.mem_append, or_assoc]
    rfl
  · intro hne
    have : s.dir.appendix ≠ none := by
      simp only [St.dir]
      cases ha : s.appendix with
      | none => exact absurd ha hne
      | some a => simp
    have := e8 hh this
    rw [← r2] at this
    simpa [St.dir] using this

/-! ### C08 -/

/-- In every execution at most one housekeeping process has got past the hold file; ... -/
theorem C08_mutual_exclusion {m : Nat} (hm : 0 < m) {s : St} (h : HkReachable m s) {p q : Nat} {pc pc' : HkPc}
    (hp : s.hks[p]? = some pc) (hq : s.hks[q]? = some pc')
    (h1 : pc ≠ .start ∧ pc ≠ .done ∧ pc ≠ .dead) (h2 : pc' ≠ .start ∧ pc' ≠ .done ∧ pc' ≠ .dead) : p = q := by
  refine (h.inv hm).uniq p q pc pc' hp hq ?_ ?_
  · cases pc <;> simp_all [HkPc.inside]
  · cases pc' <;> simp_all [HkPc.inside]

/-- ... a process that finds the hold file ends without touching any of the index files; ... -/
theorem C08_second_leaves (m : Nat) {s s' : St} {p : Nat} (hp : s.hks[p]? = some .start) (hh : s.hold = true)
    (hs : step m s (.hk p) = some s') : s'.hks[p]? = some .done ∧ s' = { s with hks := s'.hks } := by
  have hplen : p < s.hks.length := (List.getElem?_eq_some_iff.1 hp).1
  simp only [step, hp, Option.bind_some, stepHk, hh, if_true, Option.some.injEq] at hs
  subst hs
  exact ⟨by simp [setHk, hplen], rfl⟩

/-- ... and while one is past the hold file, every other process finds it. -/
theorem C08_holder_blocks {m : Nat} (hm : 0 < m) {s : St} (h : HkReachable m s) {p : Nat} {pc : HkPc}
    (hp : s.hks[p]? = some pc) (h1 : pc ≠ .start ∧ pc ≠ .done ∧ pc ≠ .dead) : s.hold = true := by
  refine (h.inv hm).holds p pc hp ?_
  cases pc <;> simp_all [HkPc.inside]

/-! ### C09 -/

/-- An insert whose `write` happens while its file is still called `index.appendix`, or is called
`index.housekeep` and the housekeeper has not done its last read of it, is never lost, whatever happens
between its `open` and its `write` and afterwards. -/
theorem C09_concurrent_insert_partial {m : Nat} (hm : 0 < m) {s s' : St} (h : HkReachable m s) {p i : Nat} {r : Bytes}
    (hp : s.inss[p]? = some (.opened r i))
    (hl : s.appendix = some i ∨ (s.housekeep = some i ∧ ∀ pc ∈ s.hks, pc.pastLastRead m = false))
    (as : List Act) (hs : run m s (.ins p :: as) = some s') : r ∈ onDisk s' := by
  have hinv := (h.run hs).inv hm
  apply mem_onDisk hinv
  simp only [run, Option.bind_eq_some_iff] at hs
  obtain ⟨s1, h1, h2⟩ := hs
  refine safe_run as h2 (write_safe hp ?_ h1)
  simp only [St.live, Bool.or_eq_true, decide_eq_true_eq, Bool.and_eq_true, Bool.not_eq_true', List.any_eq_false]
  rcases hl with e | ⟨e1, e2⟩
  · exact .inl e
  · exact .inr ⟨e1, fun pc hpc => by simp [e2 pc hpc]⟩

/-- The record of the witnesses. -/
def witnessRec (k : UInt8) : Bytes := List.replicate 11 0 ++ [k] ++ List.replicate 20 0

/-- Not every concurrent insert survives: the inserter opens the appendix, the housekeeper takes it away,
merges and removes it, and the inserter writes to a file without a name. -/
theorem C09_counterexample_lost :
    (run 1 (init 1 [witnessRec 1, witnessRec 2] 0)
      [.ins 0, .ins 0, .ins 1, .hk 0, .hk 0, .hk 0, .hk 0, .hk 0, .hk 0, .hk 0, .hk 0, .hk 0, .hk 0, .ins 1]).any (fun s =>
        s.inss[1]? = some (.done (witnessRec 2)) ∧ s.hks[0]? = some .done ∧
        onDisk s = [witnessRec 1]) = true := by
  decide +kernel

/-! ### C10 -/

/-- No housekeeper removes the snapshot during the execution. -/
def NoUnlink (m : Nat) : St → List Act → Prop
  | _, [] => True
  | s, a :: as => (∀ p ret, a = .hk p → s.hks[p]? ≠ some (.unlinkHk ret)) ∧ ∀ s', step m s a = some s' → NoUnlink m s' as

/-- Where a wanted record is while a lookup runs. -/
def RdInv (s : St) (r : Bytes) : RdPc → Prop
  | .start => r ∈ sortedRows s.sorted ∨ r ∈ s.named s.appendix ∨ r ∈ s.named s.housekeep
  | .openApp seen => r ∈ seen ∨ r ∈ s.named s.appendix ∨ r ∈ s.named s.housekeep
  | .readApp seen ino => r ∈ seen ∨ r ∈ s.named ino ∨ r ∈ s.named s.housekeep
  | .openHk seen => r ∈ seen ∨ r ∈ s.named s.housekeep
  | .readHk seen ino => r ∈ seen ∨ r ∈ s.named ino
  | .done seen => r ∈ seen

/-- The inode of a reader exists. -/
def RdLt (s : St) : RdPc → Prop
  | .readApp _ (some i) | .readHk _ (some i) => i < s.inodes.length
  | _ => True

theorem RdInv_mono {s s' : St} {r : Bytes} (pc : RdPc) (hsort : ∀ r ∈ sortedRows s.sorted, r ∈ sortedRows s'.sorted)
    (hfile : ∀ i, i < s.inodes.length → ∀ r ∈ s.file i, r ∈ s'.file i)
    (happ : r ∈ s.named s.appendix → r ∈ s'.named s'.appendix ∨ r ∈ s'.named s'.housekeep)
    (hhk : r ∈ s.named s.housekeep → r ∈ s'.named s'.housekeep) (hlt : RdLt s pc) (h : RdInv s r pc) : RdInv s' r pc := by
  cases pc with
  | start =>
    rcases h with e | e | e
    · exact .inl (hsort r e)
    · exact .inr (happ e)
    · exact .inr (.inr (hhk e))
  | openApp seen =>
    rcases h with e | e | e
    · exact .inl e
    · exact .inr (happ e)
    · exact .inr (.inr (hhk e))
  | readApp seen ino =>
    rcases h with e | e | e
    · exact .inl e
    · cases ino with
      | none => cases e
      | some i => exact .inr (.inl (hfile i hlt r e))
    · exact .inr (.inr (hhk e))
  | openHk seen =>
    rcases h with e | e
    · exact .inl e
    · exact .inr (hhk e)
  | readHk seen ino =>
    rcases h with e | e
    · exact .inl e
    · cases ino with
      | none => cases e
      | some i => exact .inr (hfile i hlt r e)
  | done seen => exact h

/-- What every action other than removing the snapshot leaves in place. -/
theorem step_mono {m : Nat} {s s' : St} (h : Inv m s) {a : Act} (hs : step m s a = some s')
    (hu : ∀ p ret, a = .hk p → s.hks[p]? ≠ some (.unlinkHk ret)) :
    s.inodes.length ≤ s'.inodes.length ∧
    (∀ r ∈ sortedRows s.sorted, r ∈ sortedRows s'.sorted) ∧
    (∀ i, i < s.inodes.length → ∀ r ∈ s.file i, r ∈ s'.file i) ∧
    (∀ r, r ∈ s.named s.appendix → r ∈ s'.named s'.appendix ∨ r ∈ s'.named s'.housekeep) ∧
    (∀ r, r ∈ s.named s.housekeep → r ∈ s'.named s'.housekeep) := by
  have hrefl : ∀ s' : St, s'.inodes = s.inodes → s'.sorted = s.sorted → s'.appendix = s.appendix → s'.housekeep = s.housekeep →
      s.inodes.length ≤ s'.inodes.length ∧
      (∀ r ∈ sortedRows s.sorted, r ∈ sortedRows s'.sorted) ∧
      (∀ i, i < s.inodes.length → ∀ r ∈ s.file i, r ∈ s'.file i) ∧
      (∀ r, r ∈ s.named s.appendix → r ∈ s'.named s'.appendix ∨ r ∈ s'.named s'.housekeep) ∧
      (∀ r, r ∈ s.named s.housekeep → r ∈ s'.named s'.housekeep) := by
    intro s' h1 h2 h3 h4
    have hf : s'.file = s.file := by funext i; simp [St.file, h1]
    have hn : s'.named = s.named := by funext o; simp [St.named, hf]
    rw [h1, h2, h3, h4, hf, hn]
    exact ⟨Nat.le_refl _, fun _ e => e, fun _ _ _ e => e, fun _ e => .inl e, fun _ e => e⟩
  cases a with
  | hk p =>
    simp only [step, Option.bind_eq_some_iff] at hs
    obtain ⟨pc, hp, hs⟩ := hs
    have hpc := h.pcs p pc hp
    cases pc with
    | start =>
      simp only [stepHk, Option.some.injEq] at hs
      subst hs
      split <;> exact hrefl _ rfl rfl rfl rfl
    | link =>
      simp only [stepHk, stepLink, Option.some.injEq] at hs
      subst hs
      split
      · exact hrefl _ rfl rfl rfl rfl
      · split
        · rename_i hk
          refine ⟨Nat.le_refl _, fun _ e => e, fun _ _ _ e => e, fun r e => .inl e, ?_⟩
          intro r e
          rw [hk] at e
          cases e
        · exact hrefl _ rfl rfl rfl rfl
    | unlinkApp =>
      simp only [stepHk, Option.some.injEq] at hs
      subst hs
      refine ⟨Nat.le_refl _, fun _ e => e, fun _ _ _ e => e, ?_, fun _ e => e⟩
      intro r e
      rw [hpc.2] at e
      exact .inr e
    | opening ret =>
      simp only [stepHk, stepOpen, Option.some.injEq] at hs
      subst hs
      split <;> exact hrefl _ rfl rfl rfl rfl
    | read ino pos ret =>
      simp only [stepHk, stepRead, Option.some.injEq] at hs
      subst hs
      split <;> exact hrefl _ rfl rfl rfl rfl
    | merge ino pos c ret =>
      simp only [stepHk, stepMerge, Option.some.injEq] at hs
      subst hs
      split <;> exact hrefl _ rfl rfl rfl rfl
    | rename ino pos c new ret =>
      simp only [stepHk, stepRename, Option.some.injEq] at hs
      subst hs
      refine ⟨Nat.le_refl _, ?_, fun _ _ _ e => e, fun _ e => .inl e, fun _ e => e⟩
      intro r e
      exact (hpc.2.2.2.2.2.2.2 r).2 (.inl e)
    | unlinkHk ret => exact absurd hp (hu p ret rfl)
    | release =>
      simp only [stepHk, Option.some.injEq] at hs
      subst hs
      exact hrefl _ rfl rfl rfl rfl
    | done => cases hs
    | dead => cases hs
  | crash p =>
    simp only [step] at hs
    split at hs
    · cases hs; exact hrefl _ rfl rfl rfl rfl
    · cases hs
  | rmHold =>
    simp only [step, stepRmHold] at hs
    split at hs
    · cases hs
    · cases hs; exact hrefl _ rfl rfl rfl rfl
  | ins p =>
    simp only [step, Option.bind_eq_some_iff] at hs
    obtain ⟨pc, hp, hs⟩ := hs
    have hmem := List.mem_of_getElem? hp
    cases pc with
    | start r' =>
      simp only [stepIns] at hs
      split at hs
      · cases hs; exact hrefl _ rfl rfl rfl rfl
      · rename_i ha
        cases hs
        have hfile : ∀ i, i < s.inodes.length → ∀ r ∈ s.file i, r ∈ (s.inodes ++ [[]]).getD i [] := by
          intro i hi r hr
          simpa [St.file, List.getD_eq_getElem?_getD, List.getElem?_append_left hi] using hr
        refine ⟨by simp [setIns], fun _ e => e, hfile, ?_, ?_⟩
        · rw [ha]; intro r e; cases e
        · intro r e
          cases hk : s.housekeep with
          | none => rw [hk] at e; cases e
          | some i =>
            rw [hk] at e
            simp only [setIns]
            exact hfile i (h.hkLt i hk) r e
    | opened r' i =>
      simp only [stepIns, Option.some.injEq] at hs
      have hi := h.insLt r' i hmem
      have hfile : ∀ j, ∀ r ∈ s.file j, r ∈ s'.file j := by
        intro j r hr
        have : s'.file j = if j = i then s.file i ++ [r'] else s.file j := by
          rw [← hs]; exact file_set hi
        rw [this]
        split
        · rename_i e; subst e; exact List.mem_append.2 (.inl hr)
        · exact hr
      have hnamed : ∀ o r, r ∈ s.named o → r ∈ s'.named o := by
        intro o r hr
        cases o with
        | none => cases hr
        | some j => exact hfile j r hr
      have happ : s'.appendix = s.appendix := by rw [← hs]; rfl
      have hhk : s'.housekeep = s.housekeep := by rw [← hs]; rfl
      have hsrt : s'.sorted = s.sorted := by rw [← hs]; rfl
      have hlen : s'.inodes.length = s.inodes.length := by rw [← hs]; simp [setIns]
      rw [happ, hhk, hsrt, hlen]
      exact ⟨Nat.le_refl _, fun _ e => e, fun j _ => hfile j, fun r e => .inl (hnamed _ r e), fun r e => hnamed _ r e⟩
    | done r' => cases hs
  | rd p =>
    simp only [step, Option.bind_eq_some_iff] at hs
    obtain ⟨pc, hp, hs⟩ := hs
    cases pc <;> simp only [stepRd, Option.some.injEq, reduceCtorEq] at hs <;> subst hs <;> exact hrefl _ rfl rfl rfl rfl

/-- The readers in the state after an action. -/
theorem step_rds {m : Nat} {s s' : St} {a : Act} (hs : step m s a = some s') (p : Nat) (hne : a ≠ .rd p) : s'.rds[p]? = s.rds[p]? := by
  cases a with
  | hk q =>
    simp only [step, Option.bind_eq_some_iff] at hs
    obtain ⟨pc, hp, hs⟩ := hs
    cases pc <;> simp only [stepHk, stepLink, stepOpen, stepRead, stepMerge, stepRename, Option.some.injEq, reduceCtorEq] at hs
    all_goals subst hs
    all_goals try rfl
    all_goals (split <;> try rfl)
    all_goals (split <;> rfl)
  | crash q =>
    simp only [step] at hs
    split at hs
    · cases hs; rfl
    · cases hs
  | rmHold =>
    simp only [step, stepRmHold] at hs
    split at hs
    · cases hs
    · cases hs; rfl
  | ins q =>
    simp only [step, Option.bind_eq_some_iff] at hs
    obtain ⟨pc, hp, hs⟩ := hs
    cases pc with
    | start r' =>
      simp only [stepIns] at hs
      split at hs <;> cases hs <;> rfl
    | opened r' i =>
      simp only [stepIns, Option.some.injEq] at hs
      subst hs
      rfl
    | done r' => cases hs
  | rd q =>
    have hq : q ≠ p := fun e => hne (by rw [e])
    simp only [step, Option.bind_eq_some_iff] at hs
    obtain ⟨pc, hp, hs⟩ := hs
    cases pc <;> simp only [stepRd, Option.some.injEq, reduceCtorEq] at hs <;> subst hs <;>
      exact List.getElem?_set_ne hq

theorem rd_run {m : Nat} (hm : 0 < m) (p : Nat) (r : Bytes) (as : List Act) : ∀ {s s' : St} {pc : RdPc} {seen : List Bytes},
    Inv m s → s.rds[p]? = some pc → RdLt s pc → RdInv s r pc → NoUnlink m s as → run m s as = some s' →
    s'.rds[p]? = some (.done seen) → r ∈ seen := by
  induction as with
  | nil =>
    intro s s' pc seen _ hp _ hr _ hs hd
    cases hs
    rw [hp] at hd
    cases hd
    exact hr
  | cons a as ih =>
    intro s s' pc seen hinv hp hlt hr hnu hs hd
    simp only [run, Option.bind_eq_some_iff] at hs
    obtain ⟨s1, h1, h2⟩ := hs
    have hinv1 := inv_step hm hinv h1
    have hplen : p < s.rds.length := (List.getElem?_eq_some_iff.1 hp).1
    by_cases ha : a = .rd p
    · subst ha
      simp only [step, hp, Option.bind_some] at h1
      have hnu' := hnu.2 s1 (by simp only [step, hp, Option.bind_some]; exact h1)
      cases pc with
      | start =>
        simp only [stepRd, Option.some.injEq] at h1
        subst h1
        exact ih hinv1 (pc := .openApp (sortedRows s.sorted)) (by simp [setRd, hplen]) trivial hr hnu' h2 hd
      | openApp l =>
        simp only [stepRd, Option.some.injEq] at h1
        subst h1
        refine ih hinv1 (pc := .readApp l s.appendix) (by simp [setRd, hplen]) ?_ hr hnu' h2 hd
        cases e : s.appendix with
        | none => trivial
        | some i => exact hinv.appLt i e
      | readApp l ino =>
        simp only [stepRd, Option.some.injEq] at h1
        subst h1
        refine ih hinv1 (pc := .openHk (l ++ (ino.map s.file).getD [])) (by simp [setRd, hplen]) trivial ?_ hnu' h2 hd
        rcases hr with e | e | e
        · exact .inl (List.mem_append.2 (.inl e))
        · exact .inl (List.mem_append.2 (.inr e))
        · exact .inr e
      | openHk l =>
        simp only [stepRd, Option.some.injEq] at h1
        subst h1
        refine ih hinv1 (pc := .readHk l s.housekeep) (by simp [setRd, hplen]) ?_ hr hnu' h2 hd
        cases e : s.housekeep with
        | none => trivial
        | some i => exact hinv.hkLt i e
      | readHk l ino =>
        simp only [stepRd, Option.some.injEq] at h1
        subst h1
        refine ih hinv1 (pc := .done (l ++ (ino.map s.file).getD [])) (by simp [setRd, hplen]) trivial ?_ hnu' h2 hd
        rcases hr with e | e
        · exact List.mem_append.2 (.inl e)
        · exact List.mem_append.2 (.inr e)
      | done l => cases h1
    · obtain ⟨m0, m1, m2, m3, m4⟩ := step_mono hinv h1 hnu.1
      refine ih hinv1 (by rw [step_rds h1 p ha]; exact hp) ?_ (RdInv_mono pc m1 m2 (m3 r) (m4 r) hlt hr) (hnu.2 s1 h1) h2 hd
      cases pc with
      | readApp l ino => cases ino with
        | none => trivial
        | some i => exact Nat.lt_of_lt_of_le hlt m0
      | readHk l ino => cases ino with
        | none => trivial
        | some i => exact Nat.lt_of_lt_of_le hlt m0
      | _ => trivial

/-- A lookup during which no housekeeper removes the snapshot sees every record that was in the index
files when it began, whatever else happens at the same time. -/
theorem C10_concurrent_lookup_partial {m : Nat} (hm : 0 < m) {s s' : St} (h : HkReachable m s) {p : Nat} {seen : List Bytes}
    (hp : s.rds[p]? = some .start) (as : List Act) (hs : run m s as = some s') (hnu : NoUnlink m s as)
    (hd : s'.rds[p]? = some (.done seen)) : ∀ r ∈ onDisk s, r ∈ seen := by
  intro r hr
  refine rd_run hm p r as (h.inv hm) hp trivial ?_ hnu hs hd
  simp only [onDisk, List.mem_append, or_assoc] at hr
  exact hr

/-- It can miss records otherwise: the lookup reads the old sorted file, then the housekeeper merges the
appendix and removes the snapshot, and neither file is there when the lookup gets to them. -/
theorem C10_counterexample_missed :
    (run 1 (init 1 [witnessRec 1] 1)
      [.ins 0, .ins 0, .rd 0, .hk 0, .hk 0, .hk 0, .hk 0, .hk 0, .hk 0, .hk 0, .hk 0, .hk 0, .hk 0, .rd 0, .rd 0, .rd 0, .rd 0]).any (fun s =>
        s.rds[0]? = some (.done []) ∧ onDisk s = [witnessRec 1] ∧ s.safe = [witnessRec 1]) = true := by
  decide +kernel

/-- The records of the witnesses are records of inserts. -/
example : idxRecord b!"000000000000000000000001" 0 0 0 none = .ok (witnessRec 1) := by decide +kernel

/-- A crash after each number of steps of the housekeeper, then removal of the hold file, and another
housekeeper: nothing is lost. -/
example : ∀ k < 11, (run 1 (init 2 [witnessRec 1, witnessRec 2] 0)
    ([.ins 0, .ins 0, .ins 1, .ins 1] ++ List.replicate k (.hk 0) ++ [.crash 0, .rmHold] ++ List.replicate 3 (.hk 1))).any (fun s =>
      witnessRec 1 ∈ onDisk s ∧ witnessRec 2 ∈ onDisk s) = true := by
  decide +kernel

/-- The second of two housekeepers leaves at once. -/
example : (run 1 (init 2 [witnessRec 1] 0) [.ins 0, .ins 0, .hk 0, .hk 0, .hk 1]).any (fun s =>
    s.hks = [.unlinkApp, .done] ∧ onDisk s = [witnessRec 1, witnessRec 1]) = true := by
  decide +kernel

/-- An insert into the snapshot that is read afterwards. -/
example : (run 1 (init 1 [witnessRec 1, witnessRec 2] 0)
    ([.ins 0, .ins 0, .ins 1, .hk 0, .hk 0, .hk 0, .hk 0, .ins 1] ++ List.replicate 8 (.hk 0))).any (fun s =>
      s.hks[0]? = some .release ∧ onDisk s = [witnessRec 1, witnessRec 2]) = true := by
  decide +kernel

end Verif.Props
