import Verif.Model.Hk
import Verif.Proofs.IndexState

namespace Verif.Hk
open Verif Index Spec

/-- The records of a named file. -/
def St.named (s : St) (o : Option Nat) : List Bytes := (o.map s.file).getD []

theorem sortedRows_index {F : Bytes} {bp0 : Bucket} {rs : List Bytes} (h : IsIndex F bp0 rs) : sortedRows (some F) = rs := by
  have hb := h.tbl.1
  obtain ⟨h2, -, -, -, -, hF⟩ := h.facts
  have hpow : 2 ^ (bp0.bb + 3) = 32 * 2 ^ (bp0.bb - 2) := by
    rw [show bp0.bb + 3 = 5 + (bp0.bb - 2) by omega, Nat.pow_add]
  have hn : numRecs F = rs.length := by
    unfold numRecs
    rw [hb, hF, hpow]
    omega
  apply List.ext_getElem
  · simp [sortedRows, hn]
  · intro i h1 h3
    simp only [sortedRows, List.getElem_map, List.getElem_range]
    rw [hb, row_index h h3]

/-- What is known about a housekeeping process at each of its steps. -/
def PcInv (m : Nat) (s : St) : HkPc → Prop
  | .unlinkApp => s.appendix.isSome ∧ s.appendix = s.housekeep
  | .read ino pos _ => s.housekeep = some ino ∧ pos ≤ (s.file ino).length ∧
      ∀ r ∈ (s.file ino).take pos, r ∈ sortedRows s.sorted
  | .merge ino pos c _ => s.housekeep = some ino ∧ pos ≤ (s.file ino).length ∧
      (∀ r ∈ (s.file ino).take pos, r ∈ sortedRows s.sorted) ∧ c ≠ [] ∧ c <+: (s.file ino).drop pos ∧
      (c.length ≠ m → ∀ r ∈ s.safe, r ∈ sortedRows s.sorted ∨ r ∈ s.named s.appendix ∨ r ∈ c)
  | .rename ino pos c new _ => s.housekeep = some ino ∧ pos ≤ (s.file ino).length ∧
      (∀ r ∈ (s.file ino).take pos, r ∈ sortedRows s.sorted) ∧ c ≠ [] ∧ c <+: (s.file ino).drop pos ∧
      (c.length ≠ m → ∀ r ∈ s.safe, r ∈ sortedRows s.sorted ∨ r ∈ s.named s.appendix ∨ r ∈ c) ∧
      IsSorted (2 ^ 40 - 1) (some new) (sortedRows (some new)) ∧
      (∀ r, r ∈ sortedRows (some new) ↔ r ∈ sortedRows s.sorted ∨ r ∈ c)
  | .unlinkHk _ => ∀ r ∈ s.safe, r ∈ sortedRows s.sorted ∨ r ∈ s.named s.appendix
  | _ => True

def InsPc.record : InsPc → Bytes
  | .start r | .opened r _ | .done r => r

/-- The invariant of all executions. -/
structure Inv (m : Nat) (s : St) : Prop where
  appLt : ∀ a, s.appendix = some a → a < s.inodes.length
  hkLt : ∀ a, s.housekeep = some a → a < s.inodes.length
  insLt : ∀ r i, InsPc.opened r i ∈ s.inss → i < s.inodes.length
  recs : ∀ f ∈ s.inodes, ∀ r ∈ f, GoodRec r
  insRec : ∀ pc ∈ s.inss, GoodRec pc.record
  sorted : IsSorted (2 ^ 40 - 1) s.sorted (sortedRows s.sorted)
  sortedGood : ∀ r ∈ sortedRows s.sorted, GoodRec r
  safe : ∀ r ∈ s.safe, r ∈ sortedRows s.sorted ∨ r ∈ s.named s.appendix ∨ r ∈ s.named s.housekeep
  holds : ∀ (p : Nat) (pc : HkPc), s.hks[p]? = some pc → pc.inside = true → s.hold = true
  uniq : ∀ (p q : Nat) (pc pc' : HkPc), s.hks[p]? = some pc → s.hks[q]? = some pc' → pc.inside = true → pc'.inside = true → p = q
  pcs : ∀ (p : Nat) (pc : HkPc), s.hks[p]? = some pc → PcInv m s pc

theorem PcInv_outside {m : Nat} {s : St} {pc : HkPc} (h : pc.inside = false) : PcInv m s pc := by
  cases pc <;> simp_all [HkPc.inside, PcInv]

theorem file_good {m : Nat} {s : St} (h : Inv m s) (i : Nat) : ∀ r ∈ s.file i, GoodRec r := by
  intro r hr
  unfold St.file at hr
  rw [List.getD_eq_getElem?_getD] at hr
  cases hi : s.inodes[i]? with
  | none => rw [hi] at hr; simp at hr
  | some f =>
    rw [hi] at hr
    exact h.recs f (List.mem_of_getElem? hi) r hr

theorem named_some (s : St) (i : Nat) : s.named (some i) = s.file i := rfl

/-- A step of process `p` that is inside and stays inside (or leaves with the hold file removed) keeps the
control part of the invariant. -/
theorem others_outside {m : Nat} {s : St} (h : Inv m s) {p : Nat} {pc : HkPc} (hp : s.hks[p]? = some pc)
    (hin : pc.inside = true) {q : Nat} {pc' : HkPc} (hq : s.hks[q]? = some pc') (hne : q ≠ p) : pc'.inside = false := by
  cases h' : pc'.inside with
  | false => rfl
  | true => exact absurd (h.uniq q p pc' pc hq hp h' hin) hne

theorem set_get {l : List HkPc} {p q : Nat} {new pc' : HkPc} (h : (l.set p new)[q]? = some pc') :
    (q = p ∧ pc' = new) ∨ (q ≠ p ∧ l[q]? = some pc') := by
  rw [List.getElem?_set] at h
  split at h
  · rename_i e
    split at h
    · simp only [Option.some.injEq] at h
      exact .inl ⟨e.symm, h.symm⟩
    · cases h
  · rename_i e
    exact .inr ⟨fun e' => e e'.symm, h⟩

/-- A step of a process inside the critical section: the control part of the invariant is kept, and only
the acting process needs looking at. -/
theorem inv_inside {m : Nat} {s s' : St} (h : Inv m s) {p : Nat} {pc new : HkPc} (hp : s.hks[p]? = some pc)
    (hin : pc.inside = true) (hks : s'.hks = s.hks.set p new)
    (hold : s'.hold = true ∨ new.inside = false)
    (inodes : s'.inodes = s.inodes) (inss : s'.inss = s.inss) (ssafe : s'.safe = s.safe)
    (happ : s'.appendix = s.appendix ∨ s'.appendix = none)
    (hhk : s'.housekeep = s.housekeep ∨ s'.housekeep = none ∨ s'.housekeep = s.appendix)
    (sorted : IsSorted (2 ^ 40 - 1) s'.sorted (sortedRows s'.sorted))
    (sortedGood : ∀ r ∈ sortedRows s'.sorted, GoodRec r)
    (safe : ∀ r ∈ s'.safe, r ∈ sortedRows s'.sorted ∨ r ∈ s'.named s'.appendix ∨ r ∈ s'.named s'.housekeep)
    (hpc : PcInv m s' new) : Inv m s' := by
  refine ⟨?_, ?_, ?_, ?_, ?_, sorted, sortedGood, safe, ?_, ?_, ?_⟩
  · intro a ha
    rw [inodes]
    rcases happ with e | e
    · exact h.appLt a (e ▸ ha)
    · rw [e] at ha; cases ha
  · intro a ha
    rw [inodes]
    rcases hhk with e | e | e
    · exact h.hkLt a (e ▸ ha)
    · rw [e] at ha; cases ha
    · exact h.appLt a (e ▸ ha)
  · rw [inss, inodes]; exact h.insLt
  · rw [inodes]; exact h.recs
  · rw [inss]; exact h.insRec
  · intro q pc' hq hi
    rw [hks] at hq
    rcases set_get hq with ⟨_, rfl⟩ | ⟨hne, hq⟩
    · rcases hold with e | e
      · exact e
      · rw [e] at hi; cases hi
    · rw [others_outside h hp hin hq hne] at hi
      cases hi
  · intro q q' pc1 pc2 h1 h2 i1 i2
    rw [hks] at h1 h2
    rcases set_get h1 with ⟨e1, _⟩ | ⟨hne, hq⟩
    · rcases set_get h2 with ⟨e2, _⟩ | ⟨hne, hq⟩
      · rw [e1, e2]
      · rw [others_outside h hp hin hq hne] at i2
        cases i2
    · rw [others_outside h hp hin hq hne] at i1
      cases i1
  · intro q pc' hq
    rw [hks] at hq
    rcases set_get hq with ⟨_, rfl⟩ | ⟨hne, hq⟩
    · exact hpc
    · exact PcInv_outside (others_outside h hp hin hq hne)

/-- A process outside becomes another process outside; or it gets the hold file nobody has. -/
theorem inv_enter {m : Nat} {s : St} (h : Inv m s) {p : Nat} {pc : HkPc} (hp : s.hks[p]? = some pc) (hh : s.hold = false) :
    Inv m (setHk { s with hold := true } p .link) := by
  have hout : ∀ (q : Nat) (pc' : HkPc), s.hks[q]? = some pc' → pc'.inside = false := by
    intro q pc' hq
    cases h' : pc'.inside with
    | false => rfl
    | true => have := h.holds q pc' hq h'; rw [hh] at this; cases this
  refine ⟨h.appLt, h.hkLt, h.insLt, h.recs, h.insRec, h.sorted, h.sortedGood, h.safe, ?_, ?_, ?_⟩
  · intro _ _ _ _; rfl
  · intro q q' pc1 pc2 h1 h2 i1 i2
    rcases set_get h1 with ⟨e1, _⟩ | ⟨hne, hq⟩
    · rcases set_get h2 with ⟨e2, _⟩ | ⟨hne, hq⟩
      · rw [e1, e2]
      · rw [hout _ _ hq] at i2; cases i2
    · rw [hout _ _ hq] at i1; cases i1
  · intro q pc' hq
    rcases set_get hq with ⟨_, rfl⟩ | ⟨hne, hq⟩
    · trivial
    · exact PcInv_outside (hout _ _ hq)

theorem PcInv_congr {m : Nat} {s s' : St} (pc : HkPc) (h1 : s'.inodes = s.inodes) (h2 : s'.sorted = s.sorted)
    (h3 : s'.appendix = s.appendix) (h4 : s'.housekeep = s.housekeep) (h5 : s'.safe = s.safe) (h : PcInv m s pc) :
    PcInv m s' pc := by
  have hf : s'.file = s.file := by funext i; simp [St.file, h1]
  have hn : s'.named = s.named := by funext o; simp [St.named, hf]
  cases pc <;> simpa [PcInv, hf, hn, h2, h3, h4, h5] using h

/-- A process leaves (or is killed): it becomes a process outside. -/
theorem inv_leave {m : Nat} {s : St} (h : Inv m s) {p : Nat} {pc new : HkPc} (hp : s.hks[p]? = some pc)
    (hnew : new.inside = false) : Inv m (setHk s p new) := by
  refine ⟨h.appLt, h.hkLt, h.insLt, h.recs, h.insRec, h.sorted, h.sortedGood, h.safe, ?_, ?_, ?_⟩
  · intro q pc' hq hi
    rcases set_get hq with ⟨_, rfl⟩ | ⟨hne, hq⟩
    · rw [hnew] at hi; cases hi
    · exact h.holds q pc' hq hi
  · intro q q' pc1 pc2 h1 h2 i1 i2
    rcases set_get h1 with ⟨_, rfl⟩ | ⟨_, h1⟩
    · rw [hnew] at i1; cases i1
    · rcases set_get h2 with ⟨_, rfl⟩ | ⟨_, h2⟩
      · rw [hnew] at i2; cases i2
      · exact h.uniq _ _ _ _ h1 h2 i1 i2
  · intro q pc' hq
    rcases set_get hq with ⟨_, rfl⟩ | ⟨hne, hq⟩
    · exact PcInv_outside hnew
    · exact PcInv_congr pc' rfl rfl rfl rfl rfl (h.pcs q pc' hq)

theorem inv_stepHk {m : Nat} (hm : 0 < m) {s s' : St} (h : Inv m s) {p : Nat} {pc : HkPc} (hp : s.hks[p]? = some pc)
    (hs : stepHk m s p pc = some s') : Inv m s' := by
  have hpc := h.pcs p pc hp
  cases pc with
  | start =>
    simp only [stepHk, Option.some.injEq] at hs
    subst hs
    cases hh : s.hold with
    | true => exact inv_leave h hp rfl
    | false => exact inv_enter h hp hh
  | link =>
    simp only [stepHk, Option.some.injEq] at hs
    subst hs
    unfold stepLink
    split
    · rename_i ha
      exact inv_inside h hp rfl rfl (.inl (h.holds p _ hp rfl)) rfl rfl rfl (.inl rfl) (.inl rfl) h.sorted h.sortedGood h.safe trivial
    · rename_i a ha
      split
      · rename_i hk
        refine inv_inside h hp rfl rfl (.inl (h.holds p _ hp rfl)) rfl rfl rfl (.inl rfl) (.inr (.inr ha.symm)) h.sorted h.sortedGood ?_ ?_
        · intro r hr
          rcases h.safe r hr with e | e | e
          · exact .inl e
          · exact .inr (.inl e)
          · rw [hk] at e; cases e
        · exact ⟨by simp [setHk, ha], ha⟩
      · exact inv_inside h hp rfl rfl (.inl (h.holds p _ hp rfl)) rfl rfl rfl (.inl rfl) (.inl rfl) h.sorted h.sortedGood h.safe trivial
  | unlinkApp =>
    simp only [stepHk, Option.some.injEq] at hs
    subst hs
    refine inv_inside h hp rfl rfl (.inl (h.holds p _ hp rfl)) rfl rfl rfl (.inr rfl) (.inl rfl) h.sorted h.sortedGood ?_ trivial
    intro r hr
    rcases h.safe r hr with e | e | e
    · exact .inl e
    · rw [hpc.2] at e
      exact .inr (.inr e)
    · exact .inr (.inr e)
  | opening ret =>
    simp only [stepHk, Option.some.injEq] at hs
    subst hs
    unfold stepOpen
    split
    · exact inv_inside h hp rfl rfl (.inl (h.holds p _ hp rfl)) rfl rfl rfl (.inl rfl) (.inl rfl) h.sorted h.sortedGood h.safe trivial
    · rename_i i hi
      exact inv_inside h hp rfl rfl (.inl (h.holds p _ hp rfl)) rfl rfl rfl (.inl rfl) (.inl rfl) h.sorted h.sortedGood h.safe
        ⟨hi, Nat.zero_le _, by simp⟩
  | read ino pos ret =>
    simp only [stepHk, Option.some.injEq] at hs
    subst hs
    unfold stepRead
    obtain ⟨hk, hle, hpre⟩ := hpc
    simp only
    have hsafe : ∀ r ∈ s.safe, r ∈ sortedRows s.sorted ∨ r ∈ s.named s.appendix ∨ r ∈ (s.file ino).drop pos := by
      intro r hr
      rcases h.safe r hr with e | e | e
      · exact .inl e
      · exact .inr (.inl e)
      · rw [hk, named_some, ← List.take_append_drop pos (s.file ino), List.mem_append] at e
        rcases e with e | e
        · exact .inl (hpre r e)
        · exact .inr (.inr e)
    split
    · rename_i hc
      have hd : (s.file ino).drop pos = [] := by
        rcases List.take_eq_nil_iff.1 hc with e | e
        · omega
        · exact e
      refine inv_inside h hp rfl rfl (.inl (h.holds p _ hp rfl)) rfl rfl rfl (.inl rfl) (.inl rfl) h.sorted h.sortedGood h.safe ?_
      intro r hr
      rcases hsafe r hr with e | e | e
      · exact .inl e
      · exact .inr e
      · rw [hd] at e; cases e
    · rename_i hc
      refine inv_inside h hp rfl rfl (.inl (h.holds p _ hp rfl)) rfl rfl rfl (.inl rfl) (.inl rfl) h.sorted h.sortedGood h.safe
        ⟨hk, hle, hpre, hc, List.take_prefix _ _, ?_⟩
      intro hlen r hr
      rcases hsafe r hr with e | e | e
      · exact .inl e
      · exact .inr (.inl e)
      · refine .inr (.inr ?_)
        rw [List.take_of_length_le]
        · exact e
        · rw [List.length_take] at hlen
          omega
  | merge ino pos c ret =>
    simp only [stepHk, Option.some.injEq] at hs
    subst hs
    obtain ⟨hk, hle, hpre, hne, hcp, hshort⟩ := hpc
    have hcg : ∀ r ∈ c, GoodRec r := fun r hr => file_good h ino r (List.mem_of_mem_drop (hcp.subset hr))
    unfold stepMerge
    split
    · rename_i new hnew
      have hl : Len32 c := fun r hr => (hcg r hr).1
      obtain ⟨q1, q2, q3, q4⟩ := qsortRecs_spec c hl
      have hqne : qsortRecs c ≠ [] := by
        intro e
        rw [e] at q4
        exact hne (List.length_eq_zero_iff.1 q4.symm)
      have hest : mergeEstimate s.sorted (qsortRecs c) < 2 ^ 40 := by
        apply Decidable.byContradiction
        intro hc
        have := bucketNew_fail hc
        unfold idxMerge at hnew
        rw [this] at hnew
        revert hnew
        cases decide (0 < (qsortRecs c).length) <;> simp
      have hbefore : (match s.sorted with | none => sortedRows s.sorted = [] | some F => ∃ bp0, IsIndex F bp0 (sortedRows s.sorted)) := by
        have := h.sorted
        revert this
        cases s.sorted with
        | none => intro _; rfl
        | some F => intro ⟨bp0, e, _⟩; exact ⟨bp0, e⟩
      obtain ⟨F, bp0, rs, m1, m2, m3, m4, m5⟩ := idxMerge_spec s.sorted (sortedRows s.sorted) hbefore (qsortRecs c) hqne q3 q1 hest
      rw [m1] at hnew
      cases hnew
      have hrs := sortedRows_index m2
      refine inv_inside h hp rfl rfl (.inl (h.holds p _ hp rfl)) rfl rfl rfl (.inl rfl) (.inl rfl) h.sorted h.sortedGood h.safe
        ⟨hk, hle, hpre, hne, hcp, hshort, ?_, ?_⟩
      · exact ⟨bp0, by rw [hrs]; exact m2, by rw [m3]; omega⟩
      · intro r
        rw [hrs, m4, q2]
        rfl
    · exact inv_leave h hp rfl
  | rename ino pos c new ret =>
    simp only [stepHk, Option.some.injEq] at hs
    subst hs
    obtain ⟨hk, hle, hpre, hne, hcp, hshort, hsort, hmem⟩ := hpc
    have hcg : ∀ r ∈ c, GoodRec r := fun r hr => file_good h ino r (List.mem_of_mem_drop (hcp.subset hr))
    unfold stepRename
    refine inv_inside (new := if c.length = m then .read ino (pos + c.length) ret else .unlinkHk ret) h hp rfl rfl ?_ rfl rfl rfl (.inl rfl) (.inl rfl) hsort ?_ ?_ ?_
    · exact .inl (h.holds p _ hp rfl)
    · intro r hr
      rcases (hmem r).1 hr with e | e
      · exact h.sortedGood r e
      · exact hcg r e
    · intro r hr
      rcases h.safe r hr with e | e
      · exact .inl ((hmem r).2 (.inl e))
      · exact .inr e
    · split
      · obtain ⟨t, ht⟩ := hcp
        have hlen := congrArg List.length ht
        rw [List.length_append, List.length_drop] at hlen
        refine ⟨hk, by show pos + c.length ≤ (s.file ino).length; omega, ?_⟩
        intro r hr
        change r ∈ (s.file ino).take (pos + c.length) at hr
        rw [List.take_add, ← ht, List.take_left, List.mem_append] at hr
        rcases hr with e | e
        · exact (hmem r).2 (.inl (hpre r e))
        · exact (hmem r).2 (.inr e)
      · rename_i hlen
        intro r hr
        rcases hshort hlen r hr with e | e | e
        · exact .inl ((hmem r).2 (.inl e))
        · exact .inr e
        · exact .inl ((hmem r).2 (.inr e))
  | unlinkHk ret =>
    simp only [stepHk, Option.some.injEq] at hs
    subst hs
    refine inv_inside (new := if ret then .link else .release) h hp rfl rfl ?_ rfl rfl rfl (.inl rfl) (.inr (.inl rfl)) h.sorted h.sortedGood ?_ ?_
    · exact .inl (h.holds p _ hp rfl)
    · intro r hr
      rcases hpc r hr with e | e
      · exact .inl e
      · exact .inr (.inl e)
    · split <;> trivial
  | release =>
    simp only [stepHk, Option.some.injEq] at hs
    subst hs
    exact inv_inside h hp rfl rfl (.inr rfl) rfl rfl rfl (.inl rfl) (.inl rfl) h.sorted h.sortedGood h.safe trivial
  | done => cases hs
  | dead => cases hs

theorem file_set {s : St} {i j : Nat} {r : Bytes} (hi : i < s.inodes.length) :
    (s.inodes.set i (s.file i ++ [r])).getD j [] = if j = i then s.file i ++ [r] else s.file j := by
  simp only [List.getD_eq_getElem?_getD, List.getElem?_set, St.file]
  by_cases h : i = j
  · subst h
    simp [hi]
  · simp [h, Ne.symm h]

/-- Files only grow: what is known about a housekeeper survives an insert. -/
theorem PcInv_grow {m : Nat} {s s' : St} (pc : HkPc)
    (hf : ∀ i, s.housekeep = some i → ∃ t, s'.file i = s.file i ++ t) (h2 : s'.sorted = s.sorted)
    (h3 : s.appendix.isSome → s'.appendix = s.appendix) (h4 : s'.housekeep = s.housekeep)
    (h5 : ∀ r ∈ s'.safe, r ∈ s.safe ∨ r ∈ s'.named s'.appendix ∨ pc.pastLastRead m = false)
    (h6 : ∀ r ∈ s.named s.appendix, r ∈ s'.named s'.appendix) (h : PcInv m s pc) :
    PcInv m s' pc := by
  have hpre : ∀ ino pos, s.housekeep = some ino → pos ≤ (s.file ino).length →
      (∀ r ∈ (s.file ino).take pos, r ∈ sortedRows s.sorted) →
      pos ≤ (s'.file ino).length ∧ ∀ r ∈ (s'.file ino).take pos, r ∈ sortedRows s'.sorted := by
    intro ino pos hk hle hp
    obtain ⟨t, ht⟩ := hf ino hk
    rw [ht, h2, List.take_append_of_le_length hle]
    exact ⟨by simp; omega, hp⟩
  have hc : ∀ ino pos (c : List Bytes), s.housekeep = some ino → c <+: (s.file ino).drop pos → c <+: (s'.file ino).drop pos := by
    intro ino pos c hk hp
    obtain ⟨t, ht⟩ := hf ino hk
    rw [ht, List.drop_append]
    exact hp.trans (List.prefix_append _ _)
  have hsh : pc.pastLastRead m = true → ∀ c : List Bytes, (∀ r ∈ s.safe, r ∈ sortedRows s.sorted ∨ r ∈ s.named s.appendix ∨ r ∈ c) →
      ∀ r ∈ s'.safe, r ∈ sortedRows s'.sorted ∨ r ∈ s'.named s'.appendix ∨ r ∈ c := by
    intro hpl c hc r hr
    rw [h2]
    rcases h5 r hr with e | e | e
    · rcases hc r e with e | e | e
      · exact .inl e
      · exact .inr (.inl (h6 r e))
      · exact .inr (.inr e)
    · exact .inr (.inl e)
    · rw [e] at hpl; cases hpl
  cases pc with
  | unlinkApp =>
    obtain ⟨a1, a2⟩ := h
    exact ⟨by rw [h3 a1]; exact a1, by rw [h3 a1, h4]; exact a2⟩
  | read ino pos ret =>
    obtain ⟨a1, a2, a3⟩ := h
    exact ⟨h4 ▸ a1, hpre ino pos a1 a2 a3⟩
  | merge ino pos c ret =>
    obtain ⟨a1, a2, a3, a4, a5, a6⟩ := h
    obtain ⟨b1, b2⟩ := hpre ino pos a1 a2 a3
    exact ⟨h4 ▸ a1, b1, b2, a4, hc ino pos c a1 a5, fun hl => hsh (by simpa [HkPc.pastLastRead] using hl) c (a6 hl)⟩
  | rename ino pos c new ret =>
    obtain ⟨a1, a2, a3, a4, a5, a6, a7, a8⟩ := h
    obtain ⟨b1, b2⟩ := hpre ino pos a1 a2 a3
    exact ⟨h4 ▸ a1, b1, b2, a4, hc ino pos c a1 a5, fun hl => hsh (by simpa [HkPc.pastLastRead] using hl) c (a6 hl), a7, by rw [h2]; exact a8⟩
  | unlinkHk ret =>
    intro r hr
    have := hsh rfl [] (fun r hr => (h r hr).imp id .inl) r hr
    simpa using this
  | _ => trivial

theorem mem_set_ins {l : List InsPc} {p : Nat} {new pc : InsPc} (h : pc ∈ l.set p new) : pc = new ∨ pc ∈ l := by
  rcases List.mem_or_eq_of_mem_set h with e | e
  · exact .inr e
  · exact .inl e

theorem inv_stepIns {m : Nat} {s s' : St} (h : Inv m s) {p : Nat} {pc : InsPc} (hp : s.inss[p]? = some pc)
    (hs : stepIns m s p pc = some s') : Inv m s' := by
  have hmem := List.mem_of_getElem? hp
  have hrec := h.insRec pc hmem
  cases pc with
  | start r =>
    simp only [stepIns] at hs
    split at hs
    · rename_i a ha
      cases hs
      refine ⟨h.appLt, h.hkLt, ?_, h.recs, ?_, h.sorted, h.sortedGood, h.safe, h.holds, h.uniq, ?_⟩
      · intro r' i' hi'
        rcases mem_set_ins hi' with e | e
        · cases e; exact h.appLt a ha
        · exact h.insLt r' i' e
      · intro pc hpc
        rcases mem_set_ins hpc with e | e
        · subst e; exact hrec
        · exact h.insRec pc e
      · intro q pc hq
        exact PcInv_congr pc rfl rfl rfl rfl rfl (h.pcs q pc hq)
    · rename_i ha
      cases hs
      have hfile : ∀ i, i < s.inodes.length → (s.inodes ++ [[]]).getD i [] = s.file i := by
        intro i hi
        simp [St.file, List.getD_eq_getElem?_getD, List.getElem?_append_left hi]
      refine ⟨?_, ?_, ?_, ?_, ?_, h.sorted, h.sortedGood, ?_, h.holds, h.uniq, ?_⟩
      · intro a e
        simp only [setIns, Option.some.injEq] at e
        simp [setIns, ← e]
      · intro a e
        have := h.hkLt a e
        simp only [setIns, List.length_append, List.length_singleton]
        omega
      · intro r' i' hi'
        simp only [setIns, List.length_append, List.length_singleton]
        rcases mem_set_ins hi' with e | e
        · cases e; omega
        · have := h.insLt r' i' e; omega
      · intro f hf
        simp only [setIns, List.mem_append, List.mem_singleton] at hf
        rcases hf with e | e
        · exact h.recs f e
        · subst e; simp
      · intro pc hpc
        rcases mem_set_ins hpc with e | e
        · subst e; exact hrec
        · exact h.insRec pc e
      · intro r hr
        rcases h.safe r hr with e | e | e
        · exact .inl e
        · rw [ha] at e; cases e
        · refine .inr (.inr ?_)
          simp only [St.named, setIns] at e ⊢
          cases hk : s.housekeep with
          | none => rw [hk] at e; cases e
          | some i =>
            rw [hk] at e
            show r ∈ (s.inodes ++ [[]]).getD i []
            rw [hfile i (h.hkLt i hk)]
            exact e
      · intro q pc hq
        refine PcInv_grow (s := s) pc ?_ rfl ?_ rfl ?_ ?_ (h.pcs q pc hq)
        · intro i hi
          exact ⟨[], by rw [List.append_nil]; exact hfile i (h.hkLt i hi)⟩
        · rw [ha]; intro e; cases e
        · intro r hr; exact .inl hr
        · rw [ha]; intro r hr; cases hr
  | opened r i =>
    simp only [stepIns, Option.some.injEq] at hs
    have hi := h.insLt r i hmem
    have hfile : ∀ j, s'.file j = if j = i then s.file i ++ [r] else s.file j := by
      intro j
      rw [← hs]
      exact file_set hi
    have hgrow : ∀ j, ∃ t, s'.file j = s.file j ++ t := by
      intro j
      rw [hfile]
      split
      · rename_i e; subst e; exact ⟨_, rfl⟩
      · exact ⟨[], by simp⟩
    have happ : s'.appendix = s.appendix := by rw [← hs]; rfl
    have hhk : s'.housekeep = s.housekeep := by rw [← hs]; rfl
    have hsrt : s'.sorted = s.sorted := by rw [← hs]; rfl
    have hhks : s'.hks = s.hks := by rw [← hs]; rfl
    have hhold : s'.hold = s.hold := by rw [← hs]; rfl
    have hlen : s'.inodes.length = s.inodes.length := by rw [← hs]; simp [setIns]
    have hinss : s'.inss = s.inss.set p (.done r) := by rw [← hs]; rfl
    have hnamed : ∀ o, ∀ x ∈ s.named o, x ∈ s'.named o := by
      intro o x hx
      cases o with
      | none => cases hx
      | some j =>
        obtain ⟨t, ht⟩ := hgrow j
        rw [named_some, ht]
        exact List.mem_append.2 (.inl hx)
    have hsafe : ∀ x ∈ s'.safe, x ∈ s.safe ∨ x ∈ s'.named s'.appendix ∨
        (x ∈ s'.named s'.housekeep ∧ s.hks.any (HkPc.pastLastRead m) = false) := by
      intro x hx
      rw [← hs] at hx
      simp only [setIns] at hx
      split at hx
      · rename_i hl
        rcases List.mem_append.1 hx with e | e
        · exact .inl e
        · rw [List.mem_singleton] at e
          subst e
          right
          simp only [St.live, Bool.or_eq_true, decide_eq_true_eq, Bool.and_eq_true, Bool.not_eq_true'] at hl
          rcases hl with ha | ⟨ha, hb⟩
          · left
            rw [happ, ha, named_some, hfile]
            simp
          · right
            rw [hhk, ha, named_some, hfile]
            exact ⟨by simp, hb⟩
      · exact .inl hx
    refine ⟨?_, ?_, ?_, ?_, ?_, ?_, ?_, ?_, ?_, ?_, ?_⟩
    · rw [happ, hlen]; exact h.appLt
    · rw [hhk, hlen]; exact h.hkLt
    · rw [hlen, hinss]
      intro r' i' hi'
      rcases mem_set_ins hi' with e | e
      · cases e
      · exact h.insLt r' i' e
    · intro f hf x hx
      rw [← hs] at hf
      rcases List.mem_or_eq_of_mem_set hf with e | e
      · exact h.recs f e x hx
      · subst e
        rcases List.mem_append.1 hx with e | e
        · exact file_good h i x e
        · rw [List.mem_singleton] at e; subst e; exact hrec
    · rw [hinss]
      intro pc hpc
      rcases mem_set_ins hpc with e | e
      · subst e; exact hrec
      · exact h.insRec pc e
    · rw [hsrt]; exact h.sorted
    · rw [hsrt]; exact h.sortedGood
    · intro x hx
      rcases hsafe x hx with e | e | e
      · rcases h.safe x e with e | e | e
        · exact .inl (hsrt ▸ e)
        · exact .inr (.inl (happ ▸ hnamed _ x e))
        · exact .inr (.inr (hhk ▸ hnamed _ x e))
      · exact .inr (.inl e)
      · exact .inr (.inr e.1)
    · rw [hhks, hhold]; exact h.holds
    · rw [hhks]; exact h.uniq
    · rw [hhks]
      intro q pc hq
      refine PcInv_grow pc (fun j _ => hgrow j) hsrt (fun _ => happ) hhk ?_ ?_ (h.pcs q pc hq)
      · intro x hx
        rcases hsafe x hx with e | e | e
        · exact .inl e
        · exact .inr (.inl e)
        · refine .inr (.inr ?_)
          have := List.any_eq_false.1 e.2 pc (List.mem_of_getElem? hq)
          simpa using this
      · rw [happ]
        exact hnamed _
  | done r => cases hs

theorem inv_frame {m : Nat} {s : St} (h : Inv m s) (rds : List RdPc) : Inv m { s with rds := rds } :=
  ⟨h.appLt, h.hkLt, h.insLt, h.recs, h.insRec, h.sorted, h.sortedGood, h.safe, h.holds, h.uniq,
    fun q pc hq => PcInv_congr pc rfl rfl rfl rfl rfl (h.pcs q pc hq)⟩

theorem inv_step {m : Nat} (hm : 0 < m) {s s' : St} (h : Inv m s) {a : Act} (hs : step m s a = some s') : Inv m s' := by
  cases a with
  | hk p =>
    simp only [step, Option.bind_eq_some_iff] at hs
    obtain ⟨pc, hp, hs⟩ := hs
    exact inv_stepHk hm h hp hs
  | crash p =>
    simp only [step] at hs
    split at hs
    · rename_i hp
      cases hs
      exact inv_leave h (List.getElem?_eq_getElem hp) rfl
    · cases hs
  | rmHold =>
    simp only [step, stepRmHold] at hs
    split at hs
    · cases hs
    · rename_i hn
      cases hs
      refine ⟨h.appLt, h.hkLt, h.insLt, h.recs, h.insRec, h.sorted, h.sortedGood, h.safe, ?_, h.uniq,
        fun q pc hq => PcInv_congr pc rfl rfl rfl rfl rfl (h.pcs q pc hq)⟩
      intro q pc hq hi
      exact absurd (List.any_eq_true.2 ⟨pc, List.mem_of_getElem? hq, hi⟩) hn
  | ins p =>
    simp only [step, Option.bind_eq_some_iff] at hs
    obtain ⟨pc, hp, hs⟩ := hs
    exact inv_stepIns h hp hs
  | rd p =>
    simp only [step, Option.bind_eq_some_iff] at hs
    obtain ⟨pc, hp, hs⟩ := hs
    cases pc <;> simp only [stepRd, Option.some.injEq, reduceCtorEq] at hs <;> subst hs <;> exact inv_frame h _

theorem inv_run {m : Nat} (hm : 0 < m) (as : List Act) {s s' : St} (h : Inv m s) (hs : run m s as = some s') : Inv m s' := by
  induction as generalizing s with
  | nil => cases hs; exact h
  | cons a as ih =>
    simp only [run, Option.bind_eq_some_iff] at hs
    obtain ⟨s1, h1, h2⟩ := hs
    exact ih (inv_step hm h h1) h2

theorem inv_init (m nh : Nat) (rs : List Bytes) (nr : Nat) (hr : ∀ r ∈ rs, GoodRec r) : Inv m (init nh rs nr) := by
  have hst : ∀ (p : Nat) (pc : HkPc), (init nh rs nr).hks[p]? = some pc → pc = .start := by
    intro p pc hp
    exact List.eq_of_mem_replicate (List.mem_of_getElem? hp)
  refine ⟨?_, ?_, ?_, ?_, ?_, ?_, ?_, ?_, ?_, ?_, ?_⟩
  · intro a e; cases e
  · intro a e; cases e
  · intro r i e; simp [init] at e
  · intro f e; cases e
  · intro pc e
    simp only [init, List.mem_map] at e
    obtain ⟨r, h1, rfl⟩ := e
    exact hr r h1
  · exact rfl
  · intro r e; cases e
  · intro r e; cases e
  · intro p pc hp hi; rw [hst p pc hp] at hi; cases hi
  · intro p q pc pc' hp _ hi; rw [hst p pc hp] at hi; cases hi
  · intro p pc hp; rw [hst p pc hp]; trivial

end Verif.Hk
