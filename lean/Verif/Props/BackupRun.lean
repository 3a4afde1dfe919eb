/-
C77: the staging directory is whole whenever it is there (utilities/select_silos.py).
-/
import Verif.Model.BackupRun
import Verif.Props.BackupExample

namespace Verif.Props

open Backup

/-! ## Specification -/

/-- A run and the number of steps after which it is cut off. -/
structure Attempt where
  env : Env
  world : World
  steps : Nat

/-- Runs one after the other. -/
def attempts : List Attempt → Disk → Disk
  | [], D => D
  | a :: r, D => attempts r (runCut a.env a.world D a.steps)

/-! ## Lemmas -/

theorem backup_pieces_flatten (n : Nat) (hn : 0 < n) (fuel : Nat) (l : Bytes) (h : l.length ≤ fuel) :
    (pieces n fuel l).flatten = l := by
  induction fuel generalizing l with
  | zero =>
    have : l = [] := List.length_eq_zero_iff.mp (Nat.le_zero.mp h)
    subst this
    rfl
  | succ fuel ih =>
    rw [pieces]
    by_cases hl : l = []
    · rw [if_pos hl, hl]; rfl
    · rw [if_neg hl, List.flatten_cons, ih _ (by
        have : 0 < l.length := List.length_pos_iff.mpr hl
        rw [List.length_drop]
        omega), List.take_append_drop]

/-- The steps that touch neither `STAGING` nor `silodates.txt`. -/
def QuietOp : Op → Bool
  | .datesRename | .keep | .put => false
  | _ => true

theorem quiet_apply (D : Disk) (x : Op) (h : QuietOp x = true) :
    (x.apply D).staging = D.staging ∧ (x.apply D).dates = D.dates := by
  cases x <;> first | exact ⟨rfl, rfl⟩ | exact absurd h (by decide)

theorem quiet_foldl (l : List Op) (D : Disk) (h : ∀ x ∈ l, QuietOp x = true) :
    (l.foldl Op.apply D).staging = D.staging ∧ (l.foldl Op.apply D).dates = D.dates := by
  induction l generalizing D with
  | nil => exact ⟨rfl, rfl⟩
  | cons x l ih =>
    obtain ⟨h1, h2⟩ := quiet_apply D x (h x (by simp))
    obtain ⟨h3, h4⟩ := ih (x.apply D) (fun y hy => h y (by simp [hy]))
    exact ⟨h3.trans h1, h4.trans h2⟩

theorem opsBefore_quiet (D : Disk) (o : Out) : ∀ x ∈ opsBefore D o, QuietOp x = true := by
  intro x hx
  simp only [opsBefore, List.mem_append, List.mem_cons, List.mem_flatMap, List.mem_map,
    List.not_mem_nil, or_false, List.mem_replicate] at hx
  rcases hx with (((⟨_, rfl⟩ | rfl) | ⟨_, rfl⟩ | rfl | rfl) | ⟨f, _, rfl | ⟨b, _, rfl⟩⟩) |
    rfl | ⟨b, _, rfl⟩ <;> rfl

theorem appendLast_snoc (l : List File) (f : File) (b : Bytes) :
    appendLast b (l ++ [f]) = l ++ [⟨f.name, f.data ++ b⟩] := by
  induction l with
  | nil => rfl
  | cons a l ih =>
    cases l with
    | nil => rfl
    | cons c l => exact congrArg (List.cons a) ih

theorem foldl_append (ps : List Bytes) (D : Disk) (l : List File) (n d : Bytes)
    (h : D.new = some (l ++ [⟨n, d⟩])) :
    ((ps.map Op.append).foldl Op.apply D).new = some (l ++ [⟨n, d ++ ps.flatten⟩]) := by
  induction ps generalizing D d with
  | nil => simpa using h
  | cons p ps ih =>
    rw [List.map_cons, List.foldl_cons, ih _ (d ++ p) ?_]
    · simp
    · simp [Op.apply, h, appendLast_snoc]

theorem foldl_files (fs : List File) (D : Disk) (l : List File) (h : D.new = some l) :
    ((fs.flatMap (fun f => Op.create f.name :: (pieces 65536 f.data.length f.data).map Op.append)).foldl
      Op.apply D).new = some (l ++ fs) := by
  induction fs generalizing D l with
  | nil => simpa using h
  | cons f fs ih =>
    rw [List.flatMap_cons, List.foldl_append, ih _ (l ++ [f]) ?_]
    · simp
    · rw [List.foldl_cons, foldl_append _ _ l f.name [] (by simp [Op.apply, h]),
        List.nil_append, backup_pieces_flatten _ (by decide) _ _ (Nat.le_refl _)]

theorem foldl_dates (ps : List Bytes) (D : Disk) (d : Bytes) (h : D.datesNew = some d) :
    ((ps.map Op.datesWrite).foldl Op.apply D).datesNew = some (d ++ ps.flatten) ∧
    ((ps.map Op.datesWrite).foldl Op.apply D).new = D.new ∧
    ((ps.map Op.datesWrite).foldl Op.apply D).old = D.old := by
  induction ps generalizing D d with
  | nil => simpa using h
  | cons p ps ih =>
    obtain ⟨h1, h2, h3⟩ := ih ((Op.datesWrite p).apply D) (d ++ p) (by simp [Op.apply, h])
    rw [List.map_cons, List.foldl_cons]
    exact ⟨by simpa using h1, h2, h3⟩

theorem old_append (ps : List Bytes) (D : Disk) : ((ps.map Op.append).foldl Op.apply D).old = D.old := by
  induction ps generalizing D with
  | nil => rfl
  | cons p ps ih =>
    rw [List.map_cons, List.foldl_cons]
    exact ih _

theorem old_files (fs : List File) (D : Disk) :
    ((fs.flatMap (fun f => Op.create f.name :: (pieces 65536 f.data.length f.data).map Op.append)).foldl
      Op.apply D).old = D.old := by
  induction fs generalizing D with
  | nil => rfl
  | cons f fs ih =>
    rw [List.flatMap_cons, List.foldl_append, ih, List.foldl_cons, old_append]
    rfl

/-- After the steps before the rename everything is ready in the new places. -/
theorem opsBefore_ready (D : Disk) (o : Out) :
    ((opsBefore D o).foldl Op.apply D).new = some o.files ∧
    ((opsBefore D o).foldl Op.apply D).datesNew = some o.dates ∧
    ((opsBefore D o).foldl Op.apply D).old = none := by
  rw [opsBefore, List.foldl_append, List.foldl_append]
  generalize hD1 : List.foldl Op.apply D _ = D1
  have e1 : D1.new = some [] ∧ D1.old = none := by
    rw [← hD1, List.foldl_append, List.foldl_append, List.foldl_append]
    exact ⟨rfl, rfl⟩
  generalize hD2 : List.foldl Op.apply D1 _ = D2
  have e2 : D2.new = some o.files := by
    rw [← hD2, foldl_files o.files D1 [] e1.1]
    rfl
  have e3 : D2.old = none := by
    rw [← hD2, old_files]
    exact e1.2
  rw [List.foldl_cons]
  obtain ⟨h1, h2, h3⟩ := foldl_dates (pieces 8192 o.dates.length o.dates) (Op.datesOpen.apply D2) [] rfl
  rw [h1, h2, h3, backup_pieces_flatten _ (by decide) _ _ (Nat.le_refl _)]
  exact ⟨e2, rfl, e3⟩

theorem replicate_quiet (n : Nat) (D : Disk) :
    (((List.replicate n Op.unlinkOld).foldl Op.apply D).staging = D.staging) ∧
    (((List.replicate n Op.unlinkOld).foldl Op.apply D).dates = D.dates) ∧
    (((List.replicate n Op.unlinkOld).foldl Op.apply D).new = D.new) ∧
    (((List.replicate n Op.unlinkOld).foldl Op.apply D).datesNew = D.datesNew) := by
  induction n generalizing D with
  | zero => exact ⟨rfl, rfl, rfl, rfl⟩
  | succ n ih =>
    rw [List.replicate_succ, List.foldl_cons]
    exact ih _

/-- Where a run can be cut off. -/
theorem runCut_cases (E : Env) (W : World) (D : Disk) (m : Nat) :
    ((runCut E W D m).staging = D.staging ∧ (runCut E W D m).dates = D.dates) ∨
    ∃ o, main E W D.dates = .ok o ∧ (runCut E W D m).dates = some o.dates ∧
      ((runCut E W D m).staging = some o.files ∧ (opsBefore D o).length + 3 ≤ m ∨
        ((runCut E W D m).staging = D.staging ∧ m = (opsBefore D o).length + 1) ∨
        ((runCut E W D m).staging = none ∧ m = (opsBefore D o).length + 2)) := by
  rw [runCut]
  cases hm : main E W D.dates with
  | fail => exact Or.inl ⟨by simp [opsOf], by simp [opsOf]⟩
  | ub => exact Or.inl ⟨by simp [opsOf], by simp [opsOf]⟩
  | ok o =>
    rw [opsOf]
    by_cases h1 : m ≤ (opsBefore D o).length
    · refine Or.inl ?_
      rw [List.take_append_of_le_length h1]
      exact quiet_foldl _ _ (fun x hx => opsBefore_quiet D o x (List.mem_of_mem_take hx))
    · refine Or.inr ⟨o, rfl, ?_⟩
      obtain ⟨r1, r2, r3⟩ := opsBefore_ready D o
      obtain ⟨q1, q2⟩ := quiet_foldl _ D (opsBefore_quiet D o)
      obtain ⟨j, rfl⟩ : ∃ j, m = (opsBefore D o).length + (j + 1) := ⟨m - (opsBefore D o).length - 1, by omega⟩
      rw [List.take_length_add_append, List.foldl_append]
      generalize List.foldl Op.apply D (opsBefore D o) = D1 at r1 r2 r3 q1 q2 ⊢
      rw [List.take_succ_cons, List.foldl_cons]
      match j with
      | 0 =>
        refine ⟨r2, Or.inr (Or.inl ⟨q1, rfl⟩)⟩
      | 1 =>
        have hk : ∀ D2 : Disk, (Op.keep.apply D2).staging = none ∧ (Op.keep.apply D2).dates = D2.dates := by
          intro D2
          simp only [Op.apply]
          by_cases h : D2.staging = none
          · rw [if_pos h]; exact ⟨h, rfl⟩
          · rw [if_neg h]; exact ⟨rfl, rfl⟩
        refine ⟨?_, Or.inr (Or.inr ⟨?_, rfl⟩)⟩
        · exact (hk _).2.trans r2
        · exact (hk _).1
      | j + 2 =>
        have hk : ∀ D2 : Disk, (Op.keep.apply D2).new = D2.new ∧ (Op.keep.apply D2).dates = D2.dates := by
          intro D2
          simp only [Op.apply]
          by_cases h : D2.staging = none
          · rw [if_pos h]; exact ⟨rfl, rfl⟩
          · rw [if_neg h]; exact ⟨rfl, rfl⟩
        have hq : ∀ x ∈ (List.replicate (count D.staging) Op.unlinkOld ++ [Op.rmOld]).take j,
            QuietOp x = true := by
          intro x hx
          have := List.mem_of_mem_take hx
          simp only [List.mem_append, List.mem_replicate, List.mem_cons, List.not_mem_nil,
            or_false] at this
          rcases this with ⟨_, rfl⟩ | rfl <;> rfl
        have e : (opsAfter D).take (j + 2) =
            .keep :: .put :: (List.replicate (count D.staging) Op.unlinkOld ++ [Op.rmOld]).take j := rfl
        rw [e, List.foldl_cons, List.foldl_cons]
        obtain ⟨w1, w2⟩ := quiet_foldl _ (Op.put.apply (Op.keep.apply (Op.datesRename.apply D1))) hq
        rw [w1, w2]
        refine ⟨?_, Or.inl ⟨?_, by omega⟩⟩
        · exact (hk _).2.trans r2
        · exact (hk _).1.trans r1

/-! ## C77 -/

/-- C77.  However many runs are cut off wherever, `STAGING` is either not there, or as it was at
    first, or it has all files of one of the runs, each of them whole. -/
theorem C77_whole (l : List Attempt) (D : Disk) :
    (attempts l D).staging = none ∨ (attempts l D).staging = D.staging ∨
    ∃ a ∈ l, ∃ old o, main a.env a.world old = .ok o ∧ (attempts l D).staging = some o.files := by
  induction l generalizing D with
  | nil => exact Or.inr (Or.inl rfl)
  | cons a l ih =>
    rcases ih (runCut a.env a.world D a.steps) with h | h | ⟨b, hb, old, o, h1, h2⟩
    · exact Or.inl h
    · rcases runCut_cases a.env a.world D a.steps with ⟨h1, _⟩ | ⟨o, h1, _, ⟨h2, _⟩ | ⟨h2, _⟩ | ⟨h2, _⟩⟩
      · exact Or.inr (Or.inl (h.trans h1))
      · exact Or.inr (Or.inr ⟨a, by simp, D.dates, o, h1, h.trans h2⟩)
      · exact Or.inr (Or.inl (h.trans h2))
      · exact Or.inl (h.trans h2)
    · exact Or.inr (Or.inr ⟨b, by simp [hb], old, o, h1, h2⟩)

/-- C77.  `silodates.txt` is as it was at first or what one of the runs wrote, whole. -/
theorem C77_dates (l : List Attempt) (D : Disk) :
    (attempts l D).dates = D.dates ∨
    ∃ a ∈ l, ∃ old o, main a.env a.world old = .ok o ∧ (attempts l D).dates = some o.dates := by
  induction l generalizing D with
  | nil => exact Or.inl rfl
  | cons a l ih =>
    rcases ih (runCut a.env a.world D a.steps) with h | ⟨b, hb, old, o, h1, h2⟩
    · rcases runCut_cases a.env a.world D a.steps with ⟨_, h1⟩ | ⟨o, h1, h2, _⟩
      · exact Or.inl (h.trans h1)
      · exact Or.inr ⟨a, by simp, D.dates, o, h1, h.trans h2⟩
    · exact Or.inr ⟨b, by simp [hb], old, o, h1, h2⟩

/-- C77.  What is recorded as staged is in `STAGING`, unless the run was cut off after one of
    two steps: a run leaves `STAGING` and `silodates.txt` both as they were or has made both
    of them.

    Missing: the two steps between the renames (`C77_counterexample_lost`). -/
theorem C77_recorded_partial (E : Env) (W : World) (D : Disk) : ∃ j, ∀ m, m ≠ j → m ≠ j + 1 →
    (runCut E W D m).staging = D.staging ∧ (runCut E W D m).dates = D.dates ∨
    ∃ o, main E W D.dates = .ok o ∧ (runCut E W D m).staging = some o.files ∧
      (runCut E W D m).dates = some o.dates := by
  cases hm : main E W D.dates with
  | fail =>
    refine ⟨0, fun m _ _ => Or.inl ?_⟩
    rcases runCut_cases E W D m with h | ⟨o, h, _⟩
    · exact h
    · rw [hm] at h; simp at h
  | ub =>
    refine ⟨0, fun m _ _ => Or.inl ?_⟩
    rcases runCut_cases E W D m with h | ⟨o, h, _⟩
    · exact h
    · rw [hm] at h; simp at h
  | ok o =>
    refine ⟨(opsBefore D o).length + 1, fun m h1 h2 => ?_⟩
    rcases runCut_cases E W D m with h | ⟨o', h, hd, h3⟩
    · exact Or.inl h
    · have : o' = o := by rw [hm] at h; exact (Res.ok.inj h).symm
      subst this
      rcases h3 with ⟨h3, _⟩ | ⟨_, h3⟩ | ⟨_, h3⟩
      · exact Or.inr ⟨o', rfl, h3, hd⟩
      · exact absurd h3 h1
      · exact absurd h3 h2

theorem keep_apply (D : Disk) : (Op.keep.apply D).new = D.new ∧ (Op.keep.apply D).dates = D.dates ∧
    (Op.keep.apply D).datesNew = D.datesNew := by
  simp only [Op.apply]
  by_cases h : D.staging = none
  · rw [if_pos h]; exact ⟨rfl, rfl, rfl⟩
  · rw [if_neg h]; exact ⟨rfl, rfl, rfl⟩

/-- C77.  A run that is not cut off puts its files in `STAGING`, records them, and leaves nothing
    else behind. -/
theorem C77_complete (E : Env) (W : World) (D : Disk) (o : Out) (h : main E W D.dates = .ok o) :
    ∃ n, ∀ m, n ≤ m → runCut E W D m =
      { staging := some o.files, new := none, old := none, dates := some o.dates, datesNew := none } := by
  refine ⟨(opsOf D (.ok o)).length, fun m hm => ?_⟩
  rw [runCut, h, List.take_of_length_le hm, opsOf, List.foldl_append, List.foldl_cons]
  obtain ⟨r1, r2, r3⟩ := opsBefore_ready D o
  generalize List.foldl Op.apply D (opsBefore D o) = D1 at r1 r2 r3 ⊢
  rw [opsAfter, List.foldl_append, List.foldl_append]
  have hput : ∃ x, List.foldl Op.apply (Op.datesRename.apply D1) [.keep, .put] =
      { staging := some o.files, new := none, old := x, dates := some o.dates, datesNew := none } := by
    refine ⟨(Op.keep.apply (Op.datesRename.apply D1)).old, ?_⟩
    · simp only [List.foldl_cons, List.foldl_nil]
      have : (Op.keep.apply (Op.datesRename.apply D1)).new = some o.files ∧
          (Op.keep.apply (Op.datesRename.apply D1)).dates = some o.dates ∧
          (Op.keep.apply (Op.datesRename.apply D1)).datesNew = none := by
        obtain ⟨k1, k2, k3⟩ := keep_apply (Op.datesRename.apply D1)
        exact ⟨k1.trans r1, k2.trans r2, k3⟩
      obtain ⟨u1, u2, u3⟩ := this
      generalize Op.keep.apply (Op.datesRename.apply D1) = D2 at u1 u2 u3 ⊢
      show ({ D2 with
        staging := D2.new, new := none } : Disk) = _
      rw [u1, u2, u3]
  obtain ⟨x, e⟩ := hput
  rw [e]
  obtain ⟨v1, v2, v3, v4⟩ := replicate_quiet (count D.staging)
    { staging := some o.files, new := none, old := x, dates := some o.dates, datesNew := none }
  generalize List.foldl Op.apply _ (List.replicate (count D.staging) Op.unlinkOld) = D3 at v1 v2 v3 v4 ⊢
  show ({ D3 with
    old := none } : Disk) = _
  rw [v1, v2, v3, v4]

/-- C77, the part that fails.  A run is cut off after it has renamed `silodates.txt.new`: the
    silo 00000000 counts as staged, there is no staging directory, and the next run, which comes
    to its end, stages the other two silos. -/
theorem C77_counterexample_lost :
    let D := runCut (toyEnv 9 1000) toySilos {} 12
    D.staging = none ∧
    D.dates = some b!"00000000.warc.gz 1.000 7\n00000001.warc.gz 0.000 0\n00000002.warc.gz 0.000 0\n" ∧
    ((runCut (toyEnv 9 2000) toySilos D 1000).staging.map (fun l =>
      (l.map File.name).filter (fun n => b!".bin".isSuffixOf n))) =
      some [b!"/st/00000002.warc.gz.bin", b!"/st/00000001.warc.gz.bin"] := by
  decide +kernel

/-- Before, while and after the staging directory is replaced. -/
example :
    let D := runCut (toyEnv 9 1000) toySilos {} 1000
    (D.staging.map List.length, D.new, D.old) = (some 3, none, none) ∧
    (runCut (toyEnv 9 2000) toySilos D 10).staging = D.staging ∧
    (runCut (toyEnv 9 2000) toySilos D 19).staging = none ∧
    (runCut (toyEnv 9 2000) toySilos D 20).staging.map List.length = some 6 := by
  decide +kernel

end Verif.Props
