/-
Property C103: looking something up in an index that cannot be read.
-/
import Verif.Model.IndexErr
import Verif.Proofs.TornIndex
import Verif.Props.Index

namespace Verif.Props.IndexFaults
open Verif Index
open _root_.Verif.Spec (collect insertAll)
open _root_.Verif.IndexErr (Fault)

theorem files_some {σ : Type} (cl : Nat) (keyP : Bytes) (kp : Option Bytes) (f : σ → Entry → σ × Int) (file : Bytes) (srt : Bool) (l : List (Option Bytes × Bool)) (i : Int) (s : σ) :
    Index.idxFiles cl keyP kp f ((some file, srt) :: l) i s = (if srt then bucketSeek keyP file else Res.ok 0) >>= fun pos =>
      idxScan srt cl keyP kp f (chunksOf 32 (file.drop pos)) s >>= fun q => if q.2 ≠ 0 then .ok q else Index.idxFiles cl keyP kp f l q.2 q.1 := by
  cases srt <;> rfl

theorem files_err {σ : Type} (cl : Nat) (keyP : Bytes) (kp : Option Bytes) (f : σ → Entry → σ × Int) (file : Bytes) (srt : Bool) (t : Fault) (l : List ((Option Bytes × Bool) × Fault)) (i : Int) (s : σ) :
    IndexErr.idxFiles cl keyP kp f (((some file, srt), t) :: l) i s = if t.opens = false then IndexErr.idxFiles cl keyP kp f l i s else
      Res.check (!srt || t.table) >>= fun _ => (if srt then bucketSeek keyP file else Res.ok 0) >>= fun pos =>
      idxScan srt cl keyP kp f (chunksOf 32 (t.got (file.drop pos))) s >>= fun q => if q.2 ≠ 0 then .ok q else IndexErr.idxFiles cl keyP kp f l q.2 q.1 := by
  cases srt <;> rfl

/-- C103: if nothing goes wrong it is as in the other properties. -/
theorem C103_fine {σ : Type} (d : Dir) (kp : Option Bytes) (f : σ → Entry → σ × Int) (s : σ) :
    IndexErr.idxIter d ({}, {}, {}) kp f s = Index.idxIter d kp f s := by
  have key : ∀ (cl : Nat) (keyP : Bytes) (l : List (Option Bytes × Bool)) (i : Int) (s : σ),
      IndexErr.idxFiles cl keyP kp f (l.map fun x => (x, {})) i s = Index.idxFiles cl keyP kp f l i s := by
    intro cl keyP l
    induction l with
    | nil => exact fun _ _ => rfl
    | cons x l ih =>
      intro i s
      obtain ⟨o, srt⟩ := x
      cases o with
      | none =>
        rw [List.map_cons, IndexErr.idxFiles, Index.idxFiles, ih]
      | some file =>
        rw [List.map_cons, files_err, files_some, if_neg (by simp)]
        simp only [Bool.or_true, Res.check_true, Res.ok_bind, IndexErr.Fault.got, ih]
  unfold IndexErr.idxIter Index.idxIter
  simp only [← key, List.map_cons, List.map_nil]

/-- What is read before an error is some records, and then nothing or a part of one. -/
theorem got_chunks (t : Fault) (b : Bytes) : ∃ rs u v, chunksOf 32 (t.got b) = rs ++ u ∧ chunksOf 32 b = rs ++ v ∧ (u = [] ∨ ∃ c : Bytes, u = [c] ∧ c.length ≠ 32) := by
  cases hl : t.limit with
  | none =>
    refine ⟨chunksOf 32 b, [], [], ?_, by simp, Or.inl rfl⟩
    simp [IndexErr.Fault.got, hl]
  | some m =>
    have hg : t.got b = b.take m := by simp [IndexErr.Fault.got, hl]
    rw [hg]
    by_cases hm : b.length ≤ m
    · rw [List.take_of_length_le hm]
      exact ⟨chunksOf 32 b, [], [], by simp, by simp, Or.inl rfl⟩
    · have hn : m / 32 * 32 ≤ m := Nat.div_mul_le_self m 32
      have h1 : b.take m = b.take (m / 32 * 32) ++ (b.drop (m / 32 * 32)).take (m - m / 32 * 32) := by
        rw [← List.drop_take]
        conv =>
          lhs
          rw [← List.take_append_drop (m / 32 * 32) (b.take m)]
        rw [List.take_take, Nat.min_eq_left hn]
      have hlen : (b.take (m / 32 * 32)).length % 32 = 0 := by
        rw [List.length_take, Nat.min_eq_left (by omega)]
        exact Nat.mul_mod_left _ _
      have h2 : chunksOf 32 b = chunksOf 32 (b.take (m / 32 * 32)) ++ chunksOf 32 (b.drop (m / 32 * 32)) := by
        rw [← chunksOf_append (by decide) _ _ hlen, List.take_append_drop]
      refine ⟨chunksOf 32 (b.take (m / 32 * 32)), chunksOf 32 ((b.drop (m / 32 * 32)).take (m - m / 32 * 32)), chunksOf 32 (b.drop (m / 32 * 32)), ?_, h2, ?_⟩
      · rw [h1, chunksOf_append (by decide) _ _ hlen]
      · generalize hc : (b.drop (m / 32 * 32)).take (m - m / 32 * 32) = c
        have hcl : c.length < 32 := by
          rw [← hc, List.length_take]
          omega
        by_cases h0 : c = []
        · left
          rw [h0]
          rfl
        · right
          refine ⟨c, ?_, by omega⟩
          obtain ⟨x, l, e⟩ := List.exists_cons_of_ne_nil h0
          have ht : c.take 32 = c := List.take_of_length_le (by omega)
          have hd : c.drop 32 = [] := List.drop_of_length_le (by omega)
          unfold chunksOf
          rw [e] at ht hd ⊢
          rw [List.length_cons, chunksAux, ht, hd]
          cases l.length <;> rfl

theorem scan_from (srt : Bool) (cl : Nat) (keyP : Bytes) (kp : Option Bytes) (rs : List Bytes) : ∀ (s : List Entry) (r : List Entry × Int),
    idxScan srt cl keyP kp collect rs s = .ok r → List.Sublist s r.1 := by
  induction rs with
  | nil =>
    intro s r h
    injection h with h
    subst h
    exact List.Sublist.refl _
  | cons c rs ih =>
    intro s r h
    rw [idxScan] at h
    split at h
    · cases h
    · simp only at h
      split at h
      · injection h with h
        subst h
        exact List.Sublist.refl _
      · split at h
        · exact ih _ _ h
        · split at h
          · exact ih _ _ h
          · split at h
            · simp only [collect, if_true] at h
              exact (List.sublist_append_left _ _).trans (ih _ _ h)
            · cases h
            · cases h

theorem scan_sub (srt : Bool) (cl : Nat) (keyP : Bytes) (kp : Option Bytes) {u v : List Bytes} (hu : u = [] ∨ ∃ c : Bytes, u = [c] ∧ c.length ≠ 32) (rs : List Bytes) :
    ∀ (s s' : List Entry) (r r' : List Entry × Int), List.Sublist s' s → idxScan srt cl keyP kp collect (rs ++ u) s' = .ok r' →
    idxScan srt cl keyP kp collect (rs ++ v) s = .ok r → List.Sublist r'.1 r.1 := by
  induction rs with
  | nil =>
    intro s s' r r' hs h' h
    rw [List.nil_append] at h h'
    rcases hu with hu | ⟨c, hu, hc⟩
    · rw [hu] at h'
      injection h' with h'
      rw [← h']
      exact hs.trans (scan_from _ _ _ _ _ _ _ h)
    · rw [hu, idxScan, if_pos hc] at h'
      cases h'
  | cons c rs ih =>
    intro s s' r r' hs h' h
    rw [List.cons_append, idxScan] at h h'
    by_cases h1 : c.length ≠ 32
    · rw [if_pos h1] at h
      cases h
    rw [if_neg h1] at h h'
    simp only at h h'
    split at h
    · rename_i h2
      rw [if_pos h2] at h'
      injection h with h
      injection h' with h'
      rw [← h, ← h']
      exact hs
    · rename_i h2
      rw [if_neg h2] at h'
      split at h
      · rename_i h3
        rw [if_pos h3] at h'
        exact ih _ _ _ _ hs h' h
      · rename_i h3
        rw [if_neg h3] at h'
        split at h
        · rename_i h4
          rw [if_pos h4] at h'
          exact ih _ _ _ _ hs h' h
        · rename_i h4
          rw [if_neg h4] at h'
          cases hd : decodeRec c with
          | ok e =>
            simp only [hd, collect, if_true] at h h'
            exact ih _ _ _ _ (hs.append (List.Sublist.refl _)) h' h
          | fail =>
            simp only [hd] at h
            cases h
          | ub =>
            simp only [hd] at h
            cases h

theorem scan_zero (srt : Bool) (cl : Nat) (keyP : Bytes) (kp : Option Bytes) (rs : List Bytes) : ∀ (s : List Entry) (r : List Entry × Int),
    idxScan srt cl keyP kp collect rs s = .ok r → r.2 = 0 := by
  induction rs with
  | nil =>
    intro s r h
    injection h with h
    subst h
    rfl
  | cons c rs ih =>
    intro s r h
    rw [idxScan] at h
    split at h
    · cases h
    · simp only at h
      split at h
      · injection h with h
        subst h
        rfl
      · split at h
        · exact ih _ _ h
        · split at h
          · exact ih _ _ h
          · split at h
            · simp only [collect, if_true] at h
              exact ih _ _ h
            · cases h
            · cases h

theorem files_from (cl : Nat) (keyP : Bytes) (kp : Option Bytes) (l : List (Option Bytes × Bool)) : ∀ (i : Int) (s : List Entry) (r : List Entry × Int),
    Index.idxFiles cl keyP kp collect l i s = .ok r → List.Sublist s r.1 := by
  induction l with
  | nil =>
    intro i s r h
    injection h with h
    subst h
    exact List.Sublist.refl _
  | cons x l ih =>
    intro i s r h
    obtain ⟨o, srt⟩ := x
    cases o with
    | none => exact ih _ _ _ h
    | some file =>
      rw [files_some] at h
      obtain ⟨pos, -, h⟩ := Res.bind_eq_ok.mp h
      obtain ⟨q, h1, h⟩ := Res.bind_eq_ok.mp h
      have hq := scan_zero _ _ _ _ _ _ _ h1
      rw [if_neg (by simp [hq])] at h
      exact (scan_from _ _ _ _ _ _ _ h1).trans (ih _ _ _ h)

theorem files_sub (cl : Nat) (keyP : Bytes) (kp : Option Bytes) (l : List ((Option Bytes × Bool) × Fault)) : ∀ (i i' : Int) (s s' : List Entry) (r r' : List Entry × Int),
    List.Sublist s' s → IndexErr.idxFiles cl keyP kp collect l i' s' = .ok r' → Index.idxFiles cl keyP kp collect (l.map (·.1)) i s = .ok r → List.Sublist r'.1 r.1 := by
  induction l with
  | nil =>
    intro i i' s s' r r' hs h' h
    injection h with h
    injection h' with h'
    rw [← h, ← h']
    exact hs
  | cons x l ih =>
    intro i i' s s' r r' hs h' h
    obtain ⟨⟨o, srt⟩, t⟩ := x
    cases o with
    | none => exact ih _ _ _ _ _ _ hs h' h
    | some file =>
      rw [List.map_cons, files_some] at h
      rw [files_err] at h'
      obtain ⟨pos, h0, h⟩ := Res.bind_eq_ok.mp h
      obtain ⟨q, h1, h⟩ := Res.bind_eq_ok.mp h
      have hq := scan_zero _ _ _ _ _ _ _ h1
      rw [if_neg (by simp [hq])] at h
      by_cases ho : t.opens = false
      · rw [if_pos ho] at h'
        exact ih _ _ _ _ _ _ (hs.trans (scan_from _ _ _ _ _ _ _ h1)) h' h
      · rw [if_neg ho] at h'
        obtain ⟨_, -, h'⟩ := Res.bind_eq_ok.mp h'
        rw [h0, Res.ok_bind] at h'
        obtain ⟨q', h1', h'⟩ := Res.bind_eq_ok.mp h'
        have hq' := scan_zero _ _ _ _ _ _ _ h1'
        rw [if_neg (by simp [hq'])] at h'
        obtain ⟨rs, u, v, e1, e2, hu⟩ := got_chunks t (file.drop pos)
        rw [e1] at h1'
        rw [e2] at h1
        exact ih _ _ _ _ _ _ (scan_sub _ _ _ _ hu rs _ _ _ _ hs h1' h1) h' h

/-- C103: whatever goes wrong, nothing is found in the index that is not there; but entries can be missing. -/
theorem C103_found_partial (d : Dir) (ts : Fault × Fault × Fault) (kp : Option Bytes) {es es' : List Entry} {i i' : Int}
    (h : Index.idxIter d kp collect [] = .ok (es, i)) (h' : IndexErr.idxIter d ts kp collect [] = .ok (es', i')) : List.Sublist es' es := by
  unfold Index.idxIter at h
  unfold IndexErr.idxIter at h'
  obtain ⟨_, -, h⟩ := Res.bind_eq_ok.mp h
  obtain ⟨keyP, hk, h⟩ := Res.bind_eq_ok.mp h
  obtain ⟨_, -, h'⟩ := Res.bind_eq_ok.mp h'
  rw [hk, Res.ok_bind] at h'
  exact files_sub _ _ _ _ _ _ _ _ _ _ (List.Sublist.refl _) h' h

/-- C103: files that cannot be opened, because too many are open or permission is missing, are taken for files that are not there. -/
theorem C103_opens {σ : Type} (d : Dir) (a b c : Bool) (kp : Option Bytes) (f : σ → Entry → σ × Int) (s : σ) :
    IndexErr.idxIter d ({ opens := a }, { opens := b }, { opens := c }) kp f s =
    Index.idxIter { d with sorted := if a then d.sorted else none, appendix := if b then d.appendix else none, housekeep := if c then d.housekeep else none } kp f s := by
  rw [← C103_fine]
  unfold IndexErr.idxIter
  have step : ∀ (cl : Nat) (keyP : Bytes) (o : Option Bytes) (srt a : Bool) (rest : List ((Option Bytes × Bool) × Fault)) (i : Int) (s : σ),
      IndexErr.idxFiles cl keyP kp f (((o, srt), { opens := a }) :: rest) i s = IndexErr.idxFiles cl keyP kp f ((((if a then o else none), srt), {}) :: rest) i s := by
    intro cl keyP o srt a rest i s
    cases a with
    | true => rfl
    | false =>
      cases o with
      | none => rfl
      | some x => rfl
  have cong : ∀ (cl : Nat) (keyP : Bytes) (x : (Option Bytes × Bool) × Fault) (l l' : List ((Option Bytes × Bool) × Fault)),
      (∀ i s, IndexErr.idxFiles cl keyP kp f l i s = IndexErr.idxFiles cl keyP kp f l' i s) → ∀ i s, IndexErr.idxFiles cl keyP kp f (x :: l) i s = IndexErr.idxFiles cl keyP kp f (x :: l') i s := by
    intro cl keyP x l l' hl i s
    obtain ⟨⟨o, srt⟩, t⟩ := x
    cases o with
    | none => exact hl i s
    | some file =>
      rw [files_err, files_err]
      simp only [hl]
  simp only
  congr 1
  funext _
  congr 1
  funext keyP
  rw [step]
  refine cong _ _ _ _ _ (fun i s => ?_) _ _
  rw [step]
  refine cong _ _ _ _ _ (fun i s => ?_) _ _
  rw [step]

/-- C103: so in an archive whatsoever, if no file of the index can be opened, nothing is found, and this is told as in an empty archive. -/
theorem C103_lost {σ : Type} (d : Dir) (kp : Option Bytes) (f : σ → Entry → σ × Int) (s : σ) :
    IndexErr.idxIter d ({ opens := false }, { opens := false }, { opens := false }) kp f s = Index.idxIter {} kp f s := by
  rw [C103_opens]
  rfl

/-- C103: and a file that cannot be read from some place on is taken for one that ends there. -/
theorem C103_reads {σ : Type} (d : Dir) (m n : Nat) (a b : Bool) (kp : Option Bytes) (f : σ → Entry → σ × Int) (s : σ) :
    IndexErr.idxIter d ({}, { limit := some m, table := a }, { limit := some n, table := b }) kp f s =
    Index.idxIter { d with appendix := d.appendix.map (·.take m), housekeep := d.housekeep.map (·.take n) } kp f s := by
  rw [← C103_fine]
  unfold IndexErr.idxIter
  have step : ∀ (cl : Nat) (keyP : Bytes) (o : Option Bytes) (m : Nat) (a : Bool) (rest : List ((Option Bytes × Bool) × Fault)) (i : Int) (s : σ),
      IndexErr.idxFiles cl keyP kp f (((o, false), { limit := some m, table := a }) :: rest) i s = IndexErr.idxFiles cl keyP kp f (((o.map (·.take m), false), {}) :: rest) i s := by
    intro cl keyP o m a rest i s
    cases o with
    | none => rfl
    | some x => rfl
  have cong : ∀ (cl : Nat) (keyP : Bytes) (x : (Option Bytes × Bool) × Fault) (l l' : List ((Option Bytes × Bool) × Fault)),
      (∀ i s, IndexErr.idxFiles cl keyP kp f l i s = IndexErr.idxFiles cl keyP kp f l' i s) → ∀ i s, IndexErr.idxFiles cl keyP kp f (x :: l) i s = IndexErr.idxFiles cl keyP kp f (x :: l') i s := by
    intro cl keyP x l l' hl i s
    obtain ⟨⟨o, srt⟩, t⟩ := x
    cases o with
    | none => exact hl i s
    | some file =>
      rw [files_err, files_err]
      simp only [hl]
  simp only
  congr 1
  funext _
  congr 1
  funext keyP
  refine cong _ _ _ _ _ (fun i s => ?_) _ _
  rw [step]
  refine cong _ _ _ _ _ (fun i s => ?_) _ _
  rw [step]

/-- Two records in the appendix, and one that is sorted. -/
def three : Dir := { histDir [b!"40"] with appendix := (insertAll {} [⟨b!"aaaaaaaaaaaaaaaaaaaaaaaa", 1, 0, 0, none⟩, ⟨b!"bbbbbbbbbbbbbbbbbbbbbbbb", 1, 0, 512, none⟩]).toOption.bind (·.appendix) }

/-- C103: an entry that is in the index is not found, and it is said that it is not there, if the appendix cannot be opened, or its second record cannot be read; if
it can be read in part the program stops. -/
theorem C103_counterexample_missed :
    (listing three).toOption.map (·.1.map (·.key)) = some [b!"400000000000000000000000", b!"aaaaaaaaaaaaaaaaaaaaaaaa", b!"bbbbbbbbbbbbbbbbbbbbbbbb"] ∧
    (Index.idxIter three (some b!"bbbbbbbbbbbbbbbb") collect []).toOption.map (·.1.map (·.key)) = some [b!"bbbbbbbbbbbbbbbbbbbbbbbb"] ∧
    IndexErr.idxIter three ({}, { opens := false }, {}) (some b!"bbbbbbbbbbbbbbbb") collect [] = .ok ([], 0) ∧
    IndexErr.idxIter three ({}, { limit := some 32 }, {}) (some b!"bbbbbbbbbbbbbbbb") collect [] = .ok ([], 0) ∧
    IndexErr.idxIter three ({}, { limit := some 40 }, {}) (some b!"bbbbbbbbbbbbbbbb") collect [] = .fail ∧
    IndexErr.idxIter three ({ table := false }, {}, {}) (some b!"bbbbbbbbbbbbbbbb") collect [] = .fail := by
  decide +kernel

end Verif.Props.IndexFaults
