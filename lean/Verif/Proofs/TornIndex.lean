/-
Proofs about an index with an entry that was written in part.
-/
import Verif.Model.TornIndex
import Verif.Props.Store

namespace Verif.Props
open Verif Header Gzip Ident Index Wsilo Segjob Getjob Spec Inflate Crash

/-- A file that does not consist of whole entries. -/
def Ragged (f : Option Bytes) : Prop := ∃ a, f = some a ∧ a.length % 32 ≠ 0

/-- An index with part of an entry in it. -/
def TornDir (d : Dir) : Prop := Ragged d.appendix ∨ Ragged d.housekeep

theorem chunksAux_more {k : Nat} (hk : 0 < k) : ∀ (f g : Nat) (l : Bytes), l.length ≤ f → l.length ≤ g → chunksAux k f l = chunksAux k g l := by
  intro f
  induction f with
  | zero =>
    intro g l h1 _
    have : l = [] := List.length_eq_zero_iff.1 (by omega)
    subst this
    cases g <;> simp [chunksAux]
  | succ f ih =>
    intro g l h1 h2
    cases g with
    | zero =>
      have : l = [] := List.length_eq_zero_iff.1 (by omega)
      subst this
      simp [chunksAux]
    | succ g =>
      unfold chunksAux
      split
      · rfl
      · rename_i hne
        have hp : 0 < l.length := List.length_pos_iff.2 hne
        rw [ih g (l.drop k) (by rw [List.length_drop]; omega) (by rw [List.length_drop]; omega)]

theorem chunksAux_join {k : Nat} (hk : 0 < k) : ∀ (f : Nat) (l : Bytes), l.length ≤ f → (chunksAux k f l).flatten = l := by
  intro f
  induction f with
  | zero =>
    intro l h
    have : l = [] := List.length_eq_zero_iff.1 (by omega)
    subst this
    rfl
  | succ f ih =>
    intro l h
    unfold chunksAux
    split
    · rename_i h; subst h; rfl
    · rename_i hne
      have hp : 0 < l.length := List.length_pos_iff.2 hne
      rw [List.flatten_cons, ih _ (by rw [List.length_drop]; omega), List.take_append_drop]

theorem chunksAux_append {k : Nat} (hk : 0 < k) : ∀ (f : Nat) (a t : Bytes), a.length % k = 0 → a.length + t.length ≤ f →
    chunksAux k f (a ++ t) = chunksAux k a.length a ++ chunksAux k t.length t := by
  intro f
  induction f with
  | zero =>
    intro a t _ h
    have h1 : a = [] := List.length_eq_zero_iff.1 (by omega)
    have h2 : t = [] := List.length_eq_zero_iff.1 (by omega)
    subst h1 h2
    rfl
  | succ f ih =>
    intro a t hm h
    by_cases ha : a = []
    · subst ha
      simp only [List.nil_append, List.length_nil]
      rw [chunksAux_more hk (f + 1) t.length t (by simpa using h) (Nat.le_refl _)]
      rfl
    · have hp : 0 < a.length := List.length_pos_iff.2 ha
      have hka : k ≤ a.length := by
        rcases Nat.lt_or_ge a.length k with h | h
        · rw [Nat.mod_eq_of_lt h] at hm; omega
        · exact h
      have hd : (a.drop k).length % k = 0 := by
        rw [List.length_drop, ← Nat.mod_eq_sub_mod hka]; exact hm
      conv => lhs; unfold chunksAux
      rw [if_neg (by simp [ha]), List.take_append_of_le_length hka, List.drop_append_of_le_length hka,
        ih (a.drop k) t hd (by rw [List.length_drop]; omega)]
      obtain ⟨m, hm'⟩ : ∃ m, a.length = m + 1 := ⟨a.length - 1, by omega⟩
      rw [hm']
      conv => rhs; lhs; unfold chunksAux
      rw [if_neg ha, List.cons_append, chunksAux_more hk m (a.drop k).length (a.drop k) (by rw [List.length_drop]; omega) (Nat.le_refl _)]

theorem chunksOf_append {k : Nat} (hk : 0 < k) (a t : Bytes) (h : a.length % k = 0) : chunksOf k (a ++ t) = chunksOf k a ++ chunksOf k t := by
  unfold chunksOf
  exact chunksAux_append hk _ a t h (by rw [List.length_append]; omega)

theorem flatten_mod {k : Nat} : ∀ l : List Bytes, (∀ c ∈ l, c.length % k = 0) → l.flatten.length % k = 0 := by
  intro l
  induction l with
  | nil => intro _; simp
  | cons c l ih =>
    intro h
    rw [List.flatten_cons, List.length_append, Nat.add_mod, h c (by simp), ih fun x hx => h x (by simp [hx])]
    simp

theorem ragged_chunk {l : Bytes} (h : l.length % 32 ≠ 0) : ∃ r ∈ chunksOf 32 l, r.length ≠ 32 := by
  refine Classical.byContradiction fun hc => h ?_
  have hall : ∀ r ∈ chunksOf 32 l, r.length % 32 = 0 := by
    intro r hr
    by_cases e : r.length = 32
    · rw [e]
    · exact absurd ⟨r, hr, e⟩ hc
  have hf := chunksAux_join (k := 32) (by decide) l.length l (Nat.le_refl _)
  have := flatten_mod _ hall
  unfold chunksOf at this
  rw [hf] at this
  exact this

/-- A scan of a file that is not sorted meets every chunk, unless it is ended by the callback. -/
theorem scan_ragged {σ : Type} {cl : Nat} {keyP : Bytes} {kp : Option Bytes} {f : σ → Entry → σ × Int} : ∀ (l : List Bytes) (s : σ), (∃ r ∈ l, r.length ≠ 32) →
    ∀ s' i, idxScan false cl keyP kp f l s = .ok (s', i) → i ≠ 0 := by
  intro l
  induction l with
  | nil => intro _ ⟨_, h, _⟩; cases h
  | cons rec l ih =>
    intro s hex s' i e
    unfold idxScan at e
    by_cases hl : rec.length ≠ 32
    · rw [if_pos hl] at e; cases e
    · rw [if_neg hl] at e
      have hex' : ∃ r ∈ l, r.length ≠ 32 := by
        obtain ⟨r, hr, hr'⟩ := hex
        rcases List.mem_cons.1 hr with rfl | hr
        · exact absurd hr' hl
        · exact ⟨r, hr, hr'⟩
      simp only [Bool.false_eq_true, false_and, and_false, if_false] at e
      split at e
      · exact ih s hex' s' i e
      · split at e
        · exact ih s hex' s' i e
        · split at e
          · split at e
            · exact ih _ hex' s' i e
            · rename_i hi
              cases e
              exact hi
          · cases e
          · cases e

/-- A scan that is ended by the callback does not depend on what is behind. -/
theorem scan_longer {σ : Type} {srt : Bool} {cl : Nat} {keyP : Bytes} {kp : Option Bytes} {f : σ → Entry → σ × Int} (t : List Bytes) : ∀ (l : List Bytes) (s : σ),
    ∀ s' i, idxScan srt cl keyP kp f l s = .ok (s', i) → i ≠ 0 → idxScan srt cl keyP kp f (l ++ t) s = .ok (s', i) := by
  intro l
  induction l with
  | nil => intro s s' i e hi; cases e; exact absurd rfl hi
  | cons rec l ih =>
    intro s s' i e hi
    rw [List.cons_append]
    unfold idxScan at e ⊢
    dsimp only at e ⊢
    by_cases h1 : rec.length ≠ 32
    · rw [if_pos h1] at e; cases e
    · rw [if_neg h1] at e ⊢
      split at e
      · cases e; exact absurd rfl hi
      · rename_i h2
        rw [if_neg h2]
        split at e
        · rename_i h3
          rw [if_pos h3]
          exact ih s s' i e hi
        · rename_i h3
          rw [if_neg h3]
          split at e
          · rename_i h4
            rw [if_pos h4]
            exact ih s s' i e hi
          · rename_i h4
            rw [if_neg h4]
            split at e
            · split at e
              · rename_i h0
                rw [if_pos h0]
                exact ih _ s' i e hi
              · rename_i h0
                rw [if_neg h0]
                exact e
            · cases e
            · cases e

/-- A scan ends with another value than zero only if the callback has returned it. -/
theorem scan_stop {σ : Type} {srt : Bool} {cl : Nat} {keyP : Bytes} {kp : Option Bytes} {f : σ → Entry → σ × Int} : ∀ (l : List Bytes) (s : σ),
    ∀ s' i, idxScan srt cl keyP kp f l s = .ok (s', i) → i ≠ 0 → ∃ s0 e0, f s0 e0 = (s', i) := by
  intro l
  induction l with
  | nil => intro s s' i e hi; cases e; exact absurd rfl hi
  | cons rec l ih =>
    intro s s' i e hi
    unfold idxScan at e
    dsimp only at e
    split at e
    · cases e
    · split at e
      · cases e; exact absurd rfl hi
      · split at e
        · exact ih s s' i e hi
        · split at e
          · exact ih s s' i e hi
          · split at e
            · split at e
              · exact ih _ s' i e hi
              · rename_i e0 _ _
                simp only [Res.ok.injEq, Prod.mk.injEq] at e
                exact ⟨s, e0, Prod.ext e.1 e.2⟩
            · cases e
            · cases e

/-- A lookup in a torn index does not come to its end, unless the callback ends it. -/
theorem torn_miss {σ : Type} {d : Dir} (hd : TornDir d) {kp : Option Bytes} {f : σ → Entry → σ × Int} {s s' : σ} {i : Int} (e : idxIter d kp f s = .ok (s', i)) :
    i ≠ 0 ∧ ∃ s0 e0, f s0 e0 = (s', i) := by
  unfold idxIter at e
  simp only [Res.bind_eq_ok, Res.check_eq_ok, exists_const] at e
  obtain ⟨-, keyP, -, e⟩ := e
  have housekeep : ∀ s j, Ragged d.housekeep → idxFiles (min (kp.getD []).length 24) keyP kp f [(d.housekeep, false)] j s = .ok (s', i) → i ≠ 0 ∧ ∃ s0 e0, f s0 e0 = (s', i) := by
    intro s j ⟨a, ha, hl⟩ e
    rw [ha] at e
    simp only [idxFiles, Bool.false_eq_true, if_false, Res.ok_bind, Res.bind_eq_ok, List.drop_zero] at e
    obtain ⟨⟨s1, i1⟩, e1, e2⟩ := e
    have := scan_ragged _ _ (ragged_chunk hl) _ _ e1
    dsimp only at e2
    rw [if_pos this] at e2
    cases e2
    exact ⟨this, scan_stop _ _ _ _ e1 this⟩
  have appendix : ∀ s j, idxFiles (min (kp.getD []).length 24) keyP kp f [(d.appendix, false), (d.housekeep, false)] j s = .ok (s', i) → i ≠ 0 ∧ ∃ s0 e0, f s0 e0 = (s', i) := by
    intro s j e
    cases ha : d.appendix with
    | none =>
      rw [ha] at e
      simp only [idxFiles] at e
      rcases hd with ⟨a, h, -⟩ | hd
      · rw [ha] at h; cases h
      · exact housekeep s j hd (by simpa only [idxFiles] using e)
    | some a =>
      rw [ha, idxFiles] at e
      simp only [Bool.false_eq_true, if_false, Res.ok_bind, Res.bind_eq_ok, List.drop_zero] at e
      obtain ⟨⟨s1, i1⟩, e1, e2⟩ := e
      dsimp only at e2
      split at e2
      · rename_i h; cases e2; exact ⟨h, scan_stop _ _ _ _ e1 h⟩
      · rename_i h
        rcases hd with ⟨b, hb, hl⟩ | hd
        · rw [ha] at hb
          cases hb
          exact absurd (scan_ragged _ _ (ragged_chunk hl) _ _ e1) (by simpa using h)
        · exact housekeep _ _ hd e2
  cases hs : d.sorted with
  | none =>
    rw [hs, idxFiles] at e
    exact appendix _ _ e
  | some a =>
    rw [hs, idxFiles] at e
    simp only [if_true, Res.bind_eq_ok] at e
    obtain ⟨pos, -, ⟨s1, i1⟩, e1, e2⟩ := e
    dsimp only at e2
    split at e2
    · rename_i h; cases e2; exact ⟨h, scan_stop _ _ _ _ e1 h⟩
    · exact appendix _ _ e2

/-- A lookup that found something finds it also when anything is behind the last entry. -/
theorem torn_found {σ : Type} {d : Dir} (hh : d.housekeep = none) (ha : (d.appendix.getD []).length % 32 = 0) (t : Bytes) {kp : Option Bytes} {f : σ → Entry → σ × Int} {s s' : σ} {i : Int}
    (e : idxIter d kp f s = .ok (s', i)) (hi : 0 < i) : idxIter { d with appendix := some (d.appendix.getD [] ++ t) } kp f s = .ok (s', i) := by
  unfold idxIter at e ⊢
  simp only [Res.bind_eq_ok, Res.check_eq_ok, exists_const] at e ⊢
  obtain ⟨h1, keyP, h2, e⟩ := e
  refine ⟨h1, keyP, h2, ?_⟩
  have appendix : ∀ s j, j ≤ 0 → idxFiles (min (kp.getD []).length 24) keyP kp f [(d.appendix, false), (d.housekeep, false)] j s = .ok (s', i) →
      ∀ j, idxFiles (min (kp.getD []).length 24) keyP kp f [(some (d.appendix.getD [] ++ t), false), (d.housekeep, false)] j s = .ok (s', i) := by
    intro s j hj e j'
    rw [hh] at e ⊢
    cases hap : d.appendix with
    | none =>
      rw [hap] at e
      simp only [idxFiles, Res.ok.injEq, Prod.mk.injEq] at e
      omega
    | some a =>
      rw [hap] at e ha
      simp only [Option.getD_some] at ha
      rw [idxFiles] at e ⊢
      simp only [Bool.false_eq_true, if_false, Res.ok_bind, Res.bind_eq_ok, List.drop_zero, Option.getD_some] at e ⊢
      obtain ⟨⟨s1, i1⟩, e1, e2⟩ := e
      dsimp only at e2
      split at e2
      · rename_i h
        simp only [Res.pure_eq, Res.ok.injEq, Prod.mk.injEq] at e2
        obtain ⟨rfl, rfl⟩ := e2
        refine ⟨(s1, i1), ?_, by rw [if_pos h]; rfl⟩
        rw [chunksOf_append (by decide) a t ha]
        exact scan_longer _ _ _ _ _ e1 h
      · simp only [idxFiles, Res.ok.injEq, Prod.mk.injEq] at e2
        rename_i h
        have : i1 = 0 := by simpa using h
        omega
  cases hs : d.sorted with
  | none =>
    rw [hs, idxFiles] at e
    rw [idxFiles]
    exact appendix _ _ (by decide) e _
  | some a =>
    rw [hs, idxFiles] at e
    rw [idxFiles]
    simp only [if_true, Res.bind_eq_ok] at e ⊢
    obtain ⟨pos, h3, ⟨s1, i1⟩, h4, e2⟩ := e
    refine ⟨pos, h3, (s1, i1), h4, ?_⟩
    dsimp only at e2 ⊢
    split at e2
    · rename_i h; rw [if_pos h]; exact e2
    · rename_i h
      rw [if_neg h]
      have : i1 = 0 := by simpa using h
      exact appendix _ _ (by omega) e2 _

theorem mergeChunks_whole : ∀ (cs : List Bytes) (old new : Option Bytes), mergeChunks cs old = .ok new → ∀ c ∈ cs, c.length % 32 = 0 := by
  intro cs
  induction cs with
  | nil => intro _ _ _ c hc; cases hc
  | cons c cs ih =>
    intro old new e x hx
    simp only [mergeChunks, Res.bind_eq_ok, Res.check_eq_ok, exists_const] at e
    obtain ⟨h, f, -, e⟩ := e
    rcases List.mem_cons.1 hx with rfl | hx
    · simpa using h
    · exact ih _ _ e x hx

theorem merge_whole {n : Nat} (hn : 0 < n) {l : Bytes} {old new : Option Bytes} (e : mergeChunks (chunksOf n l) old = .ok new) : l.length % 32 = 0 := by
  have := flatten_mod _ (mergeChunks_whole _ _ _ e)
  unfold chunksOf at this
  rwa [chunksAux_join hn l.length l (Nat.le_refl _)] at this

theorem attempt_torn {n : Nat} (hn : 0 < n) {d d' : Dir} {r : Int} (hd : TornDir d) (e : attemptMerge n d = .ok (d', r)) :
    d.appendix = none ∧ d' = d ∧ r = 0 ∨ d.appendix ≠ none ∧ d.housekeep ≠ none ∧ Ragged d.appendix ∧ d'.appendix = d.appendix ∧ d'.housekeep = none ∧ r = 1 := by
  unfold attemptMerge at e
  cases ha : d.appendix with
  | none =>
    rw [ha] at e
    cases e
    exact .inl ⟨rfl, rfl, rfl⟩
  | some a =>
    rw [ha] at e
    cases hh : d.housekeep with
    | none =>
      rw [hh] at e
      simp only [Res.bind_eq_ok] at e
      obtain ⟨x, e1, -⟩ := e
      have := merge_whole hn e1
      rcases hd with ⟨b, hb, hl⟩ | ⟨b, hb, -⟩
      · rw [ha] at hb; cases hb; exact absurd this hl
      · rw [hh] at hb; cases hb
    | some h =>
      rw [hh] at e
      simp only [Res.bind_eq_ok, Res.pure_eq, Res.ok.injEq, Prod.mk.injEq] at e
      obtain ⟨x, e1, e2, e3⟩ := e
      have := merge_whole hn e1
      refine .inr ⟨by simp, by simp, ?_, ?_, ?_, e3.symm⟩
      · rcases hd with hd | ⟨b, hb, hl⟩
        · rw [← ha]; exact hd
        · rw [hh] at hb; cases hb; exact absurd this hl
      · rw [← e2]; exact ha
      · rw [← e2]

/-- Housekeeping of a torn index fails, or does nothing. -/
theorem resort_torn {n : Nat} (hn : 0 < n) {d d' : Dir} (hd : TornDir d) (e : idxResort n d = .ok d') : d' = d ∧ (d.hold = true ∨ d.appendix = none) := by
  unfold idxResort at e
  cases hh : d.hold with
  | true =>
    rw [hh] at e
    cases e
    exact ⟨rfl, .inl rfl⟩
  | false =>
    rw [hh] at e
    simp only [Bool.false_eq_true, if_false, Res.bind_eq_ok, Res.pure_eq, Res.ok.injEq, resortLoop] at e
    obtain ⟨d1, ⟨⟨d2, r2⟩, e2, e1⟩, rfl⟩ := e
    rcases attempt_torn hn (d := { d with hold := true }) hd e2 with ⟨h1, rfl, rfl⟩ | ⟨h1, -, h2, h3, h4, rfl⟩
    · simp only [gt_iff_lt, Int.lt_irrefl, if_false, Res.ok.injEq] at e1
      subst e1
      refine ⟨?_, .inr h1⟩
      rw [← hh]
    · have h01 : (1 : Int) > 0 := by decide
      simp only [if_pos h01, Res.bind_eq_ok] at e1
      obtain ⟨⟨d3, r3⟩, e3, -⟩ := e1
      rcases attempt_torn hn (d := d2) (.inl (by rw [h3]; exact h2)) e3 with ⟨q, -⟩ | ⟨-, q, -⟩
      · rw [h3] at q; exact absurd q h1
      · exact absurd h4 q

theorem idxRecord_size {key : Bytes} {flags silo off : Nat} {cont : Option Bytes} {r : Bytes} (e : idxRecord key flags silo off cont = .ok r) : r.length = 32 := by
  have hk : ∀ (n : Nat) (k b : Bytes), idxKeyBin n k = .ok b → b.length = n := by
    intro n
    induction n with
    | zero => intro k b e; cases k <;> (simp only [idxKeyBin, Res.ok.injEq] at e; subst e; rfl)
    | succ n ih =>
      intro k b e
      rcases k with _ | ⟨c, _ | ⟨c', k⟩⟩
      · simp only [idxKeyBin, Res.bind_eq_ok, Res.pure_eq, Res.ok.injEq] at e
        obtain ⟨x, h, rfl⟩ := e
        simp [ih _ _ h]
      · simp only [idxKeyBin, Res.bind_eq_ok, Res.pure_eq, Res.ok.injEq] at e
        obtain ⟨_, -, x, h, rfl⟩ := e
        simp [ih _ _ h]
      · simp only [idxKeyBin, Res.bind_eq_ok, Res.pure_eq, Res.ok.injEq] at e
        obtain ⟨_, -, _, -, x, h, rfl⟩ := e
        simp [ih _ _ h]
  unfold idxRecord at e
  simp only [Res.bind_eq_ok, Res.pure_eq, Res.ok.injEq] at e
  obtain ⟨k, h1, c, h2, rfl⟩ := e
  have h3 : c.length = 4 := by
    cases cont with
    | none => simp only [contBin, Res.ok.injEq] at h2; subst h2; rfl
    | some c' => exact hk _ _ _ h2
  simp [hk _ _ _ h1, h3]

theorem insert_torn {d d' : Dir} {key : Bytes} {flags silo off : Nat} {cont : Option Bytes} (e : idxInsert d key flags silo off cont = .ok d') (hd : TornDir d) : TornDir d' := by
  unfold idxInsert at e
  simp only [Res.bind_eq_ok, Res.pure_eq, Res.ok.injEq] at e
  obtain ⟨r, h, rfl⟩ := e
  rcases hd with ⟨a, h1, h2⟩ | hd
  · refine .inl ⟨_, rfl, ?_⟩
    rw [h1, Option.getD_some, List.length_append, idxRecord_size h, Nat.add_mod_right]
    exact h2
  · exact .inr hd

theorem runOps_torn : ∀ (ops : List IdxOp) (d d' : Dir), (∀ n, .housekeep n ∈ ops → 0 < n) → runOps d ops = .ok d' → TornDir d → TornDir d' := by
  intro ops
  induction ops with
  | nil => intro d d' _ e h; cases e; exact h
  | cons o ops ih =>
    intro d d' hn e h
    have hn' : ∀ n, .housekeep n ∈ ops → 0 < n := fun n hm => hn n (List.mem_cons_of_mem _ hm)
    cases o with
    | insert i =>
      simp only [runOps, Res.bind_eq_ok] at e
      obtain ⟨d1, e1, e2⟩ := e
      exact ih _ _ hn' e2 (insert_torn e1 h)
    | housekeep n =>
      simp only [runOps, Res.bind_eq_ok] at e
      obtain ⟨d1, e1, e2⟩ := e
      obtain ⟨rfl, -⟩ := resort_torn (hn n (by simp)) h e1
      exact ih _ _ hn' e2 h

/-- The callback of `GetJob_New` stops with an error only at an entry. -/
theorem getjobIter_error {ps : Nat} {pfx : Bytes} {idSize : Nat} {w : World} {s : Res GJ} {e : Entry} {gj : GJ} {i : Int} (h : getjobIter ps pfx idSize w s e = (.ok gj, i))
    (hi : i < 0) : gj.err ≠ .notFound := by
  cases s with
  | fail => simp [getjobIter] at h
  | ub => simp [getjobIter] at h
  | ok g =>
    unfold getjobIter at h
    dsimp only at h
    cases hv : verdict ps pfx idSize w g e with
    | fail => rw [hv] at h; simp at h
    | ub => rw [hv] at h; simp at h
    | ok v =>
      rw [hv] at h
      cases v with
      | skip => simp only [Prod.mk.injEq] at h; omega
      | take x => simp only [Prod.mk.injEq] at h; omega
      | error er =>
        simp only [Prod.mk.injEq, Res.ok.injEq] at h
        rw [← h.1]
        intro he
        dsimp only at he
        subst he
        unfold verdict at hv
        simp only [Res.bind_eq_ok] at hv
        obtain ⟨r, -, hv⟩ := hv
        split at hv
        · cases hv
        · split at hv
          · unfold firstVerdict at hv
            split at hv
            · cases hv
            · split at hv <;> cases hv
          · unfold nextVerdict at hv
            simp only [Res.bind_eq_ok] at hv
            obtain ⟨m, -, hv⟩ := hv
            split at hv
            · cases hv
            · simp only [Res.bind_eq_ok, Res.check_eq_ok, exists_const] at hv
              obtain ⟨im, -, -, hv⟩ := hv
              split at hv <;> cases hv

theorem getLoop_torn {ps : Nat} {pfx : Bytes} {idSize : Nat} {w : World} (hd : TornDir w.dir) : ∀ (fuel : Nat) (nid : Bytes) (gj : GJ) (e : GErr),
    getLoop ps pfx idSize w fuel nid gj = .ok (.error e) → e ≠ .notFound := by
  intro fuel
  induction fuel with
  | zero => intro nid gj e h; cases h
  | succ fuel ih =>
    intro nid gj e h
    simp only [getLoop, Res.bind_eq_ok] at h
    obtain ⟨⟨s, i⟩, h1, gj', h2, h3⟩ := h
    dsimp only at h2 h3
    subst h2
    obtain ⟨q1, s0, e0, q2⟩ := torn_miss hd h1
    split at h3
    · simp only [Res.pure_eq, Res.ok.injEq, Got.error.injEq] at h3
      rw [← h3]
      exact getjobIter_error q2 (by omega)
    · split at h3
      · cases h3
      · simp only [Res.check_bind_eq_ok] at h3
        obtain ⟨-, h3⟩ := h3
        split at h3
        · simp only [Res.check_bind_eq_ok] at h3
          obtain ⟨-, h3⟩ := h3
          cases h3
        · split at h3
          · cases h3
          · exact ih _ _ _ h3

theorem getLoop_found {ps : Nat} {pfx : Bytes} {idSize : Nat} {w : World} (hh : w.dir.housekeep = none) (ha : (w.dir.appendix.getD []).length % 32 = 0) (t : Bytes) : ∀ (fuel : Nat) (nid : Bytes) (gj j : GJ),
    getLoop ps pfx idSize w fuel nid gj = .ok (.job j) →
    getLoop ps pfx idSize { w with dir := { w.dir with appendix := some (w.dir.appendix.getD [] ++ t) } } fuel nid gj = .ok (.job j) := by
  intro fuel
  induction fuel with
  | zero => intro nid gj j h; cases h
  | succ fuel ih =>
    intro nid gj j h
    have hc : getjobIter ps pfx idSize { w with dir := { w.dir with appendix := some (w.dir.appendix.getD [] ++ t) } } = getjobIter ps pfx idSize w := getjobIter_congr rfl
    simp only [getLoop, Res.bind_eq_ok] at h ⊢
    obtain ⟨⟨s, i⟩, h1, gj', h2, h3⟩ := h
    dsimp only at h2 h3
    subst h2
    split at h3
    · cases h3
    · rename_i hi
      refine ⟨(.ok gj', i), ?_, gj', rfl, ?_⟩
      · rw [hc]
        exact torn_found hh ha t h1 (by omega)
      · dsimp only
        rw [if_neg hi]
        split at h3
        · cases h3
        · rename_i s' hs'
          simp only [Res.check_bind_eq_ok] at h3 ⊢
          refine ⟨h3.1, ?_⟩
          obtain ⟨-, h3⟩ := h3
          split at h3
          · rename_i h0
            rw [if_pos h0]
            exact h3
          · rename_i h0
            rw [if_neg h0]
            split at h3
            · rename_i h00
              rw [if_pos h00]
              exact h3
            · rename_i h00
              rw [if_neg h00]
              exact ih _ _ _ h3

end Verif.Props
