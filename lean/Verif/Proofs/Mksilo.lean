/-
What `mksilo` does to the records of an archive.
-/
import Verif.Model.Mksilo
import Verif.Proofs.Archive

namespace Verif.Props
open Verif Header Gzip Ident Index Wsilo Segjob Spec Inflate Mksilo
open _root_.Verif.Commit (upd Silo)

/-- A new silo with one record. -/
theorem layout_one {s : Nat → Option Silo} {A : List Item} (ha : ∀ x ∈ A, s x.entry.silo ≠ none) {n : Nat} (hn : s n = none) {y : Item} {f : Silo}
    (hy : y.entry.silo = n) (hf : f.data = y.record.bytes) (h0 : y.entry.off = 0) (hl : Layout s A) : Layout (upd s n (some f)) (A ++ [y]) := by
  intro m g hg
  unfold upd at hg
  split at hg
  · rename_i hm
    subst hm
    cases hg
    refine ⟨[y], ?_, ?_, ?_⟩
    · rw [List.filter_append, List.filter_eq_nil_iff.2]
      · simp only [List.nil_append, List.filter_cons, hy, decide_true, if_true, List.filter_nil]
        exact .refl _
      · intro z hz
        simp only [decide_eq_true_eq]
        intro h
        exact ha z hz (by rw [h, hn])
    · rw [hf]; simp [siloBytes]
    · simp [offsets, h0]
  · rename_i hm
    obtain ⟨X, p, q⟩ := hl m g hg
    refine ⟨X, ?_, q⟩
    rw [List.filter_append, show [y].filter (fun x => decide (x.entry.silo = m)) = [] from ?_, List.append_nil]
    · exact p
    · have e1 : ¬ n = m := fun h => hm h.symm
      simp [List.filter_cons, hy, e1]

theorem mksilo_inv {env : Env} {w w' : World} {n : Nat} {out : Out} (e : mksilo env w n = .ok (w', out)) :
    (out = .couldNot ∧ w' = w ∧ (w.silos n ≠ none ∨ w.holds n = true)) ∨
    (out = .made ∧ w.silos n = none ∧ w.holds n = false ∧ w'.holds = w.holds ∧
      ∃ ih info, InfoRec env n ih info ∧ idxInsert w.dir ih.id F_WARCINFO n 0 none = .ok w'.dir ∧
        w'.silos = upd w.silos n (some { data := info, writable := true })) := by
  unfold mksilo at e
  rw [Res.bind_eq_ok] at e
  obtain ⟨r, e1, e2⟩ := e
  unfold wsiloNew at e1
  split at e1
  · rename_i hb
    cases e1
    simp only [Res.pure_eq, Res.ok.injEq, Prod.mk.injEq] at e2
    refine .inl ⟨e2.2.symm, e2.1.symm, ?_⟩
    rcases hb with h | h
    · exact .inl (fun h0 => by rw [h0] at h; cases h)
    · exact .inr h
  · rename_i hb
    simp only [Res.bind_eq_ok, Res.pure_eq, Res.ok.injEq] at e1
    obtain ⟨sl, e1, rfl⟩ := e1
    simp only [Res.bind_eq_ok, Res.pure_eq, Res.ok.injEq, Prod.mk.injEq] at e2
    obtain ⟨w1, e2, rfl, rfl⟩ := e2
    have hs : w.silos n = none := by
      cases h : w.silos n with
      | none => rfl
      | some f => exact absurd (Or.inl (by rw [h]; rfl)) hb
    have hh : w.holds n = false := by
      cases h : w.holds n with
      | false => rfl
      | true => exact absurd (Or.inr h) hb
    unfold warcinfoNew at e1
    simp only [Res.bind_eq_ok, Res.pure_eq, Res.ok.injEq] at e1
    obtain ⟨ih, i1, s1, i2, s2, i3, s3, i4, i5⟩ := e1
    obtain ⟨rfl, -, -⟩ := storeFit_inv i2
    obtain ⟨rfl, -, -⟩ := storeFit_inv i3
    obtain ⟨rfl, -, -⟩ := storeFit_inv i4
    subst i5
    unfold wsiloInstall at e2
    simp only [Res.bind_eq_ok, Res.check_eq_ok, exists_const, Res.pure_eq, Res.ok.injEq] at e2
    obtain ⟨d, e3, -, e5⟩ := e2
    refine .inr ⟨rfl, hs, hh, ?_, ih, _, ⟨i1, rfl⟩, ?_, ?_⟩
    · rw [← e5]
      unfold abandon
      funext m
      have : ∀ (w : World) c, (putCache w c).holds = w.holds := by
        intro w c; unfold putCache; split <;> rfl
      simp only [this]
      unfold upd
      by_cases hm : m = n
      · rw [hm, if_pos rfl, hh]
      · rw [if_neg hm, if_neg hm]
    · rw [← e5]
      unfold abandon
      simp only [(putCache_same _ _).2]
      exact e3
    · rw [← e5]
      unfold abandon
      simp only [(putCache_same _ _).1, List.nil_append]

/-- The records of the archive after `mksilo`. -/
theorem mksilo_adds {env : Env} (he : EnvOk env) {w w' : World} {ops : List IdxOp} {A : List Item} (ha : ArchInv env w ops A) {n : Nat} (hn : n < 2 ^ 32) {out : Out}
    (e : mksilo env w n = .ok (w', out)) :
    (out = .couldNot ∧ w' = w ∧ (w.silos n ≠ none ∨ w.holds n = true)) ∨
    (out = .made ∧ w.silos n = none ∧ w.holds n = false ∧ w'.holds = w.holds ∧
      ∃ is y, ArchInv env w' (ops ++ is) (A ++ [y]) ∧ InfoItem env y ∧ y.entry.silo = n ∧ y.entry.off = 0 ∧
        w'.silos = upd w.silos n (some { data := y.record.bytes, writable := true }) ∧ Grown w.silos w'.silos ∧
        LayStep w.silos w'.silos [y]) := by
  rcases mksilo_inv e with h | ⟨h1, h2, h3, h4, ih, info, h5, h6, h7⟩
  · exact .inl h
  · refine .inr ⟨h1, h2, h3, h4, ?_⟩
    have hsn : w'.silos n = some { data := info, writable := true } := by
      rw [h7]; unfold upd; rw [if_pos rfl]
    obtain ⟨y, y1, y2, y3, y4, y5, y6⟩ := info_at he hn h5 (post := []) hsn (by simp)
    have hgr : Grown w.silos w'.silos := by
      rw [h7]
      exact grown_upd (fun g hg => by rw [h2] at hg; cases hg)
    have hyn : y.entry.silo = n := by rw [y1]; rfl
    have hy0 : y.entry.off = 0 := by rw [y1]; rfl
    refine ⟨[{ id := ih.id, flags := F_WARCINFO, silo := n, off := 0, cont := none : Ins }].map .insert, y, ?_, ?_, hyn, hy0, by rw [y5]; exact h7, hgr, ?_⟩
    · refine archInv_add ha _ [y] ?_ ?_ ?_ hgr ?_
      · intro i hi
        rw [List.mem_singleton] at hi
        rw [hi]
        exact ⟨(infoHdr_ok he h5.1).2.1, (by show (2 : Nat) < 2 ^ 32; decide), hn, (by show (0 : Nat) < 2 ^ 63; decide), fun k hk => by cases hk⟩
      · simp only [List.map_cons, List.map_nil, runOps]
        rw [h6]
        rfl
      · simp only [List.map_cons, List.map_nil, y1]
      · intro z hz
        rw [List.mem_singleton] at hz
        rw [hz]
        exact ⟨y2, y6⟩
    · unfold InfoItem
      rw [y1, y3, y4]
      exact ⟨rfl, h5.1, rfl⟩
    · intro B hB hl
      rw [h7]
      exact layout_one hB h2 hyn y5.symm hy0 hl

end Verif.Props
