/-
Property C52: termination of the creation of parent directories.
-/
import Verif.Model.MkParent
import Verif.Proofs.Silo

namespace Verif.Props
open Verif Silo MkParent

theorem beforeSlash_none {p : Bytes} (h : beforeSlash p = none) : 47 ∉ p := by
  induction p with
  | nil => simp
  | cons c cs ih =>
    rw [beforeSlash] at h
    split at h
    · cases h
    · rename_i hn
      split at h
      · cases h
      · rename_i hc
        simp only [List.mem_cons, not_or]
        exact ⟨fun e => hc e.symm, ih hn⟩

theorem beforeSlash_of_not_mem {p : Bytes} (h : 47 ∉ p) : beforeSlash p = none := by
  cases hb : beforeSlash p with
  | none => rfl
  | some q =>
    exfalso
    have : ∀ (p q : Bytes), beforeSlash p = some q → 47 ∈ p := by
      intro p
      induction p with
      | nil => intro q h; cases h
      | cons c cs ih =>
        intro q h
        rw [beforeSlash] at h
        split at h
        · rename_i q' hq
          exact List.mem_cons_of_mem _ (ih _ hq)
        · split at h
          · rename_i hc; simp [hc]
          · cases h
    exact h (this p q hb)

theorem beforeSlash_some {p q : Bytes} (h : beforeSlash p = some q) : ∃ r, p = q ++ 47 :: r ∧ 47 ∉ r := by
  induction p generalizing q with
  | nil => cases h
  | cons c cs ih =>
    rw [beforeSlash] at h
    split at h
    · rename_i q' hq
      simp only [Option.some.injEq] at h
      subst h
      obtain ⟨r, h1, h2⟩ := ih hq
      exact ⟨r, by rw [h1]; rfl, h2⟩
    · rename_i hn
      split at h
      · rename_i hc
        simp only [Option.some.injEq] at h
        subst h
        exact ⟨cs, by rw [hc]; rfl, beforeSlash_none hn⟩
      · cases h

/-- The call returns, at whatever depth of recursion. -/
def Returns {σ : Type} (fs : FS σ) (s : σ) (path : Bytes) : Prop := ∃ fuel r, mkparent fs fuel s path = some r

/-- `p` is a leading directory of `path`: what is left when cutting at a slash, or `path` itself if
there is no slash in it. -/
def IsLead (p path : Bytes) : Prop := (∃ r, path = p ++ 47 :: r) ∨ (path = p ∧ 47 ∉ p)

/-- C52 for absolute paths: whatever the file system does, the recursion ends, after no more levels
than the path has characters. -/
theorem C52_absolute_terminates {σ : Type} (fs : FS σ) (s : σ) (path : Bytes) :
    ∃ r, mkparent fs ((47 :: path).length) s (47 :: path) = some r := by
  suffices h : ∀ n (path : Bytes), path.length < n → ∃ r, mkparent fs n s (47 :: path) = some r from
    h _ path (by simp)
  intro n
  induction n with
  | zero => intro path h; omega
  | succ n ih =>
    intro path hlen
    rw [mkparent]
    split
    · exact ⟨_, rfl⟩
    · rename_i hne
      cases hb : beforeSlash (47 :: path) with
      | none => exact absurd (beforeSlash_none hb) (by simp)
      | some q =>
        obtain ⟨r, h1, h2⟩ := beforeSlash_some hb
        cases q with
        | nil => exact absurd hb hne
        | cons c q =>
          simp only [List.cons_append, List.cons.injEq] at h1
          obtain ⟨rfl, h1⟩ := h1
          simp only [Option.getD_some]
          split
          · have hl : q.length < n := by
              have := congrArg List.length h1
              simp at this
              omega
            obtain ⟨r, hr⟩ := ih q hl
            rw [hr]
            exact ⟨_, rfl⟩
          · exact ⟨_, rfl⟩

/-- C52 for relative paths: the call returns exactly if at least one leading directory of the path
exists (or `stat` fails on it with an error other than ENOENT).  Otherwise the recursion never ends. -/
theorem C52_relative_terminates_iff {σ : Type} (fs : FS σ) (s : σ) (path : Bytes) (hrel : path.head? ≠ some 47) :
    Returns fs s path ↔ ∃ p, IsLead p path ∧ fs.stat s p ≠ .enoent := by
  constructor
  · rintro ⟨fuel, r, h⟩
    induction fuel generalizing path r with
    | zero => cases h
    | succ fuel ih =>
      rw [mkparent] at h
      cases hb : beforeSlash path with
      | none =>
        have hn := beforeSlash_none hb
        simp only [hb, reduceCtorEq, if_false, Option.getD_none] at h
        split at h
        · rw [Option.map_eq_some_iff] at h
          obtain ⟨a, ha, -⟩ := h
          exact ih path hrel a ha
        · rename_i hs
          exact ⟨path, Or.inr ⟨rfl, hn⟩, hs⟩
      | some q =>
        obtain ⟨t, h1, h2⟩ := beforeSlash_some hb
        have hq : q ≠ [] := by
          rintro rfl
          rw [h1] at hrel
          exact hrel rfl
        have hrel' : q.head? ≠ some 47 := by
          cases q with
          | nil => exact absurd rfl hq
          | cons c q => rw [h1] at hrel; exact hrel
        rw [hb, if_neg (by simpa using hq)] at h
        simp only [Option.getD_some] at h
        split at h
        · rw [Option.map_eq_some_iff] at h
          obtain ⟨a, ha, -⟩ := h
          obtain ⟨p, hp, hs⟩ := ih q hrel' a ha
          refine ⟨p, Or.inl ?_, hs⟩
          rcases hp with ⟨r, hr⟩ | ⟨hr, -⟩
          · exact ⟨r ++ 47 :: t, by rw [h1, hr]; simp⟩
          · exact ⟨t, by rw [h1, hr]⟩
        · rename_i hs
          exact ⟨q, Or.inl ⟨t, h1⟩, hs⟩
  · rintro ⟨p, hp, hs⟩
    suffices h : ∀ n (path : Bytes), path.length < n → path.head? ≠ some 47 → IsLead p path →
        ∃ r, mkparent fs n s path = some r by
      obtain ⟨r, hr⟩ := h (path.length + 1) path (by omega) hrel hp
      exact ⟨_, r, hr⟩
    intro n
    induction n with
    | zero => intro path h; omega
    | succ n ih =>
      intro path hlen hrel hp
      rw [mkparent]
      cases hb : beforeSlash path with
      | none =>
        simp only [reduceCtorEq, if_false, Option.getD_none]
        rcases hp with ⟨r, hr⟩ | ⟨hr, -⟩
        · exact absurd (beforeSlash_none hb) (by rw [hr]; simp)
        · rw [hr, if_neg hs]
          exact ⟨_, rfl⟩
      | some q =>
        obtain ⟨t, h1, h2⟩ := beforeSlash_some hb
        have hq : q ≠ [] := by
          rintro rfl
          rw [h1] at hrel
          exact hrel rfl
        have hrel' : q.head? ≠ some 47 := by
          cases q with
          | nil => exact absurd rfl hq
          | cons c q => rw [h1] at hrel; exact hrel
        rw [if_neg (by simpa using hq)]
        simp only [Option.getD_some]
        split
        · rename_i he
          have hl : IsLead p q := by
            rcases hp with ⟨r, hr⟩ | ⟨hr, hm⟩
            · rw [h1, List.append_eq_append_iff] at hr
              rcases hr with ⟨a, ha, hb'⟩ | ⟨a, ha, hb'⟩
              · cases a with
                | nil => rw [List.append_nil] at ha; rw [ha] at hs; exact absurd he hs
                | cons z a =>
                  simp only [List.cons_append, List.cons.injEq] at hb'
                  exact absurd h2 (by rw [hb'.2]; simp)
              · cases a with
                | nil => rw [List.append_nil] at ha; rw [← ha] at hs; exact absurd he hs
                | cons z a =>
                  simp only [List.cons_append, List.cons.injEq] at hb'
                  exact Or.inl ⟨a, by rw [ha, ← hb'.1]⟩
            · exact absurd hm (by rw [← hr, h1]; simp)
          obtain ⟨r, hr⟩ := ih q (by have := congrArg List.length h1; simp at this; omega) hrel' hl
          rw [hr]
          exact ⟨_, rfl⟩
        · exact ⟨_, rfl⟩

/-- Every silo below an absolute directory: the creation of its parent directories terminates. -/
theorem C52_silo_terminates_partial {σ : Type} (fs : FS σ) (s : σ) (nm : Names) (u : Nat) (hold : Bool)
    (habs : nm.dirname.head? = some 47) : Returns fs s (siloFilename nm u hold) := by
  cases hd : nm.dirname with
  | nil => rw [hd] at habs; cases habs
  | cons c cs =>
    rw [hd] at habs
    simp only [List.head?_cons, Option.some.injEq] at habs
    subst habs
    rw [siloFilename, siloDir, hd]
    simp only [List.cons_append]
    obtain ⟨r, hr⟩ := C52_absolute_terminates fs s _
    exact ⟨_, r, hr⟩

/-- If `mkdir` means what it says (after success the directory is there), then after a successful
return the parent directory is there: `stat` does not say ENOENT and does not say "regular file". -/
theorem C52_parent_exists {σ : Type} (fs : FS σ) (s s' : σ) (path q : Bytes) (fuel : Nat) (i : Int)
    (hlaw : ∀ t p, 0 ≤ (fs.mkdir t p).2 → fs.stat (fs.mkdir t p).1 p = .other)
    (hq : beforeSlash path = some q) (hne : q ≠ []) (h : mkparent fs fuel s path = some (s', i)) (hi : 0 ≤ i) :
    fs.stat s' q = .other ∨ fs.stat s' q = .otherError := by
  have hfin : ∀ t, fs.stat t q ≠ .enoent → finish fs t q = (s', i) → fs.stat s' q = .other ∨ fs.stat s' q = .otherError := by
    intro t hn hf
    unfold finish at hf
    cases hst : fs.stat t q with
    | enoent => exact absurd hst hn
    | regular =>
      rw [hst] at hf
      simp only [Prod.mk.injEq] at hf
      omega
    | other =>
      rw [hst] at hf
      simp only [Prod.mk.injEq] at hf
      rw [← hf.1]; exact Or.inl hst
    | otherError =>
      rw [hst] at hf
      simp only [Prod.mk.injEq] at hf
      rw [← hf.1]; exact Or.inr hst
  cases fuel with
  | zero => cases h
  | succ fuel =>
    rw [mkparent, hq, if_neg (by simpa using hne)] at h
    simp only [Option.getD_some] at h
    split at h
    · rw [Option.map_eq_some_iff] at h
      obtain ⟨⟨t, j⟩, -, ha⟩ := h
      unfold afterParent at ha
      simp only at ha
      split at ha
      · simp only [Prod.mk.injEq] at ha; omega
      · split at ha
        · rename_i hmk
          rw [ha] at hmk
          simp only at hmk
          omega
        · rename_i hmk
          have := hlaw t q (by omega)
          exact hfin _ (by rw [this]; simp) ha
    · rename_i hn
      simp only [Option.some.injEq] at h
      exact hfin s hn h

/-- A file system that is a list of existing directories. -/
def listFS : FS (List Bytes) where
  stat s p := if p ∈ s then .other else .enoent
  mkdir s p := if p ∈ s then (s, -1) else (p :: s, 0)

example : (∀ t p, 0 ≤ (listFS.mkdir t p).2 → listFS.stat (listFS.mkdir t p).1 p = .other) ∧
    mkparent listFS 20 [b!"/arc"] b!"/arc/1/01/100.gz" = some ([b!"/arc/1/01", b!"/arc/1", b!"/arc"], 0) ∧
    mkparent listFS 20 [b!"arc"] b!"arc/1/01/100.gz" = some ([b!"arc/1/01", b!"arc/1", b!"arc"], 0) := by
  refine ⟨?_, by decide, by decide⟩
  intro t p h
  by_cases hp : p ∈ t
  · simp [listFS, hp] at h
  · simp [listFS, hp]

/-- C52 is false for a relative silo directory that does not exist yet. -/
theorem C52_counterexample_relative :
    ¬ Returns listFS [] (siloFilename ⟨b!"arc/", [], 8, b!".warc.gz"⟩ 0 false) := by
  rw [C52_relative_terminates_iff _ _ _ (by decide)]
  rintro ⟨p, -, h⟩
  exact h (by simp [listFS])

end Verif.Props
