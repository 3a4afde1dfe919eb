/-
Properties C16 to C18: silo file names and iteration over silos.
-/
import Verif.Proofs.Silo

namespace Verif.Props
open Verif Silo

/-- The constraints checked when the configuration is read (aardwarc.c:100-134). -/
structure GoodNames (nm : Names) : Prop where
  pre : 47 ∉ nm.pre
  post : 47 ∉ nm.post

theorem base_noslash {nm : Names} (h : GoodNames nm) (u : Nat) (hold : Bool) :
    47 ∉ (nm.pre ++ zpad nm.width u ++ nm.post) ++ (if hold then b!".hold" else []) := by
  simp only [List.mem_append, not_or]
  refine ⟨⟨⟨h.pre, ?_⟩, h.post⟩, ?_⟩
  · intro hc
    have := zpad_digits _ _ _ hc
    revert this
    decide
  · cases hold <;> decide

theorem filename_split (nm : Names) (u : Nat) (hold : Bool) :
    ∃ p, nm.dirname ++ numpart (u + 1) 0 u = p ++ [47] ∧
      siloFilename nm u hold =
        p ++ [47] ++ ((nm.pre ++ zpad nm.width u ++ nm.post) ++ (if hold then b!".hold" else [])) := by
  obtain ⟨q, hq⟩ := numpart_endsSlash (u + 1) 0 u (by omega)
  refine ⟨nm.dirname ++ q, by rw [hq]; simp, ?_⟩
  rw [siloFilename, siloDir, hq]
  simp

/-- C16: two silo or hold file names are equal only if they belong to the same silo number and are
both silo names or both hold names. -/
theorem C16_names_unique (nm : Names) (h : GoodNames nm) (u v : Nat) (a b : Bool) :
    siloFilename nm u a = siloFilename nm v b ↔ u = v ∧ a = b := by
  constructor
  · intro he
    obtain ⟨p, -, hp⟩ := filename_split nm u a
    obtain ⟨q, -, hq⟩ := filename_split nm v b
    rw [hp, hq] at he
    obtain ⟨-, e⟩ := slash_split (base_noslash h u a) (base_noslash h v b) he
    have hcnt := congrArg (List.count 46) e
    simp only [List.count_append, count_digits (zpad_digits nm.width u) (d := 46) (by decide),
      count_digits (zpad_digits nm.width v) (d := 46) (by decide)] at hcnt
    have hab : a = b := by
      cases a <;> cases b <;> first | rfl | (exfalso; revert hcnt; simp; done)
    subst hab
    refine ⟨?_, rfl⟩
    have e' := List.append_cancel_right e
    have e'' := List.append_cancel_left (List.append_cancel_right e')
    exact zpad_inj e''
  · rintro ⟨rfl, rfl⟩; rfl

example : GoodNames ⟨b!"/arc/", [], 8, b!".warc.gz"⟩ ∧
    siloFilename ⟨b!"/arc/", [], 8, b!".warc.gz"⟩ 12345 true = b!"/arc/2/01/23/00012345.warc.gz.hold" ∧
    siloFilename ⟨b!"/arc/", [], 8, b!".warc.gz"⟩ 7 false = b!"/arc/0/00000007.warc.gz" :=
  ⟨⟨by decide, by decide⟩, by decide, by decide⟩

/-- The directory part of a path, up to and including the last slash, is `d`. -/
def DirOf (path d : Bytes) : Prop := ∃ p x, d = p ++ [47] ∧ path = d ++ x ∧ 47 ∉ x

/-- C17: two silos are in the same directory exactly if their numbers agree after division by 100. -/
theorem C17_hundred_per_directory (nm : Names) (h : GoodNames nm) (u v : Nat) (d e : Bytes)
    (hd : DirOf (siloFilename nm u false) d) (he : DirOf (siloFilename nm v false) e) :
    d = e ↔ u / 100 = v / 100 := by
  have key : ∀ w d, DirOf (siloFilename nm w false) d → d = nm.dirname ++ numpart (w + 1) 0 w := by
    rintro w d ⟨p, x, rfl, h2, h3⟩
    obtain ⟨q, hq1, hq2⟩ := filename_split nm w false
    rw [hq2] at h2
    obtain ⟨e1, -⟩ := slash_split (base_noslash h w false) h3 h2
    rw [hq1, e1]
  rw [key u d hd, key v e he, List.append_cancel_left_eq, numpart0_eq (by omega) (by omega)]

/-- Every silo file has a directory part. -/
theorem C17_directory_exists (nm : Names) (h : GoodNames nm) (u : Nat) :
    DirOf (siloFilename nm u false) (siloDir nm u) := by
  obtain ⟨q, hq1, hq2⟩ := filename_split nm u false
  exact ⟨q, _, hq1, by rw [siloDir, hq1, hq2], base_noslash h u false⟩

example : siloDir ⟨b!"/arc/", [], 8, b!".warc.gz"⟩ 12345 = siloDir ⟨b!"/arc/", [], 8, b!".warc.gz"⟩ 12399 ∧
    siloDir ⟨b!"/arc/", [], 8, b!".warc.gz"⟩ 99 ≠ siloDir ⟨b!"/arc/", [], 8, b!".warc.gz"⟩ 100 := by decide

/-! ### C18 -/

/-- Visit silo numbers in order until the callback returns non-zero. -/
def visit {σ : Type} (f : σ → Nat → σ × Int) : List Nat → σ → σ
  | [], s => s
  | u :: us, s => if (f s u).2 = 0 then visit f us (f s u).1 else (f s u).1

/-- A silo exists: its path is a regular file. -/
def IsSilo (nm : Names) (stat : Bytes → Stat) (u : Nat) : Prop := stat (siloFilename nm u false) = .regular

instance (nm : Names) (stat : Bytes → Stat) (u : Nat) : Decidable (IsSilo nm stat u) := by
  unfold IsSilo; infer_instance

theorem siloIter_range {σ : Type} (nm : Names) (stat : Bytes → Stat) (f : σ → Nat → σ × Int) (fuel k u : Nat)
    (hfuel : k < fuel) (hdirs : ∀ v, u ≤ v → v < u + k → stat (siloDir nm v) ≠ .enoent)
    (hend : stat (siloDir nm (u + k)) = .enoent) (s : σ) :
    siloIter nm stat f fuel u s = visit f ((List.range' u k).filter (IsSilo nm stat)) s := by
  induction k generalizing fuel u s with
  | zero =>
    cases fuel with
    | zero => omega
    | succ fuel =>
      rw [siloIter, if_pos (by simpa using hend)]
      rfl
  | succ k ih =>
    cases fuel with
    | zero => omega
    | succ fuel =>
      rw [siloIter, if_neg (hdirs u (by omega) (by omega)), List.range'_succ]
      have ih' := ih fuel (u + 1) (by omega) (fun v h1 h2 => hdirs v (by omega) (by omega))
        (by rw [← hend]; congr 2; omega)
      by_cases hs : stat (siloFilename nm u false) = .regular
      · rw [if_pos hs, List.filter_cons_of_pos (by rw [decide_eq_true_eq]; exact hs), visit]
        split
        · exact ih' _
        · rfl
      · rw [if_neg hs, List.filter_cons_of_neg (by rw [decide_eq_true_eq]; exact hs)]
        exact ih' _

/-- C18: if a file can only exist in an existing directory and the silo directories have no gap
(no directory exists behind a missing one), and `n` is the first silo number without a directory,
then the iteration visits exactly the existing silos, each once, in ascending order, until the
callback asks to stop. -/
theorem C18_silo_iter {σ : Type} (nm : Names) (stat : Bytes → Stat) (f : σ → Nat → σ × Int) (s : σ) (n : Nat)
    (hn : n < 2 ^ 32)
    (hfile : ∀ u, IsSilo nm stat u → stat (siloDir nm u) ≠ .enoent)
    (hgap : ∀ u v, u ≤ v → stat (siloDir nm u) = .enoent → stat (siloDir nm v) = .enoent)
    (hmiss : stat (siloDir nm n) = .enoent) (hfirst : ∀ u, u < n → stat (siloDir nm u) ≠ .enoent) :
    ∃ l : List Nat, (∀ u, u ∈ l ↔ IsSilo nm stat u) ∧ l.Pairwise (· < ·) ∧
      siloIter nm stat f (2 ^ 32) 0 s = visit f l s := by
  refine ⟨(List.range' 0 n).filter (IsSilo nm stat), ?_, ?_, ?_⟩
  · intro u
    rw [List.mem_filter, List.mem_range'_1]
    simp only [decide_eq_true_eq, Nat.zero_le, true_and, Nat.zero_add]
    constructor
    · exact fun h => h.2
    · intro h
      refine ⟨?_, h⟩
      apply Nat.lt_of_not_le
      intro hle
      exact hfile u h (hgap n u hle hmiss)
  · exact List.Pairwise.sublist List.filter_sublist List.pairwise_lt_range'
  · exact siloIter_range nm stat f (2 ^ 32) n 0 hn (fun v _ h => hfirst v (by omega)) (by simpa using hmiss) s

/-- Without the no-gap condition silos are missed: silo 100 exists, directory 0 was removed. -/
theorem C18_counterexample_gap :
    let nm : Names := ⟨b!"/", [], 3, []⟩
    let stat : Bytes → Stat := fun p =>
      if p = b!"/1/01/" then .other else if p = b!"/1/01/100" then .regular else .enoent
    IsSilo nm stat 100 ∧ siloIter nm stat (fun (s : List Nat) u => (s ++ [u], 0)) 200 0 [] = [] := by
  decide

/-- The hypotheses of C18 hold for an archive with silos 0 and 2 in directory "/0/". -/
example :
    let nm : Names := ⟨b!"/", [], 3, []⟩
    let stat : Bytes → Stat := fun p =>
      if p = b!"/0/" then .other else if p = b!"/0/000" ∨ p = b!"/0/002" then .regular else .enoent
    siloIter nm stat (fun (s : List Nat) u => (s ++ [u], 0)) 200 0 [] = [0, 2] ∧
    stat (siloDir nm 100) = .enoent ∧ (∀ u, u < 100 → stat (siloDir nm u) ≠ .enoent) ∧
    (∀ u v, u ≤ v → stat (siloDir nm u) = .enoent → stat (siloDir nm v) = .enoent) ∧
    (∀ u, IsSilo nm stat u → stat (siloDir nm u) ≠ .enoent) := by
  intro nm stat
  have hg : GoodNames nm := ⟨by decide, by decide⟩
  have h0 : ∀ u, siloDir nm u = b!"/0/" ↔ u / 100 = 0 := by
    intro u
    have : b!"/0/" = siloDir nm 0 := by decide
    rw [this]
    exact C17_hundred_per_directory nm hg u 0 _ _ (C17_directory_exists nm hg u) (C17_directory_exists nm hg 0)
  have hdir : ∀ u, stat (siloDir nm u) = .enoent ↔ 0 < u / 100 := by
    intro u
    by_cases h : siloDir nm u = b!"/0/"
    · have h1 := (h0 u).1 h
      simp only [stat, h, if_true, h1, Nat.lt_irrefl, iff_false]
      decide
    · have h1 := mt (h0 u).2 h
      have hs : siloDir nm u ≠ b!"/0/000" ∧ siloDir nm u ≠ b!"/0/002" := by
        obtain ⟨p, x, h1, h2, h3⟩ := C17_directory_exists nm hg u
        constructor
        · intro hc
          rw [hc] at h1
          have := congrArg List.reverse h1
          simp at this
        · intro hc
          rw [hc] at h1
          have := congrArg List.reverse h1
          simp at this
      simp only [stat, h, hs.1, hs.2, if_false, or_self, true_iff]
      omega
  refine ⟨by decide, by decide, ?_, ?_, ?_⟩
  · intro u hu h
    rw [hdir] at h
    omega
  · intro u v huv h
    rw [hdir] at h ⊢
    omega
  · intro u hu h
    rw [hdir] at h
    unfold IsSilo at hu
    have e0 : siloFilename nm 0 false = b!"/0/000" := by decide
    have e2 : siloFilename nm 2 false = b!"/0/002" := by decide
    by_cases c0 : siloFilename nm u false = b!"/0/000"
    · rw [← e0, C16_names_unique nm hg] at c0
      omega
    · by_cases c2 : siloFilename nm u false = b!"/0/002"
      · rw [← e2, C16_names_unique nm hg] at c2
        omega
      · by_cases c3 : siloFilename nm u false = b!"/0/"
        · simp only [stat, c3, if_true] at hu
          cases hu
        · simp only [stat, c0, c2, c3, if_false, or_self] at hu
          cases hu

end Verif.Props
