/-
C104: going over the silos of an archive visits each of them or says that it cannot.
-/
import Verif.Model.SiloErr
import Verif.Props.Silo

namespace Verif.Props.SiloFaults
open Verif Verif.Silo Verif.SiloErr

/-- From the number `u` on, with `k` directories before the first that is not there. -/
theorem run_range {σ : Type} (nm : Names) (stat : Bytes → Stat) (f : σ → Nat → σ × Int) (fuel k u : Nat)
    (hfuel : k < fuel) (h32 : u + k < 2 ^ 32)
    (hdirs : ∀ v, u ≤ v → v < u + k → stat (siloDir nm v) ≠ .enoent)
    (hend : stat (siloDir nm (u + k)) = .enoent) (s : σ) :
    run nm stat f fuel u s = some (visit f ((List.range' u k).filter (IsSilo nm stat)) s, 0) := by
  induction k generalizing fuel u s with
  | zero =>
    cases fuel with
    | zero => omega
    | succ fuel =>
      rw [run, round, if_pos (by simpa using hend)]
      rfl
  | succ k ih =>
    cases fuel with
    | zero => omega
    | succ fuel =>
      have hu : (u + 1) % 2 ^ 32 = u + 1 := Nat.mod_eq_of_lt (by omega)
      rw [run, round, if_neg (hdirs u (by omega) (by omega)), List.range'_succ, hu]
      have ih' := ih fuel (u + 1) (by omega) (by omega) (fun v h1 h2 => hdirs v (by omega) (by omega))
        (by rw [← hend]; congr 2; omega)
      by_cases hs : stat (siloFilename nm u false) = .regular
      · rw [if_pos hs, List.filter_cons_of_pos (by rw [decide_eq_true_eq]; exact hs), visit]
        by_cases hz : (f s u).2 = 0
        · rw [if_pos hz, if_pos hz]
          exact ih' _
        · rw [if_neg hz, if_neg hz]
      · rw [if_neg hs, List.filter_cons_of_neg (by rw [decide_eq_true_eq]; exact hs)]
        exact ih' _

/-- C104: the loop ends if there is a number without a directory; it has then visited, in ascending
order and until the callback asked to stop, those numbers below the first such number for which
stat(2) says that there is a regular file.  It returns 0, whatever the callback has returned. -/
theorem C104_visits_partial {σ : Type} (nm : Names) (stat : Bytes → Stat) (f : σ → Nat → σ × Int) (s : σ)
    (n : Nat) (hn : n < 2 ^ 32) (hmiss : stat (siloDir nm n) = .enoent)
    (hfirst : ∀ u, u < n → stat (siloDir nm u) ≠ .enoent) :
    ∃ l : List Nat, (∀ u, u ∈ l ↔ u < n ∧ stat (siloFilename nm u false) = .regular) ∧
      l.Pairwise (· < ·) ∧ ∀ fuel, n < fuel → run nm stat f fuel 0 s = some (visit f l s, 0) := by
  refine ⟨(List.range' 0 n).filter (IsSilo nm stat), ?_, ?_, ?_⟩
  · intro u
    rw [List.mem_filter, List.mem_range'_1]
    rw [decide_eq_true_eq]
    simp [IsSilo]
  · exact List.Pairwise.sublist List.filter_sublist List.pairwise_lt_range'
  · intro fuel hf
    exact run_range nm stat f fuel n 0 hf (by omega) (fun v _ h => hfirst v (by omega)) (by simpa using hmiss) s

/-- C104: when every silo up to the first missing directory can be looked at, each of them is
visited: a number is left out only if there is nothing, or no regular file, of its name. -/
theorem C104_fine {σ : Type} (nm : Names) (stat : Bytes → Stat) (f : σ → Nat → σ × Int) (s : σ)
    (n : Nat) (hn : n < 2 ^ 32) (hmiss : stat (siloDir nm n) = .enoent)
    (hfirst : ∀ u, u < n → stat (siloDir nm u) ≠ .enoent)
    (hok : ∀ u, u < n → stat (siloFilename nm u false) ≠ .otherError) :
    ∃ l : List Nat, (∀ u, u < n → (u ∉ l ↔ stat (siloFilename nm u false) = .enoent ∨
        stat (siloFilename nm u false) = .other)) ∧ (∀ u ∈ l, u < n) ∧
      l.Pairwise (· < ·) ∧ ∀ fuel, n < fuel → run nm stat f fuel 0 s = some (visit f l s, 0) := by
  obtain ⟨l, h1, h2, h3⟩ := C104_visits_partial nm stat f s n hn hmiss hfirst
  refine ⟨l, ?_, fun u hu => ((h1 u).1 hu).1, h2, h3⟩
  intro u hu
  have := hok u hu
  rw [h1 u]
  cases h : stat (siloFilename nm u false) <;> simp_all

/-- C104 is false: a silo that stat(2) cannot look at is taken for one that is not there.  Whatever
is done with the silos, it comes to the same in an archive without the silo. -/
theorem C104_skipped {σ : Type} (nm : Names) (stat stat' : Bytes → Stat) (f : σ → Nat → σ × Int)
    (hdirs : ∀ u, stat (siloDir nm u) = .enoent ↔ stat' (siloDir nm u) = .enoent)
    (hsame : ∀ u, stat' (siloFilename nm u false) = stat (siloFilename nm u false) ∨
      (stat (siloFilename nm u false) = .otherError ∧ stat' (siloFilename nm u false) = .enoent))
    (fuel u : Nat) (s : σ) : run nm stat' f fuel u s = run nm stat f fuel u s := by
  induction fuel generalizing u s with
  | zero => rfl
  | succ fuel ih =>
    have hr : round nm stat' f u s = round nm stat f u s := by
      unfold round
      have e : (stat' (siloFilename nm u false) = .regular) ↔ stat (siloFilename nm u false) = .regular := by
        rcases hsame u with h | ⟨h, h'⟩
        · rw [h]
        · rw [h, h']; simp
      simp only [hdirs u, e]
    rw [run, run, hr]
    cases round nm stat f u s with
    | done s r => rfl
    | next v t => exact ih v t

/-- C104 is false: while the directories cannot be looked at for another reason than that they are
not there, as when the archive may not be searched, the loop does not end at all; it begins
again behind the last number. -/
theorem C104_endless {σ : Type} (nm : Names) (stat : Bytes → Stat) (f : σ → Nat → σ × Int) (s : σ)
    (hdirs : ∀ u, u < 2 ^ 32 → stat (siloDir nm u) = .otherError)
    (hfiles : ∀ u, u < 2 ^ 32 → stat (siloFilename nm u false) = .otherError) (fuel : Nat) :
    run nm stat f fuel 0 s = none := by
  have key : ∀ fuel u, u < 2 ^ 32 → run nm stat f fuel u s = none := by
    intro fuel
    induction fuel with
    | zero => intros; rfl
    | succ fuel ih =>
      intro u hu
      have hr : round nm stat f u s = .next ((u + 1) % 2 ^ 32) s := by
        rw [round, hdirs u hu, hfiles u hu]
        simp
      rw [run, hr]
      exact ih _ (Nat.mod_lt _ (by omega))
  exact key fuel 0 (by omega)

/-- C104: exactly then does the loop end for a callback that never asks to stop: if some number has
no directory. -/
theorem C104_ends_iff {σ : Type} (nm : Names) (stat : Bytes → Stat) (f : σ → Nat → σ × Int) (s : σ)
    (hf : ∀ s u, (f s u).2 = 0) :
    (∃ fuel, (run nm stat f fuel 0 s).isSome) ↔ ∃ n, n < 2 ^ 32 ∧ stat (siloDir nm n) = .enoent := by
  constructor
  · rintro ⟨fuel, h⟩
    have key : ∀ fuel u s, u < 2 ^ 32 → (run nm stat f fuel u s).isSome →
        ∃ n, n < 2 ^ 32 ∧ stat (siloDir nm n) = .enoent := by
      intro fuel
      induction fuel with
      | zero => intro u s _ h; simp [run] at h
      | succ fuel ih =>
        intro u s hu h
        by_cases hd : stat (siloDir nm u) = .enoent
        · exact ⟨u, hu, hd⟩
        · have hr : ∃ t, round nm stat f u s = .next ((u + 1) % 2 ^ 32) t := by
            rw [round, if_neg hd, if_pos (hf s u)]
            split
            · exact ⟨_, rfl⟩
            · exact ⟨_, rfl⟩
          obtain ⟨t, ht⟩ := hr
          rw [run, ht] at h
          exact ih _ t (Nat.mod_lt _ (by omega)) h
    exact key fuel 0 s (by omega) h
  · rintro ⟨n, hn, hd⟩
    have : ∃ k, k ≤ n ∧ stat (siloDir nm k) = .enoent ∧ ∀ u, u < k → stat (siloDir nm u) ≠ .enoent := by
      clear hn
      induction n using Nat.strongRecOn with
      | _ n ih =>
        by_cases hx : ∃ m, m < n ∧ stat (siloDir nm m) = .enoent
        · obtain ⟨m, hm, hd'⟩ := hx
          obtain ⟨k, h1, h2⟩ := ih m hm hd'
          exact ⟨k, by omega, h2⟩
        · exact ⟨n, Nat.le_refl _, hd, fun u hu hc => hx ⟨u, hu, hc⟩⟩
    obtain ⟨k, hk, hd', hfirst⟩ := this
    obtain ⟨l, -, -, h⟩ := C104_visits_partial nm stat f s k (by omega) hd' hfirst
    exact ⟨k + 1, by rw [h (k + 1) (by omega)]; rfl⟩

/-- The file system of the examples: directory "/0/" with the silos 0, 1 and 2; `x` is what stat(2)
says of silo 1. -/
def exStat (x : Stat) (p : Bytes) : Stat :=
  if p = b!"/0/000" ∨ p = b!"/0/002" then .regular else if p = b!"/0/001" then x
  else if p = b!"/1/01/" then .enoent else .other

/-- Of the three silos only two are visited if stat(2) fails for the one between them, and the
value that is returned is the same. -/
theorem C104_counterexample :
    run ⟨b!"/", [], 3, []⟩ (exStat .regular) (fun (s : List Nat) u => (s ++ [u], 0)) 101 0 [] =
      some ([0, 1, 2], 0) ∧
    run ⟨b!"/", [], 3, []⟩ (exStat .otherError) (fun (s : List Nat) u => (s ++ [u], 0)) 101 0 [] =
      some ([0, 2], 0) := by
  decide +kernel

/-- The callback asks to stop at silo 1, with -1: silo 2 is not visited, and 0 is returned. -/
example :
    run ⟨b!"/", [], 3, []⟩ (exStat .regular) (fun (s : List Nat) u => (s ++ [u], if u = 1 then -1 else 0)) 101 0 [] =
      some ([0, 1], 0) := by
  decide +kernel

/-- The hypotheses of `C104_fine` and `C104_visits_partial` hold in the examples. -/
example : (∀ u, u < 100 → exStat .regular (siloDir ⟨b!"/", [], 3, []⟩ u) ≠ .enoent) ∧
    exStat .regular (siloDir ⟨b!"/", [], 3, []⟩ 100) = .enoent ∧
    (∀ u, u < 100 → exStat .regular (siloFilename ⟨b!"/", [], 3, []⟩ u false) ≠ .otherError) := by
  decide +kernel

/-- An archive that may not be searched: the hypotheses of `C104_endless` hold. -/
example : run ⟨b!"/", [], 3, []⟩ (fun _ => .otherError) (fun (s : List Nat) u => (s ++ [u], 0)) 1000 0 [] = none :=
  C104_endless _ _ _ _ (fun _ _ => rfl) (fun _ _ => rfl) _

end Verif.Props.SiloFaults
