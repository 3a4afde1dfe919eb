/-
Property C68: `mksilo` makes the silo asked for, and nothing else.
-/
import Verif.Proofs.Total
import Verif.Props.AuditArch
import Verif.Props.MainStore
import Verif.Model.Silo

namespace Verif.Props
open Verif Header Gzip Ident Index Wsilo Segjob Spec Inflate
open _root_.Verif.Commit (upd Silo)
open _root_.Verif.Mksilo (mksilo mainMksilo siloArg)

/-- C68: a decimal number is taken as it is. -/
theorem C68_number {n : Nat} (h : n < 2 ^ 32) : siloArg (dec n) = n := by
  rcases Nat.eq_zero_or_pos n with rfl | hp
  · decide
  · unfold siloArg
    rw [strtoul_dec hp (by omega)]
    exact Nat.mod_eq_of_lt h

/-- C68: what `mksilo` does: without a number, or if the silo or its hold file exists, nothing; otherwise the archive has exactly one
record more, the warcinfo record of the new silo.  It is complete, at the start of the silo and all of it, and in the index; the other silos and all hold files are as before. -/
theorem C68_mksilo {env : Env} (he : EnvOk env) {w w' : World} {ops : List IdxOp} {A : List Item} (ha : ArchInv env w ops A) (hl : Layout w.silos A)
    {args : List Bytes} {out : Mksilo.Out} (e : mainMksilo env w args = .ok (w', out)) :
    (out = .noNumber ∧ args = [] ∧ w' = w) ∨ ∃ t ts n, args = t :: ts ∧ n = siloArg t ∧ n < 2 ^ 32 ∧
      ((out = .couldNot ∧ w' = w ∧ (w.silos n ≠ none ∨ w.holds n = true)) ∨
      (out = .made ∧ w.silos n = none ∧ w.holds n = false ∧ w'.holds = w.holds ∧
        ∃ is y, ArchInv env w' (ops ++ is) (A ++ [y]) ∧ Layout w'.silos (A ++ [y]) ∧ InfoItem env y ∧ y.entry.silo = n ∧ y.entry.off = 0 ∧
          ∀ m, w'.silos m = if m = n then some ⟨y.record.bytes, true⟩ else w.silos m)) := by
  cases args with
  | nil => cases e; exact .inl ⟨rfl, rfl, rfl⟩
  | cons t ts =>
    have hn : siloArg t < 2 ^ 32 := Nat.mod_lt _ (by decide)
    refine .inr ⟨t, ts, _, rfl, rfl, hn, ?_⟩
    rcases mksilo_adds he ha hn e with h | ⟨h1, h2, h3, h4, is, y, a1, a2, a3, a4, a5, -, a6⟩
    · exact .inl h
    · exact .inr ⟨h1, h2, h3, h4, is, y, a1, lay_arch ha a6 hl, a2, a3, a4, fun m => by rw [a5]; rfl⟩

/-- C68: the silo is made whenever neither it nor its hold file exists and there is room for the warcinfo record. -/
theorem C68_makes {env : Env} (he : EnvOk env) {w : World} {n : Nat} (hn : n < 2 ^ 32) (hs : w.silos n = none) (hh : w.holds n = false)
    (hm : infoLen env n ≤ env.max) : ∃ w', mksilo env w n = .ok (w', .made) := by
  obtain ⟨ih, info, h1, -, h2⟩ := warcinfoNew_total he (sl := { no := n, idx := 0, hold := [], hd := ⟨[], []⟩, hdStart := 0, hdLen := 0, infoId := [] }) hn rfl hm
  obtain ⟨d, hd⟩ := idxInsert_total w.dir (i := { id := ih.id, flags := F_WARCINFO, silo := n, off := 0, cont := none })
    ⟨(infoHdr_ok he h1.1).2.1, (by show (2 : Nat) < 2 ^ 32; decide), hn, (by show (0 : Nat) < 2 ^ 63; decide), fun k hk => by cases hk⟩
  unfold mksilo Mksilo.wsiloNew
  rw [if_neg (by rw [hs, hh]; simp), h2]
  simp only [Res.ok_bind, Res.pure_eq]
  unfold Mksilo.wsiloInstall
  simp only [hd, Res.ok_bind, hs, decide_true, Res.check_true, Res.pure_eq]
  exact ⟨_, rfl⟩

/-- C68: `mksilo` asked for a second time refuses. -/
theorem C68_once {env : Env} {w w1 : World} {args : List Bytes} (e : mainMksilo env w args = .ok (w1, .made)) :
    mainMksilo env w1 args = .ok (w1, .couldNot) := by
  cases args with
  | nil => cases e
  | cons t ts =>
    rcases mksilo_inv e with ⟨h, -⟩ | ⟨-, -, -, -, ih, info, -, -, h7⟩
    · cases h
    · show mksilo env w1 (siloArg t) = _
      unfold mksilo Mksilo.wsiloNew
      rw [if_pos (Or.inl (by rw [h7]; unfold upd; rw [if_pos rfl]; rfl))]
      rfl

set_option maxRecDepth 1000000 in
/-- A silo made with the example's environment. -/
example : ∃ w, mainMksilo (Example.env 5000) emptyWorld [b!"3"] = .ok (w, .made) ∧ (w.silos 3).isSome = true ∧ (w.silos 0).isNone = true := by
  have h : (mainMksilo (Example.env 5000) emptyWorld [b!"3"] >>= fun r => .ok (r.2, (r.1.silos 3).isSome, (r.1.silos 0).isNone)) =
      .ok (Mksilo.Out.made, true, true) := by decide +kernel
  simp only [Res.bind_eq_ok, Res.ok.injEq, Prod.mk.injEq] at h
  obtain ⟨⟨w, o⟩, e, rfl, h1, h2⟩ := h
  exact ⟨w, e, h1, h2⟩

/-- C68 is false for a number written as in the name of the silo's file: digits behind a zero are octal, and what is no number is 0. -/
theorem C68_counterexample_octal : siloArg b!"00000010" = 8 ∧ siloArg b!"00000009" = 0 ∧ siloArg b!"x" = 0 ∧ siloArg b!"4294967296" = 0 := by decide

/-- The file system with the given silos, as `Silo_Iter` sees it. -/
def statOf (nm : Silo.Names) (ns : List Nat) (p : Bytes) : Silo.Stat :=
  if ns.any (fun n => Silo.siloFilename nm n false = p) then .regular
  else if ns.any (fun n => Silo.siloDir nm n = p) then .other else .enoent

set_option maxRecDepth 1000000 in
/-- C68, C18: a silo made with a number that leaves a directory out is in the index, but is not seen by what goes over all silos
(`audit`, `reindex`). -/
theorem C68_counterexample_gap : ∃ w, mainMksilo (Example.env 5000) emptyWorld [b!"100"] = .ok (w, .made) ∧ (∀ n, w.silos n ≠ none ↔ n ∈ [100]) ∧
    Silo.siloIter ⟨b!"/", [], 8, b!".warc.gz"⟩ (statOf ⟨b!"/", [], 8, b!".warc.gz"⟩ [100]) (fun (s : List Nat) u => (s ++ [u], 0)) 200 0 [] = [] := by
  have h : (mainMksilo (Example.env 5000) emptyWorld [b!"100"] >>= fun r => .ok r.2) = .ok Mksilo.Out.made := by decide +kernel
  simp only [Res.bind_eq_ok, Res.ok.injEq] at h
  obtain ⟨⟨w, o⟩, e, rfl⟩ := h
  refine ⟨w, e, ?_, by decide⟩
  rcases mksilo_inv e with ⟨h, -⟩ | ⟨-, -, -, -, ih, info, -, -, h7⟩
  · cases h
  · intro n
    rw [h7, List.mem_singleton]
    have h100 : siloArg b!"100" = 100 := by decide
    rw [h100]
    unfold upd
    by_cases hn : n = 100
    · simp [hn]
    · rw [if_neg hn]
      simp [hn, emptyWorld]

end Verif.Props
