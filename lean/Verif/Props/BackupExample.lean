/-
Examples and counterexamples for C76.
-/
import Verif.Props.BackupPlan

namespace Verif.Props

open Backup

/-- Keys for the examples. -/
def toySecrets : Bytes :=
  b!"000102030405060708090a0b0c0d0e0f101112131415161718191a1b1c1d1e1f\n00112233445566778899aabbccddeeff\n"

/-- A run with a quota at a time. -/
def toyEnv (quota tm : Nat) : Env := ⟨toyCrypto, toySecrets, quota, b!"/st", fun i => tm + i⟩

/-- Files in one directory; the contents are as long as `os.stat` says. -/
def toyWorld (l : List (Bytes × Bytes)) : World where
  files := l.map (fun x => (b!"/s", x.1))
  stat p := ((l.find? (fun x => decide (join b!"/s" x.1 = p))).map (fun x => x.2.length)).getD 0
  read p := ((l.find? (fun x => decide (join b!"/s" x.1 = p))).map (fun x => x.2)).getD []

def toySilos : World := toyWorld
  [(b!"00000001.warc.gz", b!"123"), (b!"readme", b!"1"), (b!"00000000.warc.gz", b!"1234567"),
   (b!"00000002.warc.gz", b!"12345")]

/-- The names of the files of the runs. -/
def stagedNames (r : Res (List Out)) : Res (List (List Bytes)) := do
  let l ← r
  pure (l.map (fun o => (o.files.map File.name).filter (fun n => b!".bin".isSuffixOf n)))

/-- Three runs with a quota of 9 bytes stage the three silos: the largest one, then the other
    two, and then it starts again. -/
example : stagedNames (runsFrom (fun k => toyEnv 9 (1000 + 10 * k)) (fun _ => toySilos) 0 3 none) =
    .ok [[b!"/st/00000000.warc.gz.bin"],
      [b!"/st/00000002.warc.gz.bin", b!"/st/00000001.warc.gz.bin"],
      [b!"/st/00000000.warc.gz.bin"]] := by
  decide +kernel

/-- What the first run writes in `silodates.txt`. -/
example : (main (toyEnv 9 1000) toySilos none).bind (fun o => .ok o.dates) =
    .ok b!"00000000.warc.gz 1.000 7\n00000001.warc.gz 0.000 0\n00000002.warc.gz 0.000 0\n" := by
  decide +kernel

/-- The hypotheses of `C76_eventually_partial` can be met. -/
example : ∃ outs, runsFrom (fun k => toyEnv 9 (1000 + 10 * k)) (fun _ => toySilos) 0 3 none = .ok outs ∧
    ∀ x ∈ toySilos.files, b!".warc.gz" <:+ x.2 →
      ∃ k o, outs[k]? = some o ∧ Offered (toyEnv 9 (1000 + 10 * k)) toySilos o x.1 x.2 := by
  refine C76_eventually_partial (fun k => toyEnv 9 (1000 + 10 * k)) (fun _ => toySilos)
    toySilos.files toySilos.stat 9 1000 none [] 3 (fun _ => rfl) (fun _ => rfl) (fun _ => rfl)
    (fun k => ⟨⟨_, _⟩, rfl⟩) (by decide +kernel) (by decide +kernel) (by decide +kernel) ?_
    (by decide) rfl (by decide) (by simp) (by simp) (by decide +kernel)
  intro k i
  show 1000 ≤ 1000 + 10 * k + i
  omega

/-- `silodates.txt` after a run that stages nothing. -/
def toyStuck : Bytes :=
  b!"00000000.warc.gz 0.000 0\n00000001.warc.gz 0.000 0\n00000002.warc.gz 0.000 0\n"

/-- C76, a part that fails.  If one silo is larger than the quota, then no run ever stages
    anything, however many there are: the loop stops at the first silo that does not fit, and the
    largest one that was never staged is always the first. -/
theorem C76_counterexample_large (n : Nat) :
    runsFrom (fun k => toyEnv 6 (1000 + 10 * k)) (fun _ => toySilos) 0 n none =
      .ok (List.replicate n ⟨[], toyStuck⟩) := by
  have h : ∀ k, main (toyEnv 6 (1000 + 10 * k)) toySilos (some toyStuck) = .ok ⟨[], toyStuck⟩ := by
    intro k
    generalize 1000 + 10 * k = t
    have hd : load (some toyStuck) = .ok [⟨b!"00000000.warc.gz", 0, 0, 0, none⟩,
        ⟨b!"00000001.warc.gz", 0, 0, 0, none⟩, ⟨b!"00000002.warc.gz", 0, 0, 0, none⟩] := by
      decide +kernel
    have hw : sortSilos before (walk toySilos toySilos.files [⟨b!"00000000.warc.gz", 0, 0, 0, none⟩,
        ⟨b!"00000001.warc.gz", 0, 0, 0, none⟩, ⟨b!"00000002.warc.gz", 0, 0, 0, none⟩]) =
        [⟨b!"00000000.warc.gz", 7, 0, 0, some b!"/s/00000000.warc.gz"⟩,
         ⟨b!"00000002.warc.gz", 5, 0, 0, some b!"/s/00000002.warc.gz"⟩,
         ⟨b!"00000001.warc.gz", 3, 0, 0, some b!"/s/00000001.warc.gz"⟩] := by
      decide +kernel
    have hq : (toyEnv 6 t).quota < 0 + 7 := by
      show 6 < 7
      decide
    simp only [main, hd, Res.ok_bind, hw, stage, hq, if_true, Res.pure_eq]
    decide +kernel
  have hs : ∀ n k, runsFrom (fun k => toyEnv 6 (1000 + 10 * k)) (fun _ => toySilos) k n (some toyStuck) =
      .ok (List.replicate n ⟨[], toyStuck⟩) := by
    intro n
    induction n with
    | zero => intro k; rfl
    | succ n ih =>
      intro k
      simp only [runsFrom, h k, Res.ok_bind, ih, Res.pure_eq]
      rfl
  cases n with
  | zero => rfl
  | succ n =>
    have h0 : main (toyEnv 6 (1000 + 10 * 0)) toySilos none = .ok ⟨[], toyStuck⟩ := by
      decide +kernel
    simp only [runsFrom, h0, Res.ok_bind, hs, Res.pure_eq]
    rfl

/-- C76, a part that fails.  A silo of `silodates.txt` that is no longer there has no path: the
    run ends with an exception before anything is recorded, and so does every later one. -/
theorem C76_counterexample_gone :
    main (toyEnv 100 1000) toySilos (some b!"00000009.warc.gz 5.000 100\n") = .fail := by
  decide +kernel

/-- C76, a part that fails.  After a silo with a blank in its name was found, the next run
    cannot read `silodates.txt`. -/
theorem C76_counterexample_blank :
    (main (toyEnv 100 1000) (toyWorld [(b!"copy of.warc.gz", b!"123")]) none).bind
      (fun o => .ok o.dates) = .ok b!"copy of.warc.gz 1.000 3\n" ∧
    main (toyEnv 100 2000) (toyWorld [(b!"copy of.warc.gz", b!"123")])
      (some b!"copy of.warc.gz 1.000 3\n") = .fail := by
  constructor <;> decide +kernel

end Verif.Props
