/-
Model of /repo/wsilo.c:82-111 `silo_mkparentdir`.
-/
import Verif.Model.Silo

namespace Verif.MkParent
open Verif Silo

/-- The file system as seen by the function: `stat(2)` and `mkdir(2)` on a state.  The new state
and the return value of `mkdir` are arbitrary. -/
structure FS (σ : Type) where
  stat : σ → Bytes → Stat
  mkdir : σ → Bytes → σ × Int

/-- `strrchr(p, '/')` and cutting there: the part before the last slash. -/
def beforeSlash : Bytes → Option Bytes
  | [] => none
  | c :: cs =>
    match beforeSlash cs with
    | some p => some (c :: p)
    | none => if c = 47 then some [] else none

/-- wsilo.c:106-110, the check after `stat`. -/
def finish {σ : Type} (fs : FS σ) (s : σ) (p : Bytes) : σ × Int :=
  match fs.stat s p with
  | .regular => (s, -1)
  | .other => (s, 0)
  | _ => (s, 0)

/-- wsilo.c:98-105, what is done after the recursive call. -/
def afterParent {σ : Type} (fs : FS σ) (p : Bytes) (r : σ × Int) : σ × Int :=
  if r.2 < 0 then r
  else if (fs.mkdir r.1 p).2 < 0 then fs.mkdir r.1 p
  else finish fs (fs.mkdir r.1 p).1 p

/-- wsilo.c:82-111 `silo_mkparentdir`: `none` means that `fuel` levels of recursion were not enough.
In `Stat`, `.other` stands for a directory. -/
def mkparent {σ : Type} (fs : FS σ) : (fuel : Nat) → σ → Bytes → Option (σ × Int)
  | 0, _, _ => none
  | fuel + 1, s, path =>
    if beforeSlash path = some [] then some (s, 0)
    else
      let p := (beforeSlash path).getD path
      if fs.stat s p = .enoent then (mkparent fs fuel s p).map (afterParent fs p)
      else some (finish fs s p)

end Verif.MkParent
