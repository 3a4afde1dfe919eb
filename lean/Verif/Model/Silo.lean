/-
Model of /repo/silo.c: silo file names and iteration over the archive.
-/
import Verif.Basic.CStr

namespace Verif.Silo
open Verif

/-- `%0Nu`: decimal digits, zero-filled to the width. -/
def zpad (w n : Nat) : Bytes := List.replicate (w - (dec n).length) 48 ++ dec n

/-- The configuration (aardwarc.c:100-134): directory ending in '/', and the `silo.basename`
pattern, here restricted to a text, one `%0Nu` and a text. -/
structure Names where
  dirname : Bytes
  pre : Bytes
  width : Nat
  post : Bytes

/-- silo.c:57-66 `numpart`.  The fuel bounds the recursion, `num + 1` is plenty. -/
def numpart : (fuel : Nat) → (lvl num : Nat) → Bytes
  | 0, _, _ => []
  | fuel + 1, lvl, num =>
    (if num ≥ 100 then numpart fuel (lvl + 1) (num / 100) else dec lvl ++ b!"/") ++
    (if lvl > 0 then zpad 2 (num % 100) ++ b!"/" else [])

/-- silo.c:76-77, 98-100: the directory of a silo. -/
def siloDir (nm : Names) (number : Nat) : Bytes := nm.dirname ++ numpart (number + 1) 0 number

/-- silo.c:68-83 `Silo_Filename`. -/
def siloFilename (nm : Names) (number : Nat) (hold : Bool) : Bytes :=
  siloDir nm number ++ (nm.pre ++ zpad nm.width number ++ nm.post) ++ (if hold then b!".hold" else [])

/-- What `stat(2)` says about a path. -/
inductive Stat where
  | enoent | otherError | regular | other
  deriving DecidableEq, Repr

/-- silo.c:85-113 `Silo_Iter`: `f` is the callback with its private state.  The loop over the 32-bit
silo number is cut after `fuel` rounds. -/
def siloIter {σ : Type} (nm : Names) (stat : Bytes → Stat) (f : σ → Nat → σ × Int) :
    (fuel : Nat) → (u : Nat) → σ → σ
  | 0, _, s => s
  | fuel + 1, u, s =>
    if stat (siloDir nm u) = .enoent then s
    else if stat (siloFilename nm u false) = .regular then
      if (f s u).2 = 0 then siloIter nm stat f fuel (u + 1) (f s u).1 else (f s u).1
    else siloIter nm stat f fuel (u + 1) s

end Verif.Silo
