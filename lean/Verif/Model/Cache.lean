/-
Model of the silo cache file (/repo/aardwarc.c, /repo/wsilo.c).
-/
import Verif.Basic.Res
import Verif.Basic.Bytes

namespace Verif.Cache
open Verif

/-- aardwarc.h: `cache_first_non_silo` and `cache_first_space_silo`, `uint32_t`. -/
structure Cache where
  firstNon : Nat
  firstSpace : Nat
  deriving DecidableEq, Repr

/-- aardwarc.c:164-186 `AardWARC_ReadCache`; `file` is the file's contents, if it can be opened. -/
def readCache (file : Option Bytes) (c : Cache) : Cache :=
  match file with
  | none => c
  | some b =>
    if (b.take 8).length = 8 then { firstNon := beDec (b.take 4), firstSpace := beDec ((b.drop 4).take 4) } else c

/-- aardwarc.c:188-210 `AardWARC_WriteCache`: the file is not truncated. -/
def writeCache (file : Option Bytes) (c : Cache) : Bytes :=
  beEnc 4 c.firstNon ++ beEnc 4 c.firstSpace ++ (file.getD []).drop 8

/-- wsilo.c:357-360 and 478-481: a silo was found, or made, at the number believed to be free. -/
def bumpNon (silono : Nat) (c : Cache) : Cache :=
  if silono = c.firstNon then { c with firstNon := (c.firstNon + 1) % 2 ^ 32 } else c

/-- wsilo.c:379-385: the silo is nearly full. -/
def bumpSpace (max size : Nat) (silono : Nat) (c : Cache) : Cache :=
  let ax : Int := (max : Int) - size
  let bx : Int := ((c.firstNon : Int) - c.firstSpace) % 2 ^ 32
  if silono = c.firstSpace ∧ ax < bx then { c with firstSpace := (c.firstSpace + 1) % 2 ^ 32 } else c

/-- What the storing functions do with the numbers: a silo of the given size is looked at for appending
(writable or not), or a silo is installed, or the file is read. -/
inductive Op where
  | look (silono size : Nat) (writable : Bool)
  | install (silono : Nat)
  | load (file : Option Bytes)

def apply (max : Nat) (c : Cache) : Op → Cache
  | .look n size w => if w then bumpSpace max size n (bumpNon n c) else bumpNon n c
  | .install n => bumpNon n c
  | .load f => readCache f c

/-- wsilo.c:194-210 `Wsilo_Next`: the first number for which `Wsilo_New` (wsilo.c:115-158) succeeds; the
loop is cut after `fuel` rounds. -/
def wsiloNext (silo hold : Nat → Bool) : (fuel : Nat) → (n : Nat) → Option Nat
  | 0, _ => none
  | fuel + 1, n => if silo n ∨ hold n then wsiloNext silo hold fuel (n + 1) else some n

end Verif.Cache
