/-
Model of /repo/silo.c, `Silo_Iter`, when calls of stat(2) fail, and as a loop that need not end.
-/
import Verif.Model.Silo

namespace Verif.SiloErr
open Verif Verif.Silo

/-- What one round of the loop of `Silo_Iter` comes to: it ends, with the state of the callback and
the value that is returned, or goes on with the next number. -/
inductive Round (σ : Type) where
  | done (s : σ) (ret : Int)
  | next (u : Nat) (s : σ)

/-- silo.c:96-111, one round of the loop for the number `u`.  `stat` is the file system, which does
not change.  The number is a `uint32_t`: behind the last one comes 0.  What the callback returned
is not handed on (silo.c:112). -/
def round {σ : Type} (nm : Names) (stat : Bytes → Stat) (f : σ → Nat → σ × Int) (u : Nat) (s : σ) :
    Round σ :=
  if stat (siloDir nm u) = .enoent then .done s 0
  else if stat (siloFilename nm u false) = .regular then
    if (f s u).2 = 0 then .next ((u + 1) % 2 ^ 32) (f s u).1 else .done (f s u).1 0
  else .next ((u + 1) % 2 ^ 32) s

/-- silo.c:85-113 `Silo_Iter`, at most `fuel` rounds of it from the number `u`; `none`: it is still
running then. -/
def run {σ : Type} (nm : Names) (stat : Bytes → Stat) (f : σ → Nat → σ × Int) :
    (fuel : Nat) → (u : Nat) → σ → Option (σ × Int)
  | 0, _, _ => none
  | fuel + 1, u, s =>
    match round nm stat f u s with
    | .done s r => some (s, r)
    | .next u s => run nm stat f fuel u s

end Verif.SiloErr
