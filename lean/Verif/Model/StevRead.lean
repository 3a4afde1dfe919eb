/-
Model of the loops of /repo/main_stevedore.c `input` that read the rest of a message, with calls of `read(2)` that fail.
-/
import Verif.Basic.Bytes
import Verif.Basic.Res

namespace Verif.StevRead
open Verif

/-- What a call of `read(2)` does: it fails, or returns `k + 1` bytes, or less if less are asked for or there are less. -/
inductive Rd where
  | error
  | some (k : Nat)
  deriving DecidableEq, Repr

/-- How the loop ends: the client has gone away, or the buffer and what is still in the pipe. -/
inductive Got where
  | eof
  | done (buf rest : Bytes)
  deriving DecidableEq, Repr

/-- What `read(2)` puts into memory at `j`. -/
def put (buf : Bytes) (j : Nat) (b : Bytes) : Bytes := buf.take j ++ b ++ buf.drop (j + b.length)

/-- main_stevedore.c:337-345 (and the same 386-393): the loop, with `j` an `unsigned`, to which the -1 of a failed call is added; `stream` is
what the client has sent and will send until it goes away.  A call that is not in the list returns all that is asked for, if it is there;
if it is not, the next one returns 0. -/
def readLoop (size : Nat) (buf : Bytes) : List Rd → (j : Nat) → (stream : Bytes) → Res Got
  | [], j, s =>
    if size ≤ j then .ok (.done buf s)
    else if s.length < size - j then .ok .eof
    else do
      Res.access (decide (size ≤ buf.length))
      return .done (put buf j (s.take (size - j))) (s.drop (size - j))
  | .error :: rs, j, s =>
    if size ≤ j then .ok (.done buf s) else readLoop size buf rs ((j + (2 ^ 32 - 1)) % 2 ^ 32) s
  | .some k :: rs, j, s =>
    if size ≤ j then .ok (.done buf s)
    else if s = [] then .ok .eof
    else do
      let b := (s.take (size - j)).take (k + 1)
      Res.access (decide (j + b.length ≤ buf.length))
      readLoop size (put buf j b) rs ((j + b.length) % 2 ^ 32) (s.drop b.length)

/-- main_stevedore.c:334-348: the ID of a PROTO_FILTER message, in the 66 bytes of `fp->id` (main_stevedore.c:70), which are 0 at first. -/
def filterId (idSize size : Nat) (rs : List Rd) (s : Bytes) : Res Got :=
  if size = 0 then .ok (.done (List.replicate 66 0) s)
  else do
    Res.check (decide (idSize ≤ size ∧ size ≤ 64))
    let r ← readLoop size (List.replicate 66 0) rs 0 s
    match r with
    | .eof => .ok .eof
    | .done buf rest => .ok (.done (put buf size [10, 0]) rest)

/-- main_stevedore.c:420-431: the loop for a message with an unknown command, which throws its bytes away; -1 is subtracted from the `unsigned`
size. -/
def skipLoop : List Rd → (size : Nat) → (stream : Bytes) → Bytes
  | [], size, s => s.drop size
  | .error :: rs, size, s => if size = 0 then s else skipLoop rs ((size + 1) % 2 ^ 32) s
  | .some k :: rs, size, s =>
    if size = 0 then s
    else if s = [] then []
    else
      let n := min (k + 1) (min (min size 8192) s.length)
      skipLoop rs (size - n) (s.drop n)

end Verif.StevRead
