/-
Model of the output of /repo/main_get.c: `fopen(3)`, `fwrite(3)` and `exit(3)` for a file or a pipe, as in FreeBSD's libc (fvwrite.c
`__sfvwrite`, fflush.c `__sflush`, findfp.c `_cleanup`), where the stream is fully buffered.
-/
import Verif.Model.Getjob

namespace Verif.Stdio
open Verif

/-- What a call of `write(2)` does: an error, or `k + 1` bytes are written, or all if there are less. -/
inductive Wr where
  | error
  | some (k : Nat)
  deriving DecidableEq, Repr

/-- A stream: what the file has, what is in the buffer, and the results of the next calls of `write(2)`; those behind the end of the list
write everything. -/
structure Stream where
  disk : Bytes
  buf : Bytes
  next : List Wr
  deriving DecidableEq, Repr

/-- `write(2)`: how many bytes were written, 0 for an error. -/
def sysWrite (b : Bytes) (s : Stream) : Nat × Stream :=
  match s.next with
  | [] => (b.length, { s with disk := s.disk ++ b })
  | .error :: ws => (0, { s with next := ws })
  | .some k :: ws => (min (k + 1) b.length, { s with disk := s.disk ++ b.take (k + 1), next := ws })

/-- fflush.c `__sflush`: `write(2)` until nothing is in the buffer, or an error.  Each round writes a byte, so `fuel` may be the size of what
is in the buffer. -/
def flush : (fuel : Nat) → Stream → Stream × Bool
  | 0, s => (s, decide (s.buf = []))
  | fuel + 1, s =>
    if s.buf = [] then (s, true)
    else
      let r := sysWrite s.buf s
      if r.1 = 0 then (r.2, false) else flush fuel { r.2 with buf := s.buf.drop r.1 }

/-- fvwrite.c `__sfvwrite`, fully buffered, with a buffer of `size` bytes: is there something in the buffer and `p` does not go into it,
then the buffer is filled and flushed; if `p` has as much as the buffer takes, then this much is written directly; else it goes to the buffer.
The result says whether all was taken. -/
def fwrite (size : Nat) : (fuel : Nat) → (p : Bytes) → Stream → Stream × Bool
  | 0, p, s => (s, decide (p = []))
  | fuel + 1, p, s =>
    if p = [] then (s, true)
    else if s.buf ≠ [] ∧ size - s.buf.length < p.length then
      let w := size - s.buf.length
      let r := flush size { s with buf := s.buf ++ p.take w }
      if r.2 then fwrite size fuel (p.drop w) r.1 else r
    else if size ≤ p.length then
      let r := sysWrite (p.take size) s
      if r.1 = 0 then (r.2, false) else fwrite size fuel (p.drop r.1) r.2
    else ({ s with buf := s.buf ++ p }, true)

/-- How `get` ends: with status 0, or with an assertion failure, and what is in the file then. -/
inductive End where
  | exit (disk : Bytes)
  | abort (disk : Bytes)
  | crash
  deriving DecidableEq, Repr

/-- main_get.c:70-81 `get_iter` for each piece of the object, and main_get.c:191, main.c: the return from `main`, where `exit(3)` flushes the stream
and takes no notice of errors.  After an assertion failure `abort(3)` does not flush.  Two rounds are enough for a byte. -/
def getPieces (size : Nat) : List Bytes → Stream → End
  | [], s => .exit (flush s.buf.length s).1.disk
  | p :: ps, s =>
    let r := fwrite size (2 * p.length + 1) p s
    if r.2 then getPieces size ps r.1 else .abort r.1.disk

/-- main_get.c:130-137: with `-o` the file is made, and the result of `fopen(3)` is not looked at; a write to a stream that is not there is a
crash.  Without `-n` every object has a piece (getjob.c:223-274), maybe an empty one. -/
def getOutput (size : Nat) (canOpen : Bool) (next : List Wr) (pieces : List Bytes) : End :=
  if canOpen = false then (if pieces = [] then .exit [] else .crash) else getPieces size pieces { disk := [], buf := [], next := next }

/-- main_get.c:70-81 `get_iter` as a callback of `GetJob_Iter`; the state says also whether the assertion has held so far. -/
def getIter (size : Nat) (s : Stream × Bool) (d : Bytes) : (Stream × Bool) × Int :=
  if s.2 then (fwrite size (2 * d.length + 1) d s.1, 0) else (s, 0)

/-- main_get.c:158-191 for a file that can be opened: the end of `get`, without the checks of the digest and of the length (`selfCheck`). -/
def getFile (ps : Nat) (cut : Bytes → List Bytes) (gj : Getjob.GJ) (zip : Bool) (size : Nat) (next : List Wr) : Res End := do
  let r ← Getjob.getjobIterate ps cut gj (getIter size) ({ disk := [], buf := [], next := next }, true) zip
  return if r.2 then .exit (flush r.1.buf.length r.1).1.disk else .abort r.1.disk

end Verif.Stdio
