/-
Model of the opening of a file in /repo/main_stow.c: `stevedore_out` turns the names that mtree printed into a path, with
`strnunvis(3)` of FreeBSD's libc (contrib/libc-vis/unvis.c, which is not in /repo), called without flags.
-/
import Verif.Model.Rsilo

namespace Verif.Unvis
open Verif
open _root_.Verif.Rsilo (cstr)

/-- The states of `unvis(3)` that can be reached without flags; with the value so far. -/
inductive State where
  | ground | start | high | high1
  | ctrl (v : UInt8)
  | octal2 (v : UInt8)
  | octal3 (v : UInt8)
  | hex
  | hex1 (v : UInt8)
  deriving DecidableEq, Repr

def isOct (c : UInt8) : Bool := decide (48 ≤ c ∧ c ≤ 55)

/-- The value of a hexadecimal digit (`isxdigit`, `xtod`). -/
def hexVal (c : UInt8) : Option UInt8 :=
  if 48 ≤ c ∧ c ≤ 57 then some (c - 48)
  else if 97 ≤ c ∧ c ≤ 102 then some (c - 87)
  else if 65 ≤ c ∧ c ≤ 70 then some (c - 55)
  else none

/-- What a letter after a backslash stands for. -/
def letter (c : UInt8) : Option UInt8 :=
  if c = 92 then some 92
  else if c = 110 then some 10
  else if c = 114 then some 13
  else if c = 98 then some 8
  else if c = 97 then some 7
  else if c = 118 then some 11
  else if c = 116 then some 9
  else if c = 102 then some 12
  else if c = 115 then some 32
  else if c = 69 then some 27
  else none

/-- What happens with a character in a state: the characters that come out, and the next state; `none` if the sequence is none. -/
def start (c : UInt8) : Option (Bytes × State) :=
  if isOct c then some ([], .octal2 (c - 48))
  else if c = 77 then some ([], .high)
  else if c = 94 then some ([], .ctrl 0)
  else if c = 120 then some ([], .hex)
  else if c = 10 ∨ c = 36 then some ([], .ground)
  else
    match letter c with
    | some v => some ([v], .ground)
    | none => if 33 ≤ c ∧ c ≤ 126 then some ([c], .ground) else none

/-- A character outside of a sequence. -/
def ground (c : UInt8) : Bytes × State := if c = 92 then ([], .start) else ([c], .ground)

/-- A character `c` which ends a number and does not belong to it (`UNVIS_VALIDPUSH`). -/
def push (v c : UInt8) : Option (Bytes × State) := some (v :: (ground c).1, (ground c).2)

/-- One call of `unvis`, and a second one if it says so. -/
def step : State → UInt8 → Option (Bytes × State)
  | .ground, c => some (ground c)
  | .start, c => start c
  | .high, c => if c = 45 then some ([], .high1) else if c = 94 then some ([], .ctrl 128) else none
  | .high1, c => some ([128 ||| c], .ground)
  | .ctrl v, c => some ([v ||| (if c = 63 then 127 else c &&& 31)], .ground)
  | .octal2 v, c => if isOct c then some ([], .octal3 (v * 8 + (c - 48))) else push v c
  | .octal3 v, c => if isOct c then some ([v * 8 + (c - 48)], .ground) else push v c
  | .hex, c => (hexVal c).map fun v => ([], .hex1 v)
  | .hex1 v, c =>
    match hexVal c with
    | some w => some ([v * 16 + w], .ground)
    | none => push v c

/-- The end of the string. -/
def finish : State → Bytes
  | .octal2 v => [v]
  | .octal3 v => [v]
  | .hex1 v => [v]
  | _ => []

/-- `strnunvis(3)` without regard to the size of the buffer; `none` is -1. -/
def unvis : State → Bytes → Option Bytes
  | s, [] => some (finish s)
  | s, c :: l =>
    match step s c with
    | none => none
    | some (o, s') => (unvis s' l).map (o ++ ·)

/-- `assert(strnunvis(p, 128*1024, src) > 0)`: what is written at `p` (with a NUL behind it). -/
def unvisAssert (src : Bytes) : Res Bytes :=
  match unvis .ground src with
  | none => .fail
  | some o => do
    Res.check (0 < o.length ∧ o.length < 131072)
    return o

/-- main_stow.c:602-607: the path that is given to `openat(2)`.  `buf` has 128 KiB; `strcat` writes two bytes, and the second
`strnunvis` is told that all of the 128 KiB are behind the slash. -/
def openPath (dir name : Bytes) : Res Bytes := do
  let d ← unvisAssert dir
  Res.access ((cstr d).length + 2 ≤ 131072)
  let n ← unvisAssert name
  Res.access ((cstr d).length + 1 + n.length + 1 ≤ 131072)
  return cstr (cstr d ++ b!"/" ++ n)

end Verif.Unvis
