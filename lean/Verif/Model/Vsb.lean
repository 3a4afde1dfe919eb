/-
Model of /repo/vsb.c: string buffers.

`malloc`/`realloc` are assumed to succeed and sizes are unbounded.
-/
import Verif.Basic.CStr
import Verif.Basic.Res

namespace Verif.Vsb
open Verif

/-- vsb.h:38-54 `struct vsb`: `data` are the first `s_len` bytes of the buffer, `size` its allocated
size.  `err` is `s_error != 0`; of the flags `auto` is VSB_AUTOEXTEND and `fin` VSB_FINISHED. -/
structure Vsb where
  data : Bytes
  size : Nat
  auto : Bool
  err : Bool
  indent : Nat
  fin : Bool
  deriving DecidableEq, Repr

/-- vsb.c:125-127: double until large enough. -/
def grow : (fuel : Nat) → Nat → Nat → Nat
  | 0, n, _ => n
  | fuel + 1, n, size => if n < size then grow fuel (n * 2) size else n

/-- vsb.c:119-134 `VSB_extendsize`, with a page size of 4096. -/
def extendSize (size : Nat) : Nat :=
  if size < 4096 then grow size 16 size else (size + 4095) / 4096 * 4096

/-- vsb.c:58 `VSB_FREESPACE`. -/
def Vsb.free (s : Vsb) : Nat := s.size - (s.data.length + 1)

/-- vsb.c:139-161 `VSB_extend`; `none` is the return value -1. -/
def extend (s : Vsb) (addlen : Nat) : Option Vsb :=
  if s.auto then some { s with size := extendSize (s.size + addlen) } else none

/-- Writing bytes at `s_buf + s_len` and adding to `s_len`: outside of the allocation it is undefined. -/
def write (s : Vsb) (t : Bytes) : Res Vsb := do
  Res.access (decide (s.data.length + t.length ≤ s.size))
  return { s with data := s.data ++ t }

/-- vsb.c:163-176 `_vsb_indent`. -/
def doIndent (s : Vsb) : Res Vsb :=
  if s.indent = 0 ∨ s.err ∨ (s.data ≠ [] ∧ s.data.getLast? ≠ some 10) then .ok s
  else if s.free ≤ s.indent then
    match extend s s.indent with
    | none => .ok { s with err := true }
    | some s' => write s' (List.replicate s.indent 32)
  else write s (List.replicate s.indent 32)

/-- vsb.c:82-105 `assert_VSB_integrity` and `assert_VSB_state(s, 0)`. -/
def checked (s : Vsb) : Res Unit := do
  Res.check (decide (s.data.length < s.size))
  Res.check (!s.fin)

/-- vsb.c:183-209 `VSB_newbuf` without a buffer given, vsb.h:60 `VSB_new_auto`. -/
def vsbNewAuto : Vsb := { data := [], size := extendSize 0, auto := true, err := false, indent := 0, fin := false }

/-- vsb.c:183-209 `VSB_newbuf` with VSB_FIXEDLEN. -/
def vsbNewFixed (length : Nat) : Res Vsb := do
  Res.check (decide (1 < length))
  return { data := [], size := length, auto := false, err := false, indent := 0, fin := false }

/-- vsb.c:240-250 `VSB_clear`. -/
def clear (s : Vsb) : Res Vsb := do
  Res.check (decide (s.data.length < s.size))
  return { s with fin := false, err := false, data := [], indent := 0 }

/-- The tail of `VSB_put_byte` (vsb.c:269-275) after the indentation. -/
def putTail (s : Vsb) (c : UInt8) : Res Vsb :=
  if s.free = 0 then
    match extend s 1 with
    | none => .ok { s with err := true }
    | some s' => if s'.err then .ok s' else write s' [c]
  else write s [c]

/-- vsb.c:258-276 `VSB_put_byte`, and `VSB_putc`. -/
def putByte (s : Vsb) (c : UInt8) : Res Vsb := do
  checked s
  if s.err then .ok s
  else do
    let s ← doIndent s
    putTail s c

/-- The tail of `VSB_bcat` (vsb.c:293-301). -/
def bcatTail (s : Vsb) (t : Bytes) : Res Vsb :=
  if t.length > s.free then
    match extend s (t.length - s.free) with
    | none => .ok { s with err := true }
    | some s' => if s'.err then .ok s' else write s' t
  else write s t

/-- vsb.c:281-303 `VSB_bcat`. -/
def bcat (s : Vsb) (t : Bytes) : Res Vsb := do
  checked s
  if s.err then .ok s
  else if t = [] then .ok s
  else do
    let s ← doIndent s
    bcatTail s t

/-- vsb.c:317-322, the loop of `VSB_cat`. -/
def catLoop : Bytes → Vsb → Res Vsb
  | [], s => .ok s
  | c :: cs, s => do
    let s ← putByte s c
    if s.err then .ok s else catLoop cs s

/-- vsb.c:308-324 `VSB_cat`. -/
def cat (s : Vsb) (t : Bytes) : Res Vsb := do
  checked s
  if s.err then .ok s else catLoop t s

/-- `vsnprintf` into the free space (vsb.c:354-356): the text cut to the free space and a NUL.  Only
the bytes that count are appended here; the write includes the NUL. -/
def snprintf (s : Vsb) (t : Bytes) : Res Unit :=
  Res.access (decide (s.data.length + min t.length s.free + 1 ≤ s.size))

/-- vsb.c:353-363, the loop: at most one extension is needed. -/
def printfGrow (s : Vsb) (t : Bytes) : Res Vsb := do
  snprintf s t
  if t.length > s.free then
    match extend s (t.length - s.free) with
    | none => .ok s
    | some s' => do
      snprintf s' t
      Res.check (decide (t.length ≤ s'.free))   -- the loop ends here
      .ok s'
  else .ok s

/-- vsb.c:374-387, after the loop. -/
def printfTail (s : Vsb) (t : Bytes) : Res Vsb := do
  let s' := { s with data := s.data ++ t.take s.free }
  let s' := if ¬ (s'.data.length + 1 < s'.size) ∧ ¬ s'.auto then { s' with err := true } else s'
  Res.check (decide (s'.data.length < s'.size))
  return s'

/-- vsb.c:329-388 `VSB_vprintf`, where `t` is the formatted text. -/
def printf (s : Vsb) (t : Bytes) : Res Vsb := do
  checked s
  if s.err then .ok s
  else do
    let s ← doIndent s
    let s ← printfGrow s t
    printfTail s t

/-- vsb.c:437-449 `VSB_finish`: the new buffer and the return value. -/
def finish (s : Vsb) : Res (Vsb × Int) := do
  checked s
  Res.access (decide (s.data.length < s.size))
  return ({ s with fin := true }, if s.err then -1 else 0)

/-- vsb.c:454-462 `VSB_data`: here the bytes up to the NUL written by `VSB_finish`. -/
def dataOf (s : Vsb) : Res Bytes := do
  Res.check (decide (s.data.length < s.size))
  Res.check s.fin
  return s.data

/-- vsb.c:626-635 `VSB_indent`. -/
def indentBy (s : Vsb) (i : Int) : Res Vsb := do
  Res.check (decide (s.data.length < s.size))
  if (s.indent : Int) + i < 0 then .ok { s with err := true }
  else .ok { s with indent := ((s.indent : Int) + i).toNat }

end Verif.Vsb
