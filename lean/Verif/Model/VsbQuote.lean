/-
Model of /repo/vsb.c:504-620: `VSB_quote`.

Which operations on the string buffer are done does not depend on the buffer; they are listed
first and then done.  `char` is taken as unsigned (`isgraph` of a negative number is undefined
unless the C library allows for it, as that of FreeBSD does).
-/
import Verif.Model.Vsb

namespace Verif.Vsb
open Verif

/-- vsb.h:81-86: the bits of `how`. -/
structure How where
  nonl : Bool := false
  json : Bool := false
  hex : Bool := false
  cstr : Bool := false
  unsafe_ : Bool := false
  eschex : Bool := false
  deriving DecidableEq, Repr

/-- An operation on a string buffer that adds text. -/
inductive Put where
  | putc (c : UInt8)
  | bcat (t : Bytes)
  | cat (t : Bytes)
  | printf (t : Bytes)
  deriving DecidableEq, Repr

/-- `%02x`. -/
def hex2 (c : UInt8) : Bytes := [hexLc (c.toNat / 16), hexLc (c.toNat % 16)]

/-- `%03o`. -/
def oct3 (c : UInt8) : Bytes :=
  [UInt8.ofNat (48 + c.toNat / 64), UInt8.ofNat (48 + c.toNat / 8 % 8), UInt8.ofNat (48 + c.toNat % 8)]

/-- vsb.c:555-605: what is put for one byte, except for the prefix after a line end. -/
def quoteByte (pfx : Bytes) (how : How) (c : UInt8) : List Put :=
  if c = 63 then (if how.cstr then [.putc 92] else []) ++ [.putc c]
  else if c = 32 then [.putc c]
  else if c = 92 ∨ c = 34 then (if how.unsafe_ then [] else [.putc 92]) ++ [.putc c]
  else if c = 10 then
    if how.cstr then [.printf (b!"\\n\"\n" ++ pfx ++ b!"\"")]
    else if how.nonl || how.unsafe_ then [.printf b!"\n"]
    else [.printf b!"\\n"]
  else if c = 13 then [.cat b!"\\r"]
  else if c = 9 then [.cat b!"\\t"]
  else if c = 11 then [.cat b!"\\v"]
  else if isGraph c then [.putc c]
  else if how.eschex then [.printf (b!"\\x" ++ hex2 c)]
  else [.printf (b!"\\" ++ oct3 c)]

/-- vsb.c:561, 581-583: is the next byte preceded by the prefix? -/
def newLine (how : How) (c : UInt8) : Bool := c == 10 && !how.cstr && (how.nonl || how.unsafe_)

/-- vsb.c:552-605: the loop, and the value of `nl` after it. -/
def quoteLoop (pfx : Bytes) (how : How) : (nl : Bool) → Bytes → List Put × Bool
  | nl, [] => ([], nl)
  | nl, c :: v =>
    let r := quoteLoop pfx how (newLine how c) v
    ((if nl then [.cat pfx] else []) ++ quoteByte pfx how c ++ r.1, r.2)

/-- vsb.c:538-543: does the text need quoting? -/
def needsQuote (v : Bytes) : Bool := v.any (fun c => !isGraph c || c == 34 || c == 92)

/-- vsb.c:507-611 `VSB_quote_pfx`, the operations. -/
def quotePuts (pfx v : Bytes) (how : How) : List Put :=
  if v = [] then if how.cstr then [.printf (pfx ++ b!"\"\"")] else []
  else if how.hex then
    .cat pfx :: .cat b!"0x" ::
      (if v.all (· == 0) && decide (4 < v.length) then [.cat b!"0...0"] else v.map (fun c => .printf (hex2 c)))
  else if !needsQuote v && !(how.json || how.cstr) then
    .cat pfx :: .bcat v ::
      (if (how.unsafe_ || how.nonl) && v.getLast? != some 10 then [.putc 10] else [])
  else
    let r := quoteLoop pfx how false v
    .cat pfx :: (if how.cstr then [.putc 34] else []) ++ r.1 ++ (if how.cstr then [.putc 34] else []) ++
      (if (how.nonl || how.unsafe_) && !r.2 then [.putc 10] else [])

/-- One operation. -/
def put (s : Vsb) : Put → Res Vsb
  | .putc c => putByte s c
  | .bcat t => bcat s t
  | .cat t => cat s t
  | .printf t => printf s t

/-- Several operations. -/
def puts : Vsb → List Put → Res Vsb
  | s, [] => .ok s
  | s, o :: os => do
    let s ← put s o
    puts s os

/-- vsb.c:507-611 `VSB_quote_pfx`. -/
def quotePfx (s : Vsb) (pfx v : Bytes) (how : How) : Res Vsb := puts s (quotePuts pfx v how)

/-- vsb.c:614-618 `VSB_quote`. -/
def quote (s : Vsb) (v : Bytes) (how : How) : Res Vsb := quotePfx s [] v how

end Verif.Vsb
