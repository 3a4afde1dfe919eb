/-
Model of /repo/header.c: WARC headers.
-/
import Verif.Basic.Res
import Verif.Basic.CStr

namespace Verif.Header
open Verif

/-- header.c:46-60 `struct hfield`, `struct header`.  A field is (name, value). -/
structure Hdr where
  id : Bytes
  fields : List (Bytes × Bytes)
  deriving DecidableEq, Repr

/-- The name "WARC-Record-ID". -/
def RECORD_ID : Bytes := b!"WARC-Record-ID"

/-- header.c:62-77 `Header_New`. -/
def headerNew (idSize : Nat) : Hdr := { id := List.replicate idSize 95, fields := [] }

/-- header.c:103-125 `Header_Clone`. -/
def headerClone (h : Hdr) : Hdr := { id := h.id, fields := h.fields.map fun f => (f.1, f.2) }

/-- header.c:149-151, 172-174: the checks on a field name. -/
def nameOk (name : Bytes) : Bool := !name.contains 58 && strcasecmp name RECORD_ID != .eq

/-- header.c:143-162 `Header_Delete`. -/
def headerDelete (h : Hdr) (name : Bytes) : Res Hdr := do
  Res.check (nameOk name)
  return { h with fields := h.fields.filter fun f => strcasecmp name f.1 != .eq }

/-- header.c:177-188: find the field, take it out of the list and return the name to use (the old
spelling if the field exists). -/
def takeField (name : Bytes) : List (Bytes × Bytes) → Bytes × List (Bytes × Bytes)
  | [] => (name, [])
  | f :: fs =>
    if strcasecmp name f.1 = .eq then (f.1, fs)
    else
      let (n, r) := takeField name fs
      (n, f :: r)

/-- header.c:193-203: insert in front of the first greater name; `WRONG` on an equal name.  The
comparison uses the caller's spelling. -/
def insertField (name : Bytes) (f : Bytes × Bytes) : List (Bytes × Bytes) → Res (List (Bytes × Bytes))
  | [] => .ok [f]
  | g :: gs =>
    match strcasecmp name g.1 with
    | .lt => .ok (f :: g :: gs)
    | .eq => .fail
    | .gt => do
      let r ← insertField name f gs
      return g :: r

/-- header.c:164-204 `Header_Set`; `val` is the text after formatting. -/
def headerSet (h : Hdr) (name val : Bytes) : Res Hdr := do
  Res.check (nameOk name)
  let (n, fs) := takeField name h.fields
  let fs ← insertField name (n, val) fs
  return { h with fields := fs }

/-- header.c:206-217 `Header_Get`. -/
def headerGet (h : Hdr) (name : Bytes) : Option Bytes :=
  (h.fields.find? fun f => strcasecmp name f.1 == .eq).map (·.2)

/-- header.c:230-235: the digit loop.  `intmax_t` overflow is undefined. -/
def numLoop : Bytes → Nat → Res Int
  | [], r => .ok r
  | c :: cs, r =>
    if c < 48 ∨ c > 57 then .ok (-1)
    else if r * 10 + (c.toNat - 48) < 2 ^ 63 then numLoop cs (r * 10 + (c.toNat - 48))
    else .ub

/-- header.c:219-237 `Header_Get_Number`. -/
def headerGetNumber (h : Hdr) (name : Bytes) : Res Int :=
  match headerGet h name with
  | none => .ok (-1)
  | some p => numLoop p 0

/-- header.c:239-266 `Header_Serialize` with level -1 (not compressed). -/
def headerSerialize (pfx : Bytes) (h : Hdr) : Bytes :=
  b!"WARC/1.1\r\n" ++ b!"WARC-Record-ID: <" ++ pfx ++ h.id ++ b!">\r\n" ++
  (h.fields.map fun f => f.1 ++ b!": " ++ f.2 ++ b!"\r\n").flatten ++ b!"\r\n"

/-- header.c:287-298 `Header_Set_Id`.  `isgraph(3)` of a negative `char` is lumped into `fail`. -/
def headerSetId (idSize : Nat) (h : Hdr) (id : Bytes) : Res Hdr := do
  Res.check (id.all isGraph)
  Res.check (idSize ≤ id.length)
  return { h with id := id.take idSize }

/-- header.c:316-327 `Header_Set_Ref`. -/
def headerSetRef (pfx : Bytes) (idSize : Nat) (h : Hdr) (name ref : Bytes) : Res Hdr := do
  Res.check (idSize ≤ ref.length)
  headerSet h name (b!"<" ++ pfx ++ ref.take idSize ++ b!">")

/-- `strchr(3)`: the text before and after the first `c`. -/
def cut (c : UInt8) : Bytes → Option (Bytes × Bytes)
  | [] => none
  | x :: xs => if x = c then some ([], xs) else (cut c xs).map fun p => (x :: p.1, p.2)

/-- `strrchr(3)`: the text up to and including, and after, the last `c`. -/
def cutLast (c : UInt8) (l : Bytes) : Option (Bytes × Bytes) :=
  (cut c l.reverse).map fun p => ((c :: p.2).reverse, p.1.reverse)

/-- `*q++` must be the given character. -/
def expect (c : UInt8) : Bytes → Res Bytes
  | [] => .fail
  | x :: xs => if x = c then .ok xs else .fail

/-- `strchr` followed by `AN`. -/
def cutOrFail (c : UInt8) (l : Bytes) : Res (Bytes × Bytes) :=
  match cut c l with
  | none => .fail
  | some p => .ok p

def cutLastOrFail (c : UInt8) (l : Bytes) : Res (Bytes × Bytes) :=
  match cutLast c l with
  | none => .fail
  | some p => .ok p

/-- header.c:375-386: the value of a WARC-Record-ID field. -/
def parseId (pfx : Bytes) (h : Hdr) (r : Bytes) : Res Hdr := do
  let r ← expect 60 r
  let (r, s) ← cutOrFail 62 r
  Res.check (s = [])
  let (p, id) ← cutLastOrFail 47 r
  Res.check (p = pfx)
  return { h with id := id }

/-- header.c:367-386: one line, with the line end removed. -/
def parseLine (pfx : Bytes) (h : Hdr) (line : Bytes) : Res Hdr := do
  let (p, r) ← cutOrFail 58 line
  let r ← expect 32 r
  if p ≠ RECORD_ID then headerSet h p r else parseId pfx h r

/-- header.c:356-386: the loop over the lines.  The fuel is an upper bound of the text length. -/
def parseLoop (pfx : Bytes) : Nat → Hdr → Bytes → Res Hdr
  | 0, _, _ => .fail
  | fuel + 1, h, p =>
    if p = [] then .ok h
    else do
      let (line, q) ← cutOrFail 13 p
      let q ← expect 10 q
      if line = [] then do
        Res.check (q = [])
        return h
      else do
        let h ← parseLine pfx h line
        parseLoop pfx fuel h q

/-- header.c:337-388 `Header_Parse` on a NUL-terminated text.  `memcmp` on a text shorter than the
magic is lumped into `fail`.  The record ID starts out as NULL, represented by the empty string;
the magic guarantees that the first line sets it. -/
def headerParse (pfx : Bytes) (p : Bytes) : Res Hdr := do
  Res.check ((b!"WARC/1.0\r\nWARC-Record-ID: <").isPrefixOf p || (b!"WARC/1.1\r\nWARC-Record-ID: <").isPrefixOf p)
  let (_, p) ← cutOrFail 10 p
  parseLoop pfx (p.length + 1) { id := [], fields := [] } p

end Verif.Header
