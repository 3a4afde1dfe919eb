/-
Model of /repo/rsilo.c: reading silos.
-/
import Verif.Model.Gzip
import Verif.Model.Header
import Verif.Spec.Inflate

namespace Verif.Rsilo
open Verif Gzip Header Inflate

/-- rsilo.c:59-62. -/
inductive Where where
  | head | body | crlf
  deriving DecidableEq, Repr

/-- rsilo.c:46-63 `struct rsilo`: the contents of the file, the file offset, the length of the gzip'ed
body and the state. -/
structure Rs where
  file : Bytes
  pos : Nat
  bodylen : Int
  whr : Where
  deriving DecidableEq, Repr

/-- rsilo.c:104-126 `Rsilo_Open` of an existing file. -/
def rsOpen (file : Bytes) (off : Nat) : Rs := { file := file, pos := off, bodylen := 0, whr := .head }

/-- `read(2)` on a regular file: up to `n` bytes. -/
def read (rs : Rs) (n : Nat) : Bytes := (rs.file.drop rs.pos).take n

/-- The C string in a buffer: up to the first NUL. -/
def cstr (t : Bytes) : Bytes := t.takeWhile (· != 0)

/-- rsilo.c:161-200 `Rsilo_ReadHeader`; `ps` is the page size.  Decompression is the specification's:
zlib reaches the end of the stream on a page exactly if a member is complete in it and its contents fit
the output buffer.  (`15 + 32` would also accept a zlib stream; such input is counted as a failure.)
`Gzip_ReadAa` gets what follows the member in the page. -/
def readHeader (ps : Nat) (pfx : Bytes) (rs : Rs) : Res (Option Hdr × Rs) := do
  Res.check (rs.whr = .head)
  let page := read rs ps
  if page = [] then pure (none, rs)
  else
    match gunzip1 page with
    | none => .fail
    | some (text, rest) => do
      Res.check (text.length ≤ ps)
      let bl ← readAa rest rest.length
      let h ← headerParse pfx (cstr text)
      pure (some h, { rs with pos := rs.pos + (page.length - rest.length), bodylen := bl, whr := .body })

/-- rsilo.c:202-209 `Rsilo_BodyLen`. -/
def bodyLen (rs : Rs) : Res Int := do
  Res.check (rs.whr = .body)
  pure rs.bodylen

/-- rsilo.c:211-223 `Rsilo_NextHeader`. -/
def nextHeader (rs : Rs) : Res Rs := do
  Res.check (rs.whr = .body)
  let o : Int := rs.pos + rs.bodylen + crnlcrnl.length
  Res.check (0 < o)
  pure { rs with pos := o.toNat, whr := .head }

/-- `byte_iter_f` (aardwarc.h): a callback with its state; non-zero means stop. -/
abbrev ByteIter (σ : Type) := σ → Bytes → Res (σ × Int)

/-- rsilo.c:240-252: the loop of `Rsilo_ReadGZChunk`.  The result is the callback's state, the `rsilo`
and `ll`, or 0 on early return.  Each round but the last one reads at least one byte, so one more than
the number of bytes of the body is enough fuel. -/
def gzLoop {σ : Type} (ps : Nat) (func : ByteIter σ) : (fuel : Nat) → Rs → σ → (ll : Nat) → Res (σ × Rs × Nat)
  | 0, rs, s, _ => pure (s, rs, 0)
  | fuel + 1, rs, s, ll =>
    let d := read rs (min (32 * ps : Nat) rs.bodylen.toNat)
    if d = [] then pure (s, rs, 0)
    else do
      let r ← func s d
      let rs1 := { rs with pos := rs.pos + d.length }
      if r.2 ≠ 0 then pure (r.1, rs1, 0)
      else
        let rs2 := { rs1 with bodylen := rs1.bodylen - d.length }
        if rs2.bodylen > 0 then gzLoop ps func fuel rs2 r.1 (ll + d.length)
        else pure (r.1, { rs2 with whr := .crlf }, ll + d.length)

/-- rsilo.c:227-255 `Rsilo_ReadGZChunk`: the number of bytes is returned as an `int`, so what the callers
see is the low 32 bits. -/
def readGZChunk {σ : Type} (ps : Nat) (func : ByteIter σ) (rs : Rs) (s : σ) : Res (σ × Rs × Nat) := do
  Res.check (rs.whr = .body)
  let r ← gzLoop ps func (rs.bodylen.toNat + 1) rs s 0
  pure (r.1, r.2.1, r.2.2 % 2 ^ 32)

/-- Deliver chunks to the callback until it is not content; the result says whether it was. -/
def deliver {σ : Type} (func : ByteIter σ) : List Bytes → σ → Res (σ × Bool)
  | [], s => pure (s, true)
  | c :: cs, s => do
    let r ← func s c
    if r.2 ≠ 0 then pure (r.1, false) else deliver func cs r.1

/-- rsilo.c:259-304 `Rsilo_ReadChunk`.  zlib's `inflate` hands out the contents of the member in some
pieces; `cut` says in which.  A member that is not complete or not valid ends in an assertion failure
(of `read(2)` or `inflate`); what was delivered before that is not modelled.  When the callback is not
content the result is 0; the file offset (not used after that) is then not modelled. -/
def readChunk {σ : Type} (cut : Bytes → List Bytes) (func : ByteIter σ) (rs : Rs) (s : σ) :
    Res (σ × Rs × Nat) := do
  Res.check (rs.whr = .body)
  match gunzip1 (rs.file.drop rs.pos) with
  | none => .fail
  | some (out, rest) => do
    let n := (rs.file.drop rs.pos).length - rest.length
    let r ← deliver func (cut out) s
    pure (r.1, { rs with pos := rs.pos + n, whr := .crlf }, if r.2 then n else 0)

/-- rsilo.c:308-318 `Rsilo_SkipCRNL`. -/
def skipCRNL (rs : Rs) : Res Rs := do
  Res.check (rs.whr = .crlf)
  let b := read rs crnlcrnl.length
  Res.check (b.length = crnlcrnl.length)
  Res.check (b = crnlcrnl)
  pure { rs with pos := rs.pos + crnlcrnl.length, whr := .head }

/-! ### Loops over a silo -/

/-- main_reindex.c:227-258: header after header, skipping the bodies.  For each record: where it starts,
its header and the length of its gzip'ed body. -/
def scanHeaders (ps : Nat) (pfx : Bytes) : (fuel : Nat) → Rs → Res (List (Nat × Hdr × Int))
  | 0, _ => .fail
  | fuel + 1, rs => do
    let r ← readHeader ps pfx rs
    match r.1 with
    | none => pure []
    | some h => do
      let bl ← bodyLen r.2
      let rs2 ← nextHeader r.2
      let l ← scanHeaders ps pfx fuel rs2
      pure ((rs.pos, h, bl) :: l)

/-- main_audit.c:330-372: record after record, reading the bodies. -/
def scanBodies (ps : Nat) (pfx : Bytes) (cut : Bytes → List Bytes) : (fuel : Nat) → Rs → Res (List (Nat × Hdr × Bytes))
  | 0, _ => .fail
  | fuel + 1, rs => do
    let r ← readHeader ps pfx rs
    match r.1 with
    | none => pure []
    | some h => do
      let b ← readChunk cut (fun (s : Bytes) d => pure (s ++ d, 0)) r.2 []
      let rs2 ← skipCRNL b.2.1
      let l ← scanBodies ps pfx cut fuel rs2
      pure ((rs.pos, h, b.1) :: l)

end Verif.Rsilo
