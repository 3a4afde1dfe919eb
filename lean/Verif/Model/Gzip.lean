/-
Model of /repo/gzip.c: the private 'Aa' length field, and stitching of gzip'ed segments.
-/
import Verif.Basic.Res
import Verif.Basic.CStr
import Verif.Spec.Crc

namespace Verif.Gzip
open Verif

/-- gzip.c:51-62 `gzip_head`. -/
def gzipHead : Bytes := [0x1f, 0x8b, 0x08, 0x04, 0, 0, 0, 0, 0x02, 0x03, 0x0c, 0, 0x41, 0x61, 0x08, 0]

/-- gzip.c:64-77 `Gzip_GoodAa(p, l)`: `mem` is the memory at `p`, `l` the claimed number of bytes. -/
def goodAa (mem : Bytes) (l : Nat) : Res Bool := do
  Res.check (16 ≤ l)
  Res.access (16 ≤ mem.length)
  let buf := mem.take 16
  if buf.getD 8 0 ≠ 0x02 ∧ buf.getD 8 0 ≠ 0x04 then pure false
  else pure (decide (buf.set 8 0x02 = gzipHead))

/-- gzip.c:105-120 `Gzip_WriteAa(fd, len)` on a file with contents `file` and file offset `pos`: the new
contents.  The write goes to the offset behind the 16 bytes read. -/
def writeAa (file : Bytes) (pos : Nat) (len : Int) : Res Bytes := do
  Res.check (0 < len)
  let buf := (file.drop pos).take 16
  Res.check (buf.length = 16)
  let g ← goodAa buf buf.length
  Res.check g
  pure (file.take (pos + 16) ++ leEnc 8 (ofInt64 len) ++ file.drop (pos + 24))

/-- gzip.c:126-137 `Gzip_ReadAa(p, l)`; `sizeof sizeof gzip_head + 8` is 16. -/
def readAa (mem : Bytes) (l : Nat) : Res Int := do
  let g ← goodAa mem l
  Res.check g
  Res.check (8 + 8 ≤ l)
  Res.access (24 ≤ mem.length)
  let len := toInt64 (leDec ((mem.drop 16).take 8))
  Res.check (0 < len)
  pure len

/-- gzip.c:141-145 `Gzip_crnlcrnl`. -/
def crnlcrnl : Bytes :=
  [0x1f, 0x8b, 0x08, 0x00, 0x20, 0x01, 0x19, 0x66, 0x02, 0x03, 0xe3, 0xe5, 0xe2, 0xe5, 0x02, 0x00,
   0x44, 0x15, 0xc2, 0x8b, 0x04, 0x00, 0x00, 0x00]

/-- gzip.c:148-197 `Gzip_Vsb`: `gz` is what zlib's deflate produced for the buffer (with the `Aa`
placeholder); the length is patched in. -/
def gzipVsb (gz : Bytes) : Res Bytes := do
  let g ← goodAa gz gz.length
  Res.check g
  Res.access (24 ≤ gz.length)
  pure (gz.take 16 ++ leEnc 8 gz.length ++ gz.drop 24)

/-! ### Stitching -/

/-- gzip.c:237-239. -/
inductive GzState where
  | outside | inside | tail
  deriving DecidableEq, Repr

/-- gzip.c:224-235 `struct gzip_stitch`; `out` is the state of the output callback. -/
structure Stitch (σ : Type) where
  state : GzState
  gzlen : Int
  retval : Int
  crc : BitVec 32
  lcrc : Nat
  tailbuf : Bytes
  out : σ

/-- gzip.c:241-248 `gzip_stitch_head`. -/
def stitchHead : Bytes := [0x1f, 0x8b, 0x08, 0x00, 0, 0, 0, 0, 0x04, 0x03]

/-- gzip.c:250-269 `gzip_stitch_new`. -/
def stitchNew {σ : Type} (func : σ → Bytes → σ × Int) (priv : σ) : Stitch σ :=
  let r := func priv stitchHead
  { state := .outside, gzlen := 0, retval := r.2, crc := Crc.crc32 [], lcrc := 0, tailbuf := List.replicate 13 0, out := r.1 }

/-- gzip.c:287-303: pick up the length and skip the header. -/
def feedOutside {σ : Type} (gs : Stitch σ) (p : Bytes) : Res (Stitch σ × Bytes) := do
  Res.check (24 ≤ p.length)
  Res.check (p.getD 0 0 = 0x1f)
  Res.check (p.getD 1 0 = 0x8b)
  Res.check (p.getD 2 0 = 0x08)
  Res.check (p.getD 3 0 = 0x04)
  Res.check (p.getD 12 0 = 0x41)
  Res.check (p.getD 13 0 = 0x61)
  Res.check (p.getD 14 0 = 0x08)
  Res.check (p.getD 15 0 = 0x00)
  pure ({ gs with gzlen := toInt64 (leDec ((p.drop 16).take 8)) - 24, state := .inside }, p.drop 24)

/-- gzip.c:305-320: pass on the middle.  A negative `skip` (segment shorter than 37 bytes) is passed to
the callback as the length: undefined. -/
def feedInside {σ : Type} (func : σ → Bytes → σ × Int) (gs : Stitch σ) (p : Bytes) : Res (Stitch σ × Bytes) := do
  Res.check ((p.length : Int) ≤ gs.gzlen)
  let skip : Int := if (p.length : Int) > gs.gzlen - 13 then gs.gzlen - 13 else p.length
  Res.access (0 ≤ skip)
  let r := func gs.out (p.take skip.toNat)
  if r.2 ≠ 0 then pure ({ gs with retval := r.2, out := r.1 }, p)
  else
    pure ({ gs with retval := 0, out := r.1, gzlen := gs.gzlen - skip, state := if gs.gzlen - skip = 13 then .tail else gs.state }, p.drop skip.toNat)

/-- gzip.c:321-350: the last 13 bytes. -/
def feedTail {σ : Type} (func : σ → Bytes → σ × Int) (gs : Stitch σ) (p : Bytes) : Res (Stitch σ × Bytes) := do
  Res.access (0 ≤ gs.gzlen ∧ gs.gzlen ≤ 13 ∧ (p.length : Int) ≤ gs.gzlen)
  let at_ := (13 - gs.gzlen).toNat
  let tb := gs.tailbuf.take at_ ++ p ++ gs.tailbuf.drop (at_ + p.length)
  let gs := { gs with tailbuf := tb, gzlen := gs.gzlen - p.length }
  if gs.gzlen ≠ 0 then pure (gs, [])
  else do
    let sync := tb.getD 3 0 = 0x03 ∧ tb.getD 4 0 = 0x00
    let r := if sync then func gs.out (tb.take 3) else (gs.out, gs.retval)
    if sync ∧ r.2 ≠ 0 then pure ({ gs with retval := r.2, out := r.1 }, p)
    else do
      Res.check (sync ∨ (tb.getD 0 0 = 0x01 ∧ tb.getD 1 0 = 0 ∧ tb.getD 2 0 = 0 ∧ tb.getD 3 0 = 0xff ∧ tb.getD 4 0 = 0xff))
      let crc := leDec ((tb.drop 5).take 4)
      let bytes := leDec ((tb.drop 9).take 4)
      pure ({ gs with retval := r.2, out := r.1, lcrc := (gs.lcrc + bytes) % 2 ^ 32, crc := Crc.combine gs.crc (BitVec.ofNat 32 crc) bytes, state := .outside }, [])

/-- gzip.c:285-351: the loop.  A callback that returned non-zero ends it (`retval`). -/
def feedLoop {σ : Type} (func : σ → Bytes → σ × Int) : (fuel : Nat) → Stitch σ → Bytes → Res (Stitch σ)
  | 0, gs, _ => pure gs
  | fuel + 1, gs, p =>
    if p = [] then pure gs
    else do
      let r ← (match gs.state with
        | .outside => feedOutside gs p
        | .inside => feedInside func gs p
        | .tail => feedTail func gs p)
      if r.1.retval ≠ 0 then pure r.1 else feedLoop func fuel r.1 r.2

/-- gzip.c:271-353 `gzip_stitch_feed`.  Each call goes through each state at most once, so fuel 4 is
enough (`feedLoop` with fuel left over ends because the input is used up). -/
def stitchFeed {σ : Type} (func : σ → Bytes → σ × Int) (gs : Stitch σ) (p : Bytes) : Res (Stitch σ) :=
  if gs.retval ≠ 0 then pure gs else feedLoop func 4 gs p

/-- gzip.c:355-377 `gzip_stitch_fini`: the callback's state and the return value. -/
def stitchFini {σ : Type} (func : σ → Bytes → σ × Int) (gs : Stitch σ) : σ × Int :=
  if gs.retval = 0 then func gs.out ([0x01, 0x00, 0x00, 0xff, 0xff] ++ leEnc 4 gs.crc.toNat ++ leEnc 4 gs.lcrc)
  else (gs.out, gs.retval)

/-- Feed chunks one after the other, as `Rsilo_ReadGZChunk` does (rsilo.c:238-252), stopping when the
callback is not content. -/
def stitchChunks {σ : Type} (func : σ → Bytes → σ × Int) : List Bytes → Stitch σ → Res (Stitch σ)
  | [], gs => pure gs
  | c :: cs, gs => do
    let g ← stitchFeed func gs c
    if g.retval ≠ 0 then pure g else stitchChunks func cs g

/-- Segments one after the other (getjob.c:259-263). -/
def stitchSegs {σ : Type} (func : σ → Bytes → σ × Int) : List (List Bytes) → Stitch σ → Res (Stitch σ)
  | [], gs => pure gs
  | s :: ss, gs => do
    let g ← stitchChunks func s gs
    if g.retval ≠ 0 then pure g else stitchSegs func ss g

/-- The whole operation with a callback that collects the output: the bytes produced. -/
def stitchAll (segs : List (List Bytes)) : Res Bytes := do
  let func : Bytes → Bytes → Bytes × Int := fun o b => (o ++ b, 0)
  let gs ← stitchSegs func segs (stitchNew func [])
  pure (stitchFini func gs).1

end Verif.Gzip
