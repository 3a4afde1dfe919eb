/-
Specification: what an archived gzip segment is.
-/
import Verif.Spec.Inflate

namespace Verif.Inflate
open Verif

/-- The trailer of a gzip member. -/
def trailer (out : Bytes) : Bytes := leEnc 4 (Crc.crc32 out).toNat ++ leEnc 4 (out.length % 2 ^ 32)

/-- The header of an archived gzip member of `len` bytes: the 'Aa' extra field has the length. -/
def aaHead (mt : Bytes) (xfl os : UInt8) (len : Nat) : Bytes :=
  [0x1f, 0x8b, 0x08, 0x04] ++ mt ++ [xfl, os, 0x0c, 0x00, 0x41, 0x61, 0x08, 0x00] ++ leEnc 8 len

/-- An archived segment: a gzip member with the 'Aa' field, whose deflate stream consists of blocks that
end on a byte boundary and decode to `data`, followed by an empty final block, stored or (behind at
least 3 bytes) with the fixed code, and the trailer. -/
def Segment (gz data : Bytes) : Prop :=
  ∃ (mt : Bytes) (xfl os : UInt8) (body stop : Bytes) (n : Nat) (ts : List Tok),
    mt.length = 4 ∧ gz = aaHead mt xfl os gz.length ++ body ++ stop ++ trailer data ∧ gz.length < 2 ^ 63 ∧
    (stop = [0x01, 0x00, 0x00, 0xff, 0xff] ∨ stop = [0x03, 0x00] ∧ 3 ≤ body.length) ∧
    openBlocks n (toBits body) = some (ts, []) ∧ expand ts = some data

/-- A cut of a segment as the reader may make it: the first chunk has the 24 byte header. -/
def Cut (gz : Bytes) (chunks : List Bytes) : Prop :=
  chunks.flatten = gz ∧ ∃ c cs, chunks = c :: cs ∧ 24 ≤ c.length

/-- A gzip member as the archive holds it, of a header block or of a body: the header has the 'Aa' field
with the member's length, no time, and `xfl` 2 or 4. -/
def Member (gz data : Bytes) : Prop :=
  ∃ (xfl : UInt8) (body : Bytes) (ts : List Tok) (r : Bits), (xfl = 2 ∨ xfl = 4) ∧
    gz = aaHead [0, 0, 0, 0] xfl 3 gz.length ++ body ++ trailer data ∧ gz.length < 2 ^ 63 ∧
    deflateToks (toBits body) = some (ts, r) ∧ r.length < 8 ∧ expand ts = some data

end Verif.Inflate
