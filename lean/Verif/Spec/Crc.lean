/-
Specification: CRC-32 as of RFC 1952, bit by bit.
-/
import Verif.Basic.Bytes

namespace Verif.Crc
open Verif

/-- The reversed polynomial. -/
def poly : BitVec 32 := 0xEDB88320#32

/-- One bit: shift, and subtract the polynomial if a one falls out. -/
def bitStep (c : BitVec 32) : BitVec 32 := if c.getLsbD 0 then (c >>> 1) ^^^ poly else c >>> 1

/-- `n` bits. -/
def bitSteps : Nat → BitVec 32 → BitVec 32
  | 0, c => c
  | n + 1, c => bitSteps n (bitStep c)

/-- One byte. -/
def byteStep (c : BitVec 32) (b : UInt8) : BitVec 32 := bitSteps 8 (c ^^^ BitVec.ofNat 32 b.toNat)

/-- The register after a byte string. -/
def reg (c : BitVec 32) (d : Bytes) : BitVec 32 := d.foldl byteStep c

/-- CRC-32 of a byte string. -/
def crc32 (d : Bytes) : BitVec 32 := ~~~ (reg (~~~ 0#32) d)

/-- What zlib's `crc32_combine(crc1, crc2, len2)` computes: `crc1` run through `len2` zero bytes, plus
`crc2`. -/
def combine (crc1 crc2 : BitVec 32) (len2 : Nat) : BitVec 32 := bitSteps (8 * len2) crc1 ^^^ crc2

end Verif.Crc
