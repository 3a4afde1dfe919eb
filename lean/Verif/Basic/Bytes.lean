/-
Bytes, big/little endian coding and `memcmp`.
-/

namespace Verif

abbrev Bytes := List UInt8

open Lean in
/-- `b!"text"` is the list of the ASCII codes of `text`. -/
syntax:max (name := bytesLit) "b!" str : term

open Lean in
macro_rules
  | `(b! $s:str) => do
    let bs := s.getString.toUTF8.toList
    let xs ← bs.toArray.mapM fun b => do
      let n := Syntax.mkNumLit (toString b.toNat)
      `(($n : UInt8))
    `(([ $xs,* ] : Bytes))

/-- Big-endian value of a byte string (`be32dec`, `be64dec`, sys/endian.h). -/
def beDec : Bytes → Nat
  | [] => 0
  | b :: bs => b.toNat * 256 ^ bs.length + beDec bs

/-- Big-endian encoding on `k` bytes (`be32enc`, `be64enc`); wraps like the C type. -/
def beEnc : Nat → Nat → Bytes
  | 0, _ => []
  | k + 1, n => UInt8.ofNat (n / 256 ^ k) :: beEnc k n

/-- Little-endian value (`le32dec`, `le64dec`). -/
def leDec : Bytes → Nat
  | [] => 0
  | b :: bs => b.toNat + 256 * leDec bs

/-- Little-endian encoding on `k` bytes (`le32enc`, `le64enc`). -/
def leEnc : Nat → Nat → Bytes
  | 0, _ => []
  | k + 1, n => UInt8.ofNat n :: leEnc k (n / 256)

/-- `memcmp(a, b, n)` for two byte strings of the same length. -/
def memcmp : Bytes → Bytes → Ordering
  | a :: as, b :: bs => if a < b then .lt else if b < a then .gt else memcmp as bs
  | _, _ => .eq

/-- Signed 64-bit reading of an unsigned 64-bit value. -/
def toInt64 (n : Nat) : Int :=
  if n % 2^64 < 2^63 then (n % 2^64 : Nat) else ((n % 2^64 : Nat) : Int) - 2^64

/-- Conversion of a signed value to `uint64_t`. -/
def ofInt64 (i : Int) : Nat := (i % 2^64).toNat

end Verif
