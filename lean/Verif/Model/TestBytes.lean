/-
Model of /repo/main_testbytes.c.
-/
import Verif.Basic.Bytes

namespace Verif.TestBytes
open Verif

/-- main_testbytes.c:90-91: the inner loop, `ch` running through the digest: the bytes written and the
number of bytes still wanted. -/
def emit : Bytes → Nat → Bytes × Nat
  | [], n => ([], n)
  | c :: d, n => if 0 < n then (c :: (emit d (n - 1)).1, (emit d (n - 1)).2) else ([], n)

/-- main_testbytes.c:86-92: the outer loop; `sha` is SHA256 as a function from bytes to 32 bytes.
Output errors are not modelled. -/
def loop (sha : Bytes → Bytes) : (fuel : Nat) → (nbytes : Nat) → (dig : Bytes) → Bytes
  | 0, _, _ => []
  | fuel + 1, nbytes, dig =>
    if 0 < nbytes then (emit (sha dig) nbytes).1 ++ loop sha fuel (emit (sha dig) nbytes).2 (sha dig) else []

/-- main_testbytes.c:56-94: the generator starts from 32 zero bytes; each round writes at least one
byte, so `n` rounds are enough. -/
def testBytes (sha : Bytes → Bytes) (n : Nat) : Bytes := loop sha n n (List.replicate 32 0)

end Verif.TestBytes
