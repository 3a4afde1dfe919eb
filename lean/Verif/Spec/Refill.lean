/-
What `rebuild` assumes about zlib's `deflate` (zlib.h, and deflate.c of zlib 1.2 and 1.3).
-/
import Verif.Spec.Zlib

namespace Verif.Spec
open Verif Segjob Inflate

/-- The compressor has reached the state `st` by calls without flush, each with less than `n` bytes of input and space for `m` bytes of output; `inp` is
all the input, and `out` all the output. -/
inductive Fed {σ : Type} (D : Deflater σ) (n m : Nat) : σ → Bytes → Bytes → Prop where
  | start : Fed D n m D.init [] []
  | step {st inp out} (avail : Bytes) : Fed D n m st inp out → avail ≠ [] → avail.length < n →
      Fed D n m (D.deflate st avail .none m).state (inp ++ avail) (out ++ (D.deflate st avail .none m).out)

/-- The contract: with that much space each call takes all of its input, and at the end the member is complete.  It holds of zlib for `n` up to 65536 and
`m` of 131072: what the compressor holds back is less than half of `m`. -/
structure Refill {σ : Type} (D : Deflater σ) (n m : Nat) : Prop where
  feed : ∀ st inp out avail, Fed D n m st inp out → avail ≠ [] → avail.length < n → (D.deflate st avail .none m).ret = .ok
  sync : ∀ st inp out avail, Fed D n m st inp out → avail.length < n → (D.deflate st avail .sync m).ret = .ok
  last : ∀ st inp out avail z y, Fed D n m st inp out → avail.length < n → z = D.deflate st avail .sync m →
    y = D.deflate z.state (avail.drop z.used) .finish (m - z.out.length) → y.ret = .streamEnd ∧ D.endOk y.state = true ∧
    RawSegment (out ++ z.out ++ y.out) (inp ++ avail) ∧ (out ++ z.out ++ y.out).length ≤ 6 * (inp ++ avail).length + 2 ^ 20

end Verif.Spec
