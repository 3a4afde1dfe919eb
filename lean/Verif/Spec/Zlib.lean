/-
What is assumed about zlib's `deflate` (zlib.h, and deflate.c of zlib 1.2 and 1.3).
-/
import Verif.Model.Segjob
import Verif.Spec.Segment

namespace Verif.Spec
open Verif Segjob Inflate

/-- The compressor has reached the state `st` by accepted calls of `deflate`, in which it took the input
`inp` and made the output `out`. -/
inductive Reach {σ : Type} (D : Deflater σ) : σ → Bytes → Bytes → Prop where
  | start : Reach D D.init [] []
  | step {st inp out} (avail : Bytes) (fl : Flush) (space : Nat) : Reach D st inp out → (D.deflate st avail fl space).ret = .ok →
      Reach D (D.deflate st avail fl space).state (inp ++ avail.take (D.deflate st avail fl space).used) (out ++ (D.deflate st avail fl space).out)

/-- A whole gzip member as `deflate` makes it, with the 'Aa' field still zero: blocks that end on a byte
boundary and decode to `data`, an empty final block, and the trailer. -/
def RawSegment (gz data : Bytes) : Prop :=
  ∃ (xfl : UInt8) (body stop : Bytes) (n : Nat) (ts : List Tok), (xfl = 2 ∨ xfl = 4) ∧
    gz = aaHead [0, 0, 0, 0] xfl 3 0 ++ body ++ stop ++ trailer data ∧
    (stop = [0x01, 0x00, 0x00, 0xff, 0xff] ∨ stop = [0x03, 0x00] ∧ 3 ≤ body.length) ∧
    openBlocks n (toBits body) = some (ts, []) ∧ expand ts = some data

/-- The contract. -/
structure Zlib {σ : Type} (D : Deflater σ) : Prop where
  /-- `deflate` takes no more than it is given, -/
  used : ∀ st inp fl space, (D.deflate st inp fl space).used ≤ inp.length
  /-- stays within the output buffer, -/
  room : ∀ st inp fl space, (D.deflate st inp fl space).out.length ≤ space
  /-- returns `Z_BUF_ERROR` if there is none, -/
  noRoom : ∀ st inp fl, (D.deflate st inp fl 0).ret = .other
  /-- and with `Z_FINISH` returns `Z_OK` only if the buffer is full. -/
  full : ∀ st inp space, (D.deflate st inp .finish space).ret = .ok → (D.deflate st inp .finish space).out.length = space
  /-- What it holds back fits in its window and pending buffer, which are much smaller than a megabyte. -/
  pending : ∀ st inp out fl space, Reach D st inp out → (D.deflate st [] fl space).out.length + 25 ≤ 2 ^ 20
  /-- A sync flush that left room, and `Z_FINISH` up to `Z_STREAM_END`, complete the member. -/
  done : ∀ st inp out sp1 sp2, Reach D st inp out → (D.deflate st [] .sync sp1).ret = .ok → (D.deflate st [] .sync sp1).out.length < sp1 →
    (D.deflate (D.deflate st [] .sync sp1).state [] .finish sp2).ret = .streamEnd →
    RawSegment (out ++ (D.deflate st [] .sync sp1).out ++ (D.deflate (D.deflate st [] .sync sp1).state [] .finish sp2).out) inp

end Verif.Spec
