/-
What is assumed about zlib's `deflate` so that storing an object cannot fail: how much room the compressor needs.
-/
import Verif.Spec.Zlib

namespace Verif.Spec
open Verif Segjob

/-- The states between the calls of `deflate` in `SegJob_Feed` (segjob.c:285-322), as long as there is room for what it needs (`need`), for the input,
and for eight bytes and one more for each kilobyte. -/
inductive Roomy {σ : Type} (D : Deflater σ) (need : σ → Nat) : σ → Prop where
  | start : Roomy D need D.init
  | step {st : σ} (avail : Bytes) (fl : Flush) (space : Nat) : Roomy D need st → avail ≠ [] → avail.length ≤ 2 ^ 19 → (fl = .none ∨ fl = .partialFlush) →
      need st + avail.length + avail.length / 1024 + 8 < space → Roomy D need (D.deflate st avail fl space).state

/-- The contract.  `need` is the room the compressor needs to write all it holds back, and to end the stream. -/
structure Live {σ : Type} (D : Deflater σ) (need : σ → Nat) : Prop where
  /-- At first that is the header with the 'Aa' field, two empty blocks, and the trailer. -/
  init : need D.init ≤ 40
  /-- If there is room all of the input is taken; no more room than that is used or needed later; what is held back without a flush
  is limited, and after a flush it is only the end of the stream. -/
  feed : ∀ st avail fl space, Roomy D need st → avail ≠ [] → avail.length ≤ 2 ^ 19 → (fl = .none ∨ fl = .partialFlush) →
    need st + avail.length + avail.length / 1024 + 8 < space →
    (D.deflate st avail fl space).ret = .ok ∧ (D.deflate st avail fl space).used = avail.length ∧
    (D.deflate st avail fl space).out.length + need (D.deflate st avail fl space).state ≤ need st + avail.length + avail.length / 1024 + 8 ∧
    need (D.deflate st avail fl space).state ≤ (if fl = .none then 32000 else 16)
  /-- With room for what is needed a sync flush succeeds, -/
  sync : ∀ st space, Roomy D need st → need st < space → (D.deflate st [] .sync space).ret = .ok ∧
    (D.deflate st [] .sync space).out.length + need (D.deflate st [] .sync space).state ≤ need st
  /-- and the end of the stream can be written. -/
  finish : ∀ st space space2, Roomy D need st → need st < space → need (D.deflate st [] .sync space).state < space2 →
    (D.deflate (D.deflate st [] .sync space).state [] .finish space2).ret = .streamEnd ∧
    (D.deflate (D.deflate st [] .sync space).state [] .finish space2).out.length ≤ need (D.deflate st [] .sync space).state ∧
    D.endOk (D.deflate (D.deflate st [] .sync space).state [] .finish space2).state = true

end Verif.Spec
