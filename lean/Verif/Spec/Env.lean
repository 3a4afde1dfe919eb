/-
Specification: what the store functions need of the configuration, the hash and the compressor.
-/
import Verif.Spec.Archive
import Verif.Model.Wsilo

namespace Verif.Spec
open Verif Header Wsilo Inflate

/-- Text that can be in a header line. -/
def CleanText (t : Bytes) : Prop := (13 : UInt8) ∉ t ∧ (0 : UInt8) ∉ t

/-- All fields of the header are text without line ends and NUL. -/
def CleanHdr (h : Hdr) : Prop := ∀ f ∈ h.fields, CleanText f.1 ∧ CleanText f.2

/-- What is asked of the configuration, of SHA256 and of zlib.  `pack0` and `pack9` make gzip members of short texts,
`pack0` with stored blocks.  The header of the warcinfo record must fit a page with 61 bytes left. -/
structure EnvOk (env : Env) : Prop where
  slash : ∃ p, env.pfx = p ++ [47]
  pfx : (62 : UInt8) ∉ env.pfx ∧ CleanText env.pfx
  idSize : 16 ≤ env.idSize ∧ env.idSize ≤ 64
  sha : ∀ d, (env.sha d).length = 64 ∧ ∀ c ∈ env.sha d, isHex c = true
  max : env.max < 2 ^ 63
  date : CleanText env.date
  name : ∀ n, CleanText (env.name n)
  pack0 : ∀ t, t ≠ [] → t.length < 2 ^ 15 → Member (env.pack0 t) t ∧ (env.pack0 t).length = t.length + 37
  grow : ∀ t, t.length ≤ (env.pack0 t).length
  pack9 : ∀ t, t ≠ [] → t.length < 2 ^ 15 → Member (env.pack9 t) t ∧ (env.pack9 t).length ≤ t.length + 60
  ps : env.ps ≤ 2 ^ 15
  infoBody : ∀ n, n < 2 ^ 32 → (infoBody env n).length < 2 ^ 15
  infoHdr : ∀ n h, n < 2 ^ 32 → infoHdr env n = .ok h → (headerSerialize env.pfx h).length + 61 ≤ env.ps

end Verif.Spec
