/-
An environment for the examples: stored blocks instead of compression, and a checksum instead of SHA256.
-/
import Verif.Proofs.Stored
import Verif.Model.Wsilo

namespace Verif.Example
open Verif Header Gzip Wsilo Inflate

/-- Not SHA256, but 64 hex digits that depend on the data. -/
def toySha (d : Bytes) : Bytes := (List.replicate 8 (hexStr (leEnc 4 (Crc.crc32 d).toNat))).flatten

theorem toySha_length (d : Bytes) : (toySha d).length = 64 := by
  have h : (hexStr (leEnc 4 (Crc.crc32 d).toNat)).length = 8 := by
    have := leEnc_length 4 (Crc.crc32 d).toNat
    revert this
    generalize leEnc 4 (Crc.crc32 d).toNat = l
    intro h
    match l, h with
    | [a, b, c, e], _ => rfl
  unfold toySha
  simp [h]

/-- An environment. -/
def env (max : Nat) : Env :=
  { pfx := b!"x/", idSize := 24, max := max, ps := 4096, sha := toySha, pack0 := stored1, pack9 := stored1,
    date := b!"2024-01-01T00:00:00Z", name := fun n => dec n ++ b!".warc.gz", infoLines := [(b!"operator:", b!"me")], gitrev := b!"r1" }

/-- The header of a store job (main_store.c:213-235). -/
def hdr : Hdr :=
  ⟨List.replicate 24 48, [(b!"Content-Type", b!"text/plain"), (b!"WARC-Date", b!"2024-01-01T00:00:00Z"), (b!"WARC-Type", b!"resource")]⟩

end Verif.Example
