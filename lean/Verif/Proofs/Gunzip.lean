/-
Building gzip members that the specification decodes.
-/
import Verif.Spec.Segment
import Verif.Proofs.Inflate
import Verif.Proofs.Bytes
import Verif.Proofs.Crc

namespace Verif.Inflate
open Verif

theorem leEnc_length (k n : Nat) : (leEnc k n).length = k := by
  induction k generalizing n with
  | zero => rfl
  | succ k ih => rw [leEnc, List.length_cons, ih]

theorem trailer_length (out : Bytes) : (trailer out).length = 8 := by
  unfold trailer; rw [List.length_append, leEnc_length, leEnc_length]

theorem leDec_trailer_crc (out rest : Bytes) :
    leDec ((trailer out ++ rest).take 4) = (Crc.crc32 out).toNat := by
  unfold trailer
  rw [List.append_assoc, List.take_left' (leEnc_length _ _), leDec_leEnc]
  exact Nat.mod_eq_of_lt (by have := (Crc.crc32 out).isLt; simpa using this)

theorem leDec_trailer_len (out rest : Bytes) :
    leDec (((trailer out ++ rest).drop 4).take 4) = out.length % 2 ^ 32 := by
  unfold trailer
  rw [List.append_assoc, List.drop_left' (leEnc_length _ _), List.take_left' (leEnc_length _ _), leDec_leEnc]
  exact Nat.mod_eq_of_lt (by
    have : out.length % 2 ^ 32 < 2 ^ 32 := Nat.mod_lt _ (by decide)
    simpa using this)

/-- A deflate stream with trailer behind a gzip header is a gzip member. -/
theorem gunzip1_intro {l S rest out : Bytes} {ts : List Tok} {r : Bits}
    (hh : gzHeader l = some (S ++ trailer out ++ rest)) (hd : deflateToks (toBits S) = some (ts, r)) (hr : r.length < 8)
    (he : expand ts = some out) : gunzip1 l = some (out, rest) := by
  obtain ⟨c, hc, hg⟩ := local_deflateToks _ _ _ hd
  have h1 := hg (r ++ toBits (trailer out ++ rest)) (by rw [List.length_append, toBits_length]; omega)
  rw [← List.append_assoc, ← hc, ← toBits_append, ← List.append_assoc] at h1
  unfold gunzip1
  rw [hh]
  simp only
  rw [h1]
  simp only [he]
  have hlen : (S ++ trailer out ++ rest).length - (r ++ toBits (trailer out ++ rest)).length / 8 = S.length := by
    have h2 : (r ++ toBits (trailer out ++ rest)).length / 8 = (trailer out ++ rest).length := by
      rw [List.length_append, toBits_length]; omega
    rw [h2]
    simp only [List.length_append]
    omega
  rw [hlen, List.append_assoc, List.drop_left' rfl]
  rw [if_pos ⟨by rw [List.length_append, trailer_length]; omega, leDec_trailer_crc _ _, leDec_trailer_len _ _⟩]
  rw [List.drop_left' (trailer_length out)]

/-- A member with a wrong checksum is rejected. -/
theorem gunzip1_wrong_crc {l S tail out : Bytes} {crc : BitVec 32} {ts : List Tok} {r : Bits}
    (hh : gzHeader l = some (S ++ leEnc 4 crc.toNat ++ tail)) (hd : deflateToks (toBits S) = some (ts, r)) (hr : r.length < 8)
    (he : expand ts = some out) (hne : crc ≠ Crc.crc32 out) : gunzip1 l = none := by
  obtain ⟨c, hc, hg⟩ := local_deflateToks _ _ _ hd
  have h1 := hg (r ++ toBits (leEnc 4 crc.toNat ++ tail)) (by rw [List.length_append, toBits_length]; omega)
  rw [← List.append_assoc, ← hc, ← toBits_append, ← List.append_assoc] at h1
  unfold gunzip1
  rw [hh]
  simp only
  rw [h1]
  simp only [he]
  have hlen : (S ++ leEnc 4 crc.toNat ++ tail).length - (r ++ toBits (leEnc 4 crc.toNat ++ tail)).length / 8 = S.length := by
    have h2 : (r ++ toBits (leEnc 4 crc.toNat ++ tail)).length / 8 = (leEnc 4 crc.toNat ++ tail).length := by
      rw [List.length_append, toBits_length]; omega
    rw [h2]
    simp only [List.length_append]
    omega
  rw [hlen, List.append_assoc, List.drop_left' rfl, List.take_left' (leEnc_length _ _), leDec_leEnc]
  rw [if_neg]
  rintro ⟨_, h, _⟩
  rw [Nat.mod_eq_of_lt (by have := crc.isLt; simpa using this)] at h
  exact hne (BitVec.eq_of_toNat_eq h)

/-- The final empty stored block. -/
theorem final_stored : blocks 1 (toBits [0x01, 0x00, 0x00, 0xff, 0xff]) = some ([], []) := by decide

/-- The final empty block with the fixed code leaves six bits. -/
theorem final_fixed : blocks 1 (toBits [0x03, 0x00]) = some ([], List.replicate 6 false) := by decide +kernel

/-- Open blocks and a final empty stored block make a deflate stream. -/
theorem deflate_stored {body : Bytes} {n : Nat} {ts : List Tok} (h : openBlocks n (toBits body) = some (ts, [])) :
    deflateToks (toBits (body ++ [0x01, 0x00, 0x00, 0xff, 0xff])) = some (ts, []) := by
  obtain ⟨c, hc, hg⟩ := local_openBlocks n _ _ _ h
  rw [List.append_nil] at hc
  have h1 := hg (toBits [0x01, 0x00, 0x00, 0xff, 0xff]) (by decide)
  rw [← hc, ← toBits_append] at h1
  have := blocks_open n 1 h1 final_stored
  rw [List.append_nil] at this
  exact deflateToks_of_blocks this

/-- Open blocks and a final empty block with the fixed code make a deflate stream. -/
theorem deflate_fixed {body : Bytes} {n : Nat} {ts : List Tok} (h : openBlocks n (toBits body) = some (ts, [])) :
    deflateToks (toBits (body ++ [0x03, 0x00])) = some (ts, List.replicate 6 false) := by
  obtain ⟨c, hc, hg⟩ := local_openBlocks n _ _ _ h
  rw [List.append_nil] at hc
  have h1 := hg (toBits [0x03, 0x00]) (by decide)
  rw [← hc, ← toBits_append] at h1
  have := blocks_open n 1 h1 final_fixed
  rw [List.append_nil] at this
  exact deflateToks_of_blocks this

/-- Open blocks in byte aligned pieces can be put together. -/
theorem openBlocks_join {a b : Bytes} {m n : Nat} {ta tb : List Tok} (ha : openBlocks m (toBits a) = some (ta, []))
    (hb : openBlocks n (toBits b) = some (tb, [])) : openBlocks (m + n) (toBits (a ++ b)) = some (ta ++ tb, []) := by
  obtain ⟨c, hc, hg⟩ := local_openBlocks m _ _ _ ha
  rw [List.append_nil] at hc
  have h1 := hg (toBits b) (by rw [toBits_length]; simp)
  rw [← hc, ← toBits_append] at h1
  exact openBlocks_append m n h1 hb

end Verif.Inflate
