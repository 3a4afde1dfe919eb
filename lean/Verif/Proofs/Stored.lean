/-
Gzip members with one stored block: every short text has one, 37 bytes longer than the text.
-/
import Verif.Proofs.Rsilo

namespace Verif.Inflate
open Verif

theorem bits_append (m n : Nat) {bs r r2 : Bits} {v w : Nat} (h1 : bits m bs = some (v, r)) (h2 : bits n r = some (w, r2)) :
    bits (m + n) bs = some (v + 2 ^ m * w, r2) := by
  induction m generalizing bs v with
  | zero =>
    simp only [bits, Parser.pure, Option.some.injEq, Prod.mk.injEq] at h1
    obtain ⟨rfl, rfl⟩ := h1
    simpa using h2
  | succ m ih =>
    rw [show m + 1 + n = (m + n) + 1 by omega]
    unfold bits at h1 ⊢
    obtain ⟨b, r1, e1, e2⟩ := bind_some.1 h1
    obtain ⟨v', r3, e3, e4⟩ := bind_some.1 e2
    simp only [Parser.pure, Option.some.injEq, Prod.mk.injEq] at e4
    obtain ⟨rfl, rfl⟩ := e4
    refine bind_some.2 ⟨b, r1, e1, bind_some.2 ⟨_, _, ih e3, ?_⟩⟩
    simp only [Parser.pure, Option.some.injEq, Prod.mk.injEq, and_true]
    rw [Nat.pow_succ, Nat.mul_comm (2 ^ m) 2, Nat.mul_add, Nat.mul_assoc]
    omega

theorem bits_byte_fin : ∀ i : Fin 256, bits 8 (byteBits (UInt8.ofNat i.val)) = some (i.val, []) := by decide +kernel

theorem bits_byte (b : UInt8) (r : Bits) : bits 8 (byteBits b ++ r) = some (b.toNat, r) := by
  have h : bits 8 (byteBits b) = some (b.toNat, []) := by
    have := bits_byte_fin ⟨b.toNat, b.toNat_lt⟩
    simpa using this
  have hb : byteBits b ++ r = [b.toNat.testBit 0, b.toNat.testBit 1, b.toNat.testBit 2, b.toNat.testBit 3, b.toNat.testBit 4,
      b.toNat.testBit 5, b.toNat.testBit 6, b.toNat.testBit 7] ++ r := rfl
  have hb' : byteBits b = [b.toNat.testBit 0, b.toNat.testBit 1, b.toNat.testBit 2, b.toNat.testBit 3, b.toNat.testBit 4,
      b.toNat.testBit 5, b.toNat.testBit 6, b.toNat.testBit 7] := rfl
  rw [hb'] at h
  rw [hb]
  simp only [bits, bit, Parser.bind, Parser.pure, List.cons_append, List.nil_append, Option.some.injEq, Prod.mk.injEq, and_true] at h ⊢
  exact h

theorem toBits_cons (b : UInt8) (l : Bytes) : toBits (b :: l) = byteBits b ++ toBits l := by
  unfold toBits
  rw [List.flatMap_cons]

theorem bytes_toBits (d : Bytes) (r : Bits) : bytes d.length (toBits d ++ r) = some (d, r) := by
  induction d with
  | nil => rfl
  | cons b d ih =>
    unfold bytes
    rw [toBits_cons, List.append_assoc]
    refine bind_some.2 ⟨_, _, bits_byte b _, bind_some.2 ⟨_, _, ih, ?_⟩⟩
    simp [Parser.pure]

theorem bits_le2 (n : Nat) (h : n < 65536) (r : Bits) : bits 16 (toBits (leEnc 2 n) ++ r) = some (n, r) := by
  have h2 : leEnc 2 n = [UInt8.ofNat (n % 256), UInt8.ofNat (n / 256 % 256)] := by
    have e1 : UInt8.ofNat n = UInt8.ofNat (n % 256) := UInt8.toNat_inj.1 (by simp)
    have e2 : UInt8.ofNat (n / 256) = UInt8.ofNat (n / 256 % 256) := UInt8.toNat_inj.1 (by simp)
    simp only [leEnc, e1, e2]
  rw [h2, toBits_cons, toBits_cons, List.append_assoc, List.append_assoc]
  have := bits_append 8 8 (bits_byte (UInt8.ofNat (n % 256)) (byteBits (UInt8.ofNat (n / 256 % 256)) ++ (toBits [] ++ r)))
    (bits_byte (UInt8.ofNat (n / 256 % 256)) (toBits [] ++ r))
  rw [this]
  have e1 : (UInt8.ofNat (n % 256)).toNat = n % 256 := by simp
  have e2 : (UInt8.ofNat (n / 256 % 256)).toNat = n / 256 % 256 := by simp
  rw [e1, e2]
  simp only [toBits, List.flatMap_nil, List.nil_append, Option.some.injEq, Prod.mk.injEq, and_true]
  omega

/-- A stored block on a byte boundary; `t` is 1 for the last one of a stream, else 0. -/
def storedBlk (t : UInt8) (d : Bytes) : Bytes := [t] ++ leEnc 2 d.length ++ leEnc 2 (65535 - d.length) ++ d

theorem storedBlk_length (t : UInt8) (d : Bytes) : (storedBlk t d).length = d.length + 5 := by
  unfold storedBlk
  simp only [List.length_append, leEnc_length, List.length_cons, List.length_nil]
  omega

theorem stored_blk (d : Bytes) (h : d.length < 65536) (pad : Bits) (hp : pad.length = 5) (r : Bits) (hr : r.length % 8 = 0) :
    stored (pad ++ (toBits (leEnc 2 d.length) ++ (toBits (leEnc 2 (65535 - d.length)) ++ (toBits d ++ r)))) = some (d.map .lit, r) := by
  unfold stored
  refine bind_some.2 ⟨(), _, rfl, ?_⟩
  have hl : ((pad ++ (toBits (leEnc 2 d.length) ++ (toBits (leEnc 2 (65535 - d.length)) ++ (toBits d ++ r)))).length % 8) = 5 := by
    simp only [List.length_append, toBits_length, leEnc_length, hp]
    omega
  rw [hl, List.drop_left' hp]
  refine bind_some.2 ⟨_, _, bits_le2 _ h _, bind_some.2 ⟨_, _, bits_le2 _ (by omega) _, bind_some.2 ⟨(), toBits d ++ r, ?_, ?_⟩⟩⟩
  · unfold require
    rw [if_pos (by simp; omega)]
    rfl
  · exact bind_some.2 ⟨_, _, bytes_toBits d r, rfl⟩

theorem block_storedBlk (fin : Bool) (d : Bytes) (h : d.length < 65536) (r : Bits) (hr : r.length % 8 = 0) :
    block (toBits (storedBlk (if fin then 1 else 0) d) ++ r) = some ((fin, d.map .lit), r) := by
  unfold storedBlk block
  rw [toBits_append, toBits_append, toBits_append, List.append_assoc, List.append_assoc, List.append_assoc]
  have hb : toBits [if fin then 1 else 0] = fin :: false :: false :: [false, false, false, false, false] := by
    cases fin <;> decide
  rw [hb]
  refine bind_some.2 ⟨fin, _, rfl, bind_some.2 ⟨0, _, rfl, bind_some.2 ⟨_, _, ?_, rfl⟩⟩⟩
  unfold blockBody
  rw [if_pos rfl]
  exact stored_blk d h [false, false, false, false, false] rfl r hr

theorem deflate_storedBlk (d : Bytes) (h : d.length < 65536) : deflateToks (toBits (storedBlk 1 d)) = some (d.map .lit, []) := by
  have hb := block_storedBlk true d h [] rfl
  rw [List.append_nil] at hb
  unfold deflateToks blocks
  exact bind_some.2 ⟨_, _, hb, rfl⟩

theorem openBlocks_storedBlk (d : Bytes) (h : d.length < 65536) : openBlocks 1 (toBits (storedBlk 0 d)) = some (d.map .lit, []) := by
  have hb := block_storedBlk false d h [] rfl
  rw [List.append_nil] at hb
  unfold openBlocks
  refine bind_some.2 ⟨_, _, hb, bind_some.2 ⟨(), _, rfl, bind_some.2 ⟨[], _, rfl, ?_⟩⟩⟩
  simp [Parser.pure]

/-- A member with one stored block. -/
def stored1 (d : Bytes) : Bytes :=
  aaHead [0, 0, 0, 0] 2 3 (37 + d.length) ++ [0x01] ++ leEnc 2 d.length ++ leEnc 2 (65535 - d.length) ++ d ++ trailer d

theorem stored1_eq (d : Bytes) : stored1 d = aaHead [0, 0, 0, 0] 2 3 (37 + d.length) ++ storedBlk 1 d ++ trailer d := by
  unfold stored1 storedBlk
  simp only [List.append_assoc]

theorem stored1_length (d : Bytes) : (stored1 d).length = d.length + 37 := by
  rw [stored1_eq, List.length_append, List.length_append, aaHead_length rfl, storedBlk_length, trailer_length]
  omega

theorem stored1_ok (d : Bytes) (h : d.length < 65536) : Member (stored1 d) d :=
  ⟨2, storedBlk 1 d, d.map .lit, [], Or.inl rfl, by rw [stored1_length, Nat.add_comm]; exact stored1_eq d,
    by rw [stored1_length]; omega, deflate_storedBlk d h, by simp, expand_lits d⟩

end Verif.Inflate
