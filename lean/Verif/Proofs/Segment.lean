/-
Archived segments: they are gzip members, and what stitching does with them.
-/
import Verif.Proofs.Gzip
import Verif.Proofs.Gunzip

namespace Verif.Inflate
open Verif Gzip

theorem toInt64_of_lt {n : Nat} (h : n < 2 ^ 63) : toInt64 n = n := by
  unfold toInt64
  have h63 : 2 ^ 63 = 9223372036854775808 := by decide
  have h64 : 2 ^ 64 = 18446744073709551616 := by decide
  rw [h63] at h
  simp only [h63, h64]
  rw [Nat.mod_eq_of_lt (by omega)]
  split
  · rfl
  · omega

theorem ofInt64_nat {n : Nat} (h : n < 2 ^ 63) : ofInt64 (n : Int) = n := by
  unfold ofInt64
  have h63 : 2 ^ 63 = 9223372036854775808 := by decide
  have h64 : (2 : Int) ^ 64 = 18446744073709551616 := by decide
  rw [h63] at h
  rw [h64]
  omega

theorem aaHead_length {mt : Bytes} (h : mt.length = 4) (xfl os : UInt8) (len : Nat) : (aaHead mt xfl os len).length = 24 := by
  unfold aaHead
  simp only [List.length_append, h, leEnc_length, List.length_cons, List.length_nil]

theorem aaHead_gzHeader {mt : Bytes} (h : mt.length = 4) (xfl os : UInt8) (len : Nat) (d : Bytes) :
    gzHeader (aaHead mt xfl os len ++ d) = some d := by
  obtain ⟨a, b, c, e, rfl⟩ : ∃ a b c e, mt = [a, b, c, e] := by
    match mt, h with
    | [a, b, c, e], _ => exact ⟨a, b, c, e, rfl⟩
  have hl : (leEnc 8 len).length = 8 := leEnc_length 8 len
  obtain ⟨L, hL⟩ : ∃ L, L = leEnc 8 len := ⟨_, rfl⟩
  unfold aaHead
  rw [← hL] at hl ⊢
  simp only [List.cons_append, List.nil_append]
  unfold gzHeader
  simp only
  have h12 : (12 : UInt8).toNat + 256 * (0 : UInt8).toNat = 12 := by decide
  rw [if_pos ⟨trivial, trivial, trivial, by decide⟩]
  have t1 : (4 : UInt8).toNat.testBit 2 = true := by decide
  have t2 : (4 : UInt8).toNat.testBit 3 = false := by decide
  have t3 : (4 : UInt8).toNat.testBit 4 = false := by decide
  have t4 : (4 : UInt8).toNat.testBit 1 = false := by decide
  simp only [t1, t2, t3, t4, if_true, skipExtra, h12]
  rw [if_pos (by simp only [List.length_cons, List.length_append, hl]; omega)]
  have hd : (65 :: 97 :: 8 :: 0 :: (L ++ d)).drop 12 = d := by
    rw [show (65 : UInt8) :: 97 :: 8 :: 0 :: (L ++ d) = ([65, 97, 8, 0] ++ L) ++ d by simp]
    exact List.drop_left' (by simp [hl])
  rw [hd]
  simp

/-- Each segment is itself a gzip file with the right contents. -/
theorem segment_gunzip {gz data : Bytes} (h : Segment gz data) : gunzip gz = some data := by
  obtain ⟨mt, xfl, os, body, stop, n, ts, hmt, hgz, _, hstop, hop, hex⟩ := h
  have hh : gzHeader gz = some (body ++ stop ++ trailer data ++ []) := by
    conv => lhs; rw [hgz]
    rw [List.append_assoc, List.append_assoc, aaHead_gzHeader hmt, List.append_nil, List.append_assoc]
  unfold gunzip
  rcases hstop with rfl | ⟨rfl, _⟩
  · rw [gunzip1_intro hh (deflate_stored hop) (by simp) hex]
  · rw [gunzip1_intro hh (deflate_fixed hop) (by simp) hex]

/-- The segment in the form the stitching proofs use: head, middle, last 13 bytes. -/
theorem segment_split {gz data : Bytes} (h : Segment gz data) :
    ∃ (H M T body : Bytes) (n : Nat) (ts : List Tok), gz = H ++ M ++ T ∧ HeadOk H gz.length ∧ T.length = 13 ∧ TailOk T ∧
      M ++ tailKeep T = body ∧ openBlocks n (toBits body) = some (ts, []) ∧ expand ts = some data ∧
      leDec ((T.drop 5).take 4) = (Crc.crc32 data).toNat ∧ leDec ((T.drop 9).take 4) = data.length % 2 ^ 32 := by
  obtain ⟨mt, xfl, os, body, stop, n, ts, hmt, hgz, h63, hstop, hop, hex⟩ := h
  have hHead : HeadOk (aaHead mt xfl os gz.length) gz.length := by
    obtain ⟨a, b, c, e, rfl⟩ : ∃ a b c e, mt = [a, b, c, e] := by
      match mt, hmt with
      | [a, b, c, e], _ => exact ⟨a, b, c, e, rfl⟩
    refine ⟨aaHead_length hmt _ _ _, rfl, rfl, rfl, rfl, rfl, rfl, rfl, rfl, ?_⟩
    have : (aaHead [a, b, c, e] xfl os gz.length).drop 16 = leEnc 8 gz.length := by
      unfold aaHead
      exact List.drop_left' rfl
    rw [this, leDec_leEnc, Nat.mod_eq_of_lt (Nat.lt_trans h63 (by decide)), toInt64_of_lt h63]
  have htr := trailer_length data
  have hcrc := leDec_trailer_crc data []
  have hlen := leDec_trailer_len data []
  rw [List.append_nil] at hcrc hlen
  rcases hstop with rfl | ⟨rfl, h3⟩
  · refine ⟨_, body, [0x01, 0x00, 0x00, 0xff, 0xff] ++ trailer data, body, n, ts, ?_, hHead, ?_, ?_, ?_, hop, hex, ?_, ?_⟩
    · rw [← List.append_assoc]; exact hgz
    · rw [List.length_append, htr]; rfl
    · right; exact ⟨rfl, rfl, rfl, rfl, rfl⟩
    · unfold tailKeep
      rw [if_neg (by
        intro h
        have : ([0x01, 0x00, 0x00, 0xff, 0xff] ++ trailer data : Bytes).getD 3 0 = 0xff := rfl
        rw [this] at h
        exact absurd h.1 (by decide)), List.append_nil]
    · rw [List.drop_left' (by rfl)]; exact hcrc
    · have : ([0x01, 0x00, 0x00, 0xff, 0xff] ++ trailer data : Bytes).drop 9 = (trailer data).drop 4 := by
        rw [show (9 : Nat) = 5 + 4 by rfl, ← List.drop_drop, List.drop_left' (by rfl)]
      rw [this]; exact hlen
  · obtain ⟨m3, hm3⟩ : ∃ m3, m3 = body.drop (body.length - 3) := ⟨_, rfl⟩
    have hm3l : m3.length = 3 := by rw [hm3, List.length_drop]; omega
    have hbody : body = body.take (body.length - 3) ++ m3 := by rw [hm3, List.take_append_drop]
    obtain ⟨x, y, z, rfl⟩ : ∃ x y z, m3 = [x, y, z] := by
      match m3, hm3l with
      | [x, y, z], _ => exact ⟨x, y, z, rfl⟩
    refine ⟨_, body.take (body.length - 3), [x, y, z] ++ [0x03, 0x00] ++ trailer data, body, n, ts, ?_, hHead, ?_, ?_, ?_,
      hop, hex, ?_, ?_⟩
    · rw [hgz]
      conv => lhs; rw [hbody]
      rw [← hgz]
      simp only [List.append_assoc]
    · simp only [List.length_append, htr]; rfl
    · left; exact ⟨rfl, rfl⟩
    · unfold tailKeep
      rw [if_pos ⟨rfl, rfl⟩]
      conv => rhs; rw [hbody]
      rfl
    · rw [List.drop_left' (by rfl)]; exact hcrc
    · have : ([x, y, z] ++ [0x03, 0x00] ++ trailer data : Bytes).drop 9 = (trailer data).drop 4 := by
        rw [show (9 : Nat) = 5 + 4 by rfl, ← List.drop_drop, List.drop_left' (by rfl)]
      rw [this]; exact hlen

/-- The checksum after the segments with the given contents, as the code computes it: from 32 bit lengths. -/
def crcFold (datas : List Bytes) (c : BitVec 32) : BitVec 32 :=
  datas.foldl (fun c d => Crc.combine c (Crc.crc32 d) (d.length % 2 ^ 32)) c

theorem crcFold_short (datas : List Bytes) (pre : Bytes) (h : ∀ d ∈ datas, d.length < 2 ^ 32) :
    crcFold datas (Crc.crc32 pre) = Crc.crc32 (pre ++ datas.flatten) := by
  induction datas generalizing pre with
  | nil => simp [crcFold]
  | cons d ds ih =>
    unfold crcFold
    rw [List.foldl_cons, Nat.mod_eq_of_lt (h d (by simp)), ← Crc.crc32_append, List.flatten_cons, ← List.append_assoc]
    exact ih (pre ++ d) (fun x hx => h x (by simp [hx]))

theorem stitchSegs_done (segs : List (Bytes × Bytes × List Bytes)) (gs : Stitch Bytes)
    (h : ∀ s ∈ segs, Segment s.1 s.2.1 ∧ Cut s.1 s.2.2)
    (hs : gs.state = .outside) (hv : gs.retval = 0) (ht : gs.tailbuf.length = 13) (hlt : gs.lcrc < 2 ^ 32) :
    ∃ gs' n body ts, stitchSegs collect (segs.map (·.2.2)) gs = .ok gs' ∧ gs'.retval = 0 ∧
      gs'.out = gs.out ++ body ∧ openBlocks n (toBits body) = some (ts, []) ∧
      expand ts = some (segs.map (·.2.1)).flatten ∧
      gs'.crc = crcFold (segs.map (·.2.1)) gs.crc ∧
      gs'.lcrc = (gs.lcrc + (segs.map (·.2.1)).flatten.length) % 2 ^ 32 := by
  induction segs generalizing gs with
  | nil => exact ⟨gs, 0, [], [], rfl, hv, by simp, rfl, rfl, rfl, by simp [Nat.mod_eq_of_lt hlt]⟩
  | cons s segs ih =>
    obtain ⟨hseg, hflat, c, cs, hcc, hc24⟩ := h s (by simp)
    obtain ⟨H, M, T, body, n, ts, hgz, hH, hT, hok, hkeep, hop, hex, hcrc, hlen⟩ := segment_split hseg
    obtain ⟨gs1, h1, hd⟩ := seg_done c cs gs H M T s.1.length hH hT hok (by rw [← hgz]) hc24
      (by rw [← hcc, hflat]; exact hgz) hs hv ht
    have hl1 : gs1.lcrc = (gs.lcrc + s.2.1.length) % 2 ^ 32 := by
      rw [hd.lcrc, hlen, Nat.add_mod_mod]
    obtain ⟨gs', m, body', ts', g1, g2, g3, g4, g5, g6, g7⟩ :=
      ih gs1 (fun x hx => h x (by simp [hx])) hd.state hd.retval hd.tailbuf (by rw [hl1]; exact Nat.mod_lt _ (by decide))
    refine ⟨gs', n + m, body ++ body', ts ++ ts', ?_, g2, ?_, openBlocks_join hop g4, ?_, ?_, ?_⟩
    · rw [List.map_cons, stitchSegs, hcc, h1]
      simp only [Res.ok_bind, hd.retval, ne_eq, not_true_eq_false, if_false]
      exact g1
    · rw [g3, hd.out, List.append_assoc (as := gs.out), hkeep, List.append_assoc]
    · rw [List.map_cons, List.flatten_cons]
      exact expand_append hex g5
    · rw [g6, hd.crc, hcrc, hlen, List.map_cons]
      simp [crcFold]
    · rw [g7, hl1, List.map_cons, List.flatten_cons, List.length_append, Nat.mod_add_mod, Nat.add_assoc]

/-- The stitched file of any segments. -/
theorem stitchAll_done (segs : List (Bytes × Bytes × List Bytes)) (h : ∀ s ∈ segs, Segment s.1 s.2.1 ∧ Cut s.1 s.2.2) :
    ∃ n body ts, openBlocks n (toBits body) = some (ts, []) ∧ expand ts = some (segs.map (·.2.1)).flatten ∧
      stitchAll (segs.map (·.2.2)) = .ok (stitchHead ++ body ++ ([0x01, 0x00, 0x00, 0xff, 0xff] ++
        leEnc 4 (crcFold (segs.map (·.2.1)) 0).toNat ++ leEnc 4 ((segs.map (·.2.1)).flatten.length % 2 ^ 32))) := by
  obtain ⟨gs', n, body, ts, g1, g2, g3, g4, g5, g6, g7⟩ :=
    stitchSegs_done segs (stitchNew collect ([] : Bytes)) h rfl rfl rfl (by decide)
  refine ⟨n, body, ts, g4, g5, ?_⟩
  show (stitchSegs collect (segs.map fun s => s.2.2) (stitchNew collect []) >>= fun gs => pure (stitchFini collect gs).1) = _
  rw [g1]
  simp only [Res.ok_bind]
  unfold stitchFini
  rw [if_pos g2]
  simp only [collect, Res.pure_eq]
  rw [g3, g6, g7]
  have h1 : (stitchNew collect ([] : Bytes)).crc = 0 := Crc.crc32_nil
  have h2 : (stitchNew collect ([] : Bytes)).lcrc = 0 := rfl
  rw [h1, h2, Nat.zero_add]
  rfl

/-! ### Every byte string has a segment: stored blocks of one byte -/

def storedByte (b : UInt8) : Bytes := [0x00, 0x01, 0x00, 0xfe, 0xff, b]

theorem storedByte_fin : ∀ i : Fin 256, openBlocks 1 (toBits (storedByte (UInt8.ofNat i.val))) = some ([.lit (UInt8.ofNat i.val)], []) := by
  decide +kernel

theorem storedByte_block (b : UInt8) : openBlocks 1 (toBits (storedByte b)) = some ([.lit b], []) := by
  have := storedByte_fin ⟨b.toNat, b.toNat_lt⟩
  simpa using this

theorem stored_blocks (d : Bytes) : openBlocks d.length (toBits (d.flatMap storedByte)) = some (d.map .lit, []) := by
  induction d with
  | nil => rfl
  | cons b d ih =>
    rw [List.flatMap_cons, List.length_cons, Nat.add_comm]
    exact openBlocks_join (storedByte_block b) ih

/-- A segment for the given contents. -/
def storedSegment (d : Bytes) : Bytes :=
  aaHead [0, 0, 0, 0] 2 3 (37 + 6 * d.length) ++ d.flatMap storedByte ++ [0x01, 0x00, 0x00, 0xff, 0xff] ++ trailer d

theorem storedSegment_length (d : Bytes) : (storedSegment d).length = 37 + 6 * d.length := by
  have h : (d.flatMap storedByte).length = 6 * d.length := by
    induction d with
    | nil => rfl
    | cons b d ih => rw [List.flatMap_cons, List.length_append, ih, List.length_cons]; simp [storedByte]; omega
  unfold storedSegment
  rw [List.length_append, List.length_append, List.length_append, aaHead_length rfl, h, trailer_length]
  simp only [List.length_cons, List.length_nil]
  omega

theorem storedSegment_ok (d : Bytes) (h : 37 + 6 * d.length < 2 ^ 63) : Segment (storedSegment d) d :=
  ⟨[0, 0, 0, 0], 2, 3, d.flatMap storedByte, _, d.length, d.map .lit, rfl, by rw [storedSegment_length]; rfl,
    by rw [storedSegment_length]; exact h, Or.inl rfl, stored_blocks d, expand_lits d⟩

end Verif.Inflate
