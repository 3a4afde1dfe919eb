/-
Properties C19 - C22: the archived length field, stitching, and CRC arithmetic.
-/
import Verif.Proofs.Segment

namespace Verif.Props
open Verif Gzip Inflate

/-! ### C19 -/

/-- C19, round-trip: a length written with `Gzip_WriteAa` is the length `Gzip_ReadAa` reads back, from a
buffer that has at least 24 bytes of the member, and nothing else in the file has changed. -/
theorem C19_roundtrip (file : Bytes) (pos : Nat) (len : Nat) (file' : Bytes) (h0 : 0 < len) (h63 : len < 2 ^ 63)
    (hsz : pos + 24 ≤ file.length) (hw : writeAa file pos len = .ok file') (l : Nat) (hl : 24 ≤ l) :
    readAa ((file'.drop pos).take l) l = .ok (len : Int) ∧ file'.length = file.length ∧
    file'.take (pos + 16) = file.take (pos + 16) ∧ file'.drop (pos + 24) = file.drop (pos + 24) := by
  unfold writeAa at hw
  rw [Res.check_bind_eq_ok] at hw
  obtain ⟨_, hw⟩ := hw
  rw [Res.check_bind_eq_ok] at hw
  obtain ⟨hb, hw⟩ := hw
  rw [Res.bind_eq_ok] at hw
  obtain ⟨g, hg, hw⟩ := hw
  rw [Res.check_bind_eq_ok] at hw
  obtain ⟨hgt, hw⟩ := hw
  rw [ofInt64_nat h63] at hw
  cases hw
  have hb16 : ((file.drop pos).take 16).length = 16 := by simpa using hb
  have ht : (file.take (pos + 16)).length = pos + 16 := by rw [List.length_take]; omega
  have htl : (file.take (pos + 16) ++ leEnc 8 len).length = pos + 24 := by
    rw [List.length_append, ht, leEnc_length]
  -- the 24 bytes at pos
  have hdrop : (file.take (pos + 16) ++ leEnc 8 len ++ file.drop (pos + 24)).drop pos =
      (file.drop pos).take 16 ++ (leEnc 8 len ++ file.drop (pos + 24)) := by
    rw [List.append_assoc, List.drop_append_of_le_length (by rw [ht]; omega), List.drop_take,
      show pos + 16 - pos = 16 by omega]
  refine ⟨?_, ?_, ?_, ?_⟩
  · rw [hdrop]
    obtain ⟨X, hX⟩ : ∃ X, X = (file.drop pos).take 16 := ⟨_, rfl⟩
    rw [← hX] at hb16 hg ⊢
    have hbuf : (X ++ (leEnc 8 len ++ file.drop (pos + 24))).take l =
        X ++ (leEnc 8 len ++ (file.drop (pos + 24)).take (l - 24)) := by
      rw [List.take_append, hb16, List.take_of_length_le (by omega), List.take_append, leEnc_length,
        List.take_of_length_le (by rw [leEnc_length]; omega), show l - 16 - 8 = l - 24 by omega]
    rw [hbuf]
    have hgood : goodAa (X ++ (leEnc 8 len ++ (file.drop (pos + 24)).take (l - 24))) l = .ok true := by
      unfold goodAa at hg ⊢
      rw [decide_eq_true (by omega : 16 ≤ l),
        decide_eq_true (by rw [List.length_append, hb16]; omega : 16 ≤ (X ++ (leEnc 8 len ++ (file.drop (pos + 24)).take (l - 24))).length)]
      rw [hb16] at hg
      simp only [Nat.le_refl, decide_true, Res.check_true, Res.access_true, Res.ok_bind] at hg ⊢
      rw [List.take_left' hb16]
      rw [List.take_of_length_le (by omega)] at hg
      rw [hg, hgt]
    unfold readAa
    rw [hgood]
    simp only [Res.ok_bind, Res.check_true]
    rw [decide_eq_true (by omega : 8 + 8 ≤ l), decide_eq_true (by
      simp only [List.length_append, hb16, leEnc_length]; omega)]
    simp only [Res.check_true, Res.access_true, Res.ok_bind]
    rw [List.drop_left' hb16, List.take_left' (leEnc_length _ _), leDec_leEnc]
    rw [Nat.mod_eq_of_lt (Nat.lt_trans h63 (by decide)), toInt64_of_lt h63]
    rw [decide_eq_true (by omega)]
    rfl
  · rw [List.length_append, htl, List.length_drop]; omega
  · rw [List.append_assoc, List.take_left' ht]
  · rw [List.drop_left' htl]

/-- C19, headers: the member made of a header block says its own length, and differs only in that field. -/
theorem C19_vsb (gz gz' : Bytes) (h63 : gz.length < 2 ^ 63) (h : gzipVsb gz = .ok gz') :
    readAa gz' gz'.length = .ok (gz.length : Int) ∧ gz'.length = gz.length ∧ gz'.take 16 = gz.take 16 ∧
    gz'.drop 24 = gz.drop 24 := by
  unfold gzipVsb at h
  rw [Res.bind_eq_ok] at h
  obtain ⟨g, hg, h⟩ := h
  rw [Res.check_bind_eq_ok] at h
  obtain ⟨hgt, h⟩ := h
  rw [Res.access_bind_eq_ok] at h
  obtain ⟨h24, h⟩ := h
  have h24 : 24 ≤ gz.length := by simpa using h24
  have hb : ((gz.drop 0).take 16).length = 16 := by rw [List.drop_zero, List.length_take]; omega
  have hgood : goodAa ((gz.drop 0).take 16) 16 = .ok true := by
    unfold goodAa at hg ⊢
    rw [List.drop_zero, List.take_take, Nat.min_self]
    rw [decide_eq_true (by omega : 16 ≤ gz.length)] at hg
    rw [List.drop_zero] at hb
    rw [hb]
    simp only [Nat.le_refl, decide_true, Res.check_true, Res.access_true, Res.ok_bind] at hg ⊢
    rw [hg, hgt]
  have hw : writeAa gz 0 (gz.length : Int) = .ok gz' := by
    unfold writeAa
    rw [decide_eq_true (by omega : (0 : Int) < (gz.length : Int)), ofInt64_nat h63]
    simp only [hb, hgood, decide_true, Res.check_true, Res.ok_bind]
    exact h
  obtain ⟨r, hl, h1, h2⟩ := C19_roundtrip gz 0 gz.length gz' (by omega) h63 (by omega) hw gz.length h24
  refine ⟨?_, hl, by simpa using h1, by simpa using h2⟩
  rw [List.drop_zero, List.take_of_length_le (by omega)] at r
  rw [hl]; exact r

/-- C19, bounds: with 24 bytes in the buffer, or with fewer than 16, the reader stays inside it. -/
theorem C19_in_bounds_partial (mem : Bytes) (h : 24 ≤ mem.length ∨ mem.length < 16) : readAa mem mem.length ≠ .ub := by
  unfold readAa goodAa
  rcases h with h | h
  · rw [decide_eq_true (by omega : 16 ≤ mem.length), decide_eq_true h]
    simp only [Res.check_true, Res.access_true, Res.ok_bind]
    split
    · simp
    · simp only [Res.pure_eq, Res.ok_bind]
      cases decide ((mem.take 16).set 8 2 = gzipHead) with
      | false => simp
      | true =>
        simp only [Res.check_true, Res.ok_bind]
        cases decide (0 < toInt64 (leDec ((mem.drop 16).take 8))) <;> simp
  · rw [decide_eq_false (by omega : ¬ 16 ≤ mem.length)]
    simp

/-- C19 is false for buffers of 16 to 23 bytes: the check compares with 16 (`sizeof sizeof`), so the length
is read from outside the buffer. -/
theorem C19_counterexample_bounds (t : Bytes) (ht : t.length < 8) : readAa (gzipHead ++ t) (gzipHead ++ t).length = .ub := by
  have hl : (gzipHead ++ t).length = 16 + t.length := by rw [List.length_append]; rfl
  unfold readAa goodAa
  rw [hl, decide_eq_true (by omega : 16 ≤ 16 + t.length),
    decide_eq_false (by omega : ¬ 24 ≤ 16 + t.length), List.take_left' (by rfl)]
  rfl

example : writeAa (gzipHead ++ List.replicate 10 7) 0 258 =
    .ok (gzipHead ++ [2, 1, 0, 0, 0, 0, 0, 0] ++ [7, 7]) := by decide

/-! ### C20, C21, C22: stitching -/

/-- A segment of the archive is itself a gzip file with the right contents, so the notion is not empty. -/
theorem C20_segment_is_gzip {gz data : Bytes} (h : Segment gz data) : gunzip gz = some data := segment_gunzip h

/-- C20: stitching any number of segments, delivered in any chunks whose first one holds the header,
produces one valid gzip member, and its contents are the contents of the segments in order.  The
segments' contents are shorter than 4 GiB each; their sum may be longer. -/
theorem C20_stitch_partial (segs : List (Bytes × Bytes × List Bytes))
    (h : ∀ s ∈ segs, Segment s.1 s.2.1 ∧ s.2.1.length < 2 ^ 32 ∧ Cut s.1 s.2.2) :
    ∃ out, stitchAll (segs.map (·.2.2)) = .ok out ∧ gunzip out = some (segs.map (·.2.1)).flatten := by
  obtain ⟨n, body, ts, g4, g5, g⟩ := stitchAll_done segs (fun s hs => ⟨(h s hs).1, (h s hs).2.2⟩)
  refine ⟨_, g, ?_⟩
  have hc : crcFold (segs.map (·.2.1)) 0 = Crc.crc32 (segs.map (·.2.1)).flatten := by
    have := crcFold_short (segs.map (·.2.1)) [] (by
      intro d hd
      obtain ⟨s, hs, rfl⟩ := List.mem_map.mp hd
      exact (h s hs).2.1)
    rw [Crc.crc32_nil] at this
    exact this
  rw [hc]
  have hh : gzHeader (stitchHead ++ body ++ ([0x01, 0x00, 0x00, 0xff, 0xff] ++ leEnc 4 (Crc.crc32 (segs.map (·.2.1)).flatten).toNat ++
      leEnc 4 ((segs.map (·.2.1)).flatten.length % 2 ^ 32))) =
      some (body ++ [0x01, 0x00, 0x00, 0xff, 0xff] ++ trailer (segs.map (·.2.1)).flatten ++ []) := by
    unfold trailer
    simp only [List.append_assoc, List.append_nil]
    rfl
  unfold gunzip
  rw [gunzip1_intro hh (deflate_stored g4) (by simp) g5]

/-- C21: the bytes produced by stitching do not depend on the cut into chunks. -/
theorem C21_chunking (segs : List (Bytes × List Bytes × List Bytes))
    (h : ∀ s ∈ segs, ∃ data, Segment s.1 data) (hcut : ∀ s ∈ segs, Cut s.1 s.2.1 ∧ Cut s.1 s.2.2) :
    stitchAll (segs.map (·.2.1)) = stitchAll (segs.map (·.2.2)) ∧ ∃ out, stitchAll (segs.map (·.2.1)) = .ok out := by
  have key : ∀ (segs : List (Bytes × List Bytes × List Bytes)) (g1 g2 : Stitch Bytes),
      (∀ s ∈ segs, ∃ H M T, s.1 = H ++ M ++ T ∧ HeadOk H s.1.length ∧ T.length = 13 ∧ TailOk T) →
      (∀ s ∈ segs, Cut s.1 s.2.1 ∧ Cut s.1 s.2.2) →
      g1.state = .outside → g1.retval = 0 → g1.tailbuf.length = 13 →
      g2.state = .outside → g2.retval = 0 → g2.tailbuf.length = 13 →
      g1.out = g2.out → g1.crc = g2.crc → g1.lcrc = g2.lcrc →
      ∃ r1 r2, stitchSegs collect (segs.map (·.2.1)) g1 = .ok r1 ∧ stitchSegs collect (segs.map (·.2.2)) g2 = .ok r2 ∧
        r1.retval = 0 ∧ r2.retval = 0 ∧ r1.out = r2.out ∧ r1.crc = r2.crc ∧ r1.lcrc = r2.lcrc := by
    intro segs
    induction segs with
    | nil =>
      intro g1 g2 _ _ _ v1 _ _ v2 _ ho hc hl
      exact ⟨g1, g2, rfl, rfl, v1, v2, ho, hc, hl⟩
    | cons s segs ih =>
      intro g1 g2 h hcut s1 v1 t1 s2 v2 t2 ho hc hl
      obtain ⟨H, M, T, hgz, hH, hT, hok⟩ := h s (by simp)
      obtain ⟨⟨f1, c1, cs1, e1, l1⟩, ⟨f2, c2, cs2, e2, l2⟩⟩ := hcut s (by simp)
      obtain ⟨a1, x1, d1⟩ := seg_done c1 cs1 g1 H M T s.1.length hH hT hok (by rw [← hgz]) l1
        (by rw [← e1, f1]; exact hgz) s1 v1 t1
      obtain ⟨a2, x2, d2⟩ := seg_done c2 cs2 g2 H M T s.1.length hH hT hok (by rw [← hgz]) l2
        (by rw [← e2, f2]; exact hgz) s2 v2 t2
      obtain ⟨r1, r2, y1, y2, z⟩ := ih a1 a2 (fun x hx => h x (by simp [hx])) (fun x hx => hcut x (by simp [hx]))
        d1.state d1.retval d1.tailbuf d2.state d2.retval d2.tailbuf
        (by rw [d1.out, d2.out, ho]) (by rw [d1.crc, d2.crc, hc]) (by rw [d1.lcrc, d2.lcrc, hl])
      refine ⟨r1, r2, ?_, ?_, z⟩
      · rw [List.map_cons, stitchSegs, e1, x1]
        simp only [Res.ok_bind, d1.retval, ne_eq, not_true_eq_false, if_false]
        exact y1
      · rw [List.map_cons, stitchSegs, e2, x2]
        simp only [Res.ok_bind, d2.retval, ne_eq, not_true_eq_false, if_false]
        exact y2
  have h' : ∀ s ∈ segs, ∃ H M T, s.1 = H ++ M ++ T ∧ HeadOk H s.1.length ∧ T.length = 13 ∧ TailOk T := by
    intro s hs
    obtain ⟨data, hd⟩ := h s hs
    obtain ⟨H, M, T, body, n, ts, a1, a2, a3, a4, _⟩ := segment_split hd
    exact ⟨H, M, T, a1, a2, a3, a4⟩
  obtain ⟨r1, r2, y1, y2, v1, v2, ho, hc, hl⟩ := key segs (stitchNew collect []) (stitchNew collect []) h' hcut
    rfl rfl rfl rfl rfl rfl rfl rfl rfl
  have e : ∀ l r, stitchSegs collect l (stitchNew collect []) = .ok r → stitchAll l = .ok (stitchFini collect r).1 := by
    intro l r hr
    show (do
      let gs ← stitchSegs collect l (stitchNew collect [])
      pure (stitchFini collect gs).1) = _
    rw [hr]; rfl
  refine ⟨?_, _, e _ _ y1⟩
  rw [e _ _ y1, e _ _ y2]
  unfold stitchFini
  rw [if_pos v1, if_pos v2, ho, hc, hl]

/-- C22: the checksum of a concatenation from the checksums of the parts and the length of the second. -/
theorem C22_combine (a b : Bytes) : Crc.crc32 (a ++ b) = Crc.combine (Crc.crc32 a) (Crc.crc32 b) b.length :=
  Crc.crc32_append a b

/-- C22 fails with the 32 bit length from the gzip trailer: after any 4 GiB of data the combined checksum is wrong. -/
theorem C22_counterexample_length (b : Bytes) (hb : b.length = 2 ^ 32) :
    Crc.combine (Crc.crc32 b!"a") (Crc.crc32 b) (b.length % 2 ^ 32) ≠ Crc.crc32 (b!"a" ++ b) := by
  rw [Crc.crc32_append, hb, Nat.mod_self]
  unfold Crc.combine
  rw [Crc.bitSteps_wrap]
  intro h
  have := (BitVec.xor_left_inj _).mp h
  revert this
  decide +kernel

/-- C20 is false without the limit: a segment of 4 GiB behind a segment "a" gives a file that is not a valid gzip file. -/
theorem C20_counterexample_long : ∃ segs : List (Bytes × Bytes × List Bytes),
    (∀ s ∈ segs, Segment s.1 s.2.1 ∧ Cut s.1 s.2.2) ∧
    ∃ out, stitchAll (segs.map (·.2.2)) = .ok out ∧ gunzip out = none := by
  obtain ⟨b, hb⟩ : ∃ b : Bytes, b.length = 2 ^ 32 := ⟨List.replicate (2 ^ 32) 0, List.length_replicate⟩
  have hcut : ∀ d, Cut (storedSegment d) [storedSegment d] := fun d =>
    ⟨by simp, _, [], rfl, by rw [storedSegment_length]; omega⟩
  refine ⟨[(storedSegment b!"a", b!"a", [storedSegment b!"a"]), (storedSegment b, b, [storedSegment b])], ?_, ?_⟩
  · intro s hs
    rcases List.mem_cons.mp hs with rfl | hs
    · exact ⟨storedSegment_ok _ (by decide), hcut _⟩
    · rcases List.mem_singleton.mp hs with rfl
      exact ⟨storedSegment_ok _ (by rw [hb]; decide), hcut _⟩
  · obtain ⟨n, body, ts, g4, g5, g⟩ := stitchAll_done
      [(storedSegment b!"a", b!"a", [storedSegment b!"a"]), (storedSegment b, b, [storedSegment b])] (by
        intro s hs
        rcases List.mem_cons.mp hs with rfl | hs
        · exact ⟨storedSegment_ok _ (by decide), hcut _⟩
        · rcases List.mem_singleton.mp hs with rfl
          exact ⟨storedSegment_ok _ (by rw [hb]; decide), hcut _⟩)
    refine ⟨_, g, ?_⟩
    have hcrc : crcFold [b!"a", b] 0 ≠ Crc.crc32 (b!"a" ++ b) := by
      have h1 : crcFold [b!"a", b] 0 = Crc.combine (Crc.crc32 b!"a") (Crc.crc32 b) (b.length % 2 ^ 32) := by
        unfold crcFold
        rw [List.foldl_cons, List.foldl_cons, List.foldl_nil,
          show Crc.combine 0 (Crc.crc32 b!"a") (b!"a".length % 2 ^ 32) = Crc.crc32 b!"a" by decide]
      rw [h1]
      exact C22_counterexample_length b hb
    simp only [List.map_cons, List.map_nil, List.flatten_cons, List.flatten_nil, List.append_nil] at g5 ⊢
    obtain ⟨crc, hc⟩ : ∃ crc, crc = crcFold [b!"a", b] 0 := ⟨_, rfl⟩
    rw [← hc] at hcrc ⊢
    unfold gunzip
    rw [gunzip1_wrong_crc (S := body ++ [0x01, 0x00, 0x00, 0xff, 0xff]) (crc := crc)
      (tail := leEnc 4 ((b!"a" ++ b).length % 2 ^ 32)) ?_ (deflate_stored g4) (by simp) g5 hcrc]
    simp only [List.append_assoc]
    rfl

/-- The conditions are met by what zlib writes: a block, a sync flush, the final block, here for "ab". -/
example :
    let gz : Bytes := [0x1f, 0x8b, 0x08, 0x04, 0, 0, 0, 0, 2, 3, 0x0c, 0, 0x41, 0x61, 8, 0, 42, 0, 0, 0, 0, 0, 0, 0,
      0x4a, 0x4c, 0x02, 0x00, 0x00, 0x00, 0xff, 0xff, 0x03, 0x00, 0x6d, 0x48, 0x83, 0x9e, 2, 0, 0, 0]
    Segment gz b!"ab" ∧ Cut gz [gz.take 30, [], gz.drop 30] := by
  refine ⟨⟨[0, 0, 0, 0], 2, 3, [0x4a, 0x4c, 0x02, 0x00, 0x00, 0x00, 0xff, 0xff], [0x03, 0x00], 2, [.lit 97, .lit 98],
    rfl, by decide +kernel, by decide, Or.inr ⟨rfl, by decide⟩, by decide +kernel, by decide⟩, by decide, _, _, rfl, by decide⟩

/-- Stitching two such segments. -/
example :
    let gz : Bytes := [0x1f, 0x8b, 0x08, 0x04, 0, 0, 0, 0, 2, 3, 0x0c, 0, 0x41, 0x61, 8, 0, 42, 0, 0, 0, 0, 0, 0, 0,
      0x4a, 0x4c, 0x02, 0x00, 0x00, 0x00, 0xff, 0xff, 0x03, 0x00, 0x6d, 0x48, 0x83, 0x9e, 2, 0, 0, 0]
    (stitchAll [[gz.take 30, gz.drop 30], [gz]] >>= fun o => pure (gunzip o)) = Res.ok (some b!"abab") := by decide +kernel

/-- The separator between records is a gzip member with two line ends. -/
theorem C20_separator : gunzip crnlcrnl = some [13, 10, 13, 10] := by decide +kernel

end Verif.Props
