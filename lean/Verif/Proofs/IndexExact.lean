import Verif.Proofs.IndexLookup

namespace Verif.Index
open Verif Spec

theorem hexLc_lt_iff {a b : Nat} (ha : a < 16) (hb : b < 16) : hexLc a = hexLc b ↔ a = b :=
  ⟨hexLc_inj ha hb, fun h => by rw [h]⟩

theorem map_lower_take_nil (n : Nat) : (([] : Bytes).map toLower).take n = [] := by simp

/-- A record that starts with the digits of `k` is not below the zero-filled key. -/
theorem keyBin_le (n : Nat) (k : Bytes) (h : ∀ c ∈ k, isHex c) (r b : Bytes) (hr : r.length = n)
    (hb : idxKeyBin n k = .ok b)
    (hm : (hexStr r).take (min k.length (2 * n)) = (k.map toLower).take (2 * n)) :
    beDec b ≤ beDec r := by
  fun_induction idxKeyBin n k generalizing r b with
  | case1 k => cases hb; simp [beDec]
  | case2 n ih =>
    cases r with
    | nil => simp at hr
    | cons x xs =>
      obtain ⟨b', h1, h2, h3⟩ := idxKeyBin_spec n [] (by simp)
      rw [h1] at hb
      simp only [Res.ok_bind, Res.pure_eq, Res.ok.injEq] at hb
      subst hb
      have := ih (by simp) xs b' (by simpa using hr) h1 (by simp)
      simp only [beDec]
      have h0 : (0 : UInt8).toNat = 0 := rfl
      rw [h0]
      omega
  | case3 n c ih =>
    cases r with
    | nil => simp at hr
    | cons x xs =>
      obtain ⟨b', h1, h2, h3⟩ := idxKeyBin_spec n [] (by simp)
      obtain ⟨j, e1, e2, e3⟩ := idxHexDigit_spec (h c (by simp))
      rw [h1, e1] at hb
      simp only [Res.ok_bind, Res.pure_eq, Res.ok.injEq] at hb
      subst hb
      have := ih (by simp) xs b' (by simpa using hr) h1 (by simp)
      replace hr : xs.length = n := by simpa using hr
      have hx := x.toNat_lt
      have hj : x.toNat / 16 = j := by
        have : min ([c] : Bytes).length (2 * (n + 1)) = 1 := by simp; omega
        rw [this] at hm
        rw [show 2 * (n + 1) = 2 * n + 1 + 1 by omega] at hm
        simp only [hexStr, List.take_succ_cons, List.take_zero, List.map_cons, List.map_nil,
          List.take_nil, List.cons.injEq, and_true] at hm
        rw [← e3] at hm
        exact hexLc_inj (by omega) e2 hm
      simp only [beDec, h2, hr]
      have hv : (UInt8.ofNat (j * 16)).toNat = j * 16 := by simp; omega
      rw [hv]
      have h4 : j * 16 ≤ x.toNat := by omega
      have := Nat.mul_le_mul_right (256 ^ n) h4
      omega
  | case4 n c d ks ih =>
    cases r with
    | nil => simp at hr
    | cons x xs =>
      obtain ⟨b', h1, h2, h3⟩ := idxKeyBin_spec n ks (fun x hx => h x (by simp [hx]))
      obtain ⟨j, e1, e2, e3⟩ := idxHexDigit_spec (h c (by simp))
      obtain ⟨k, f1, f2, f3⟩ := idxHexDigit_spec (h d (by simp))
      rw [h1, e1, f1] at hb
      simp only [Res.ok_bind, Res.pure_eq, Res.ok.injEq] at hb
      subst hb
      replace hr : xs.length = n := by simpa using hr
      have hx := x.toNat_lt
      have hmin : min (c :: d :: ks).length (2 * (n + 1)) = min ks.length (2 * n) + 1 + 1 := by
        simp only [List.length_cons]; omega
      rw [hmin] at hm
      rw [show 2 * (n + 1) = 2 * n + 1 + 1 by omega] at hm
      simp only [hexStr, List.take_succ_cons, List.map_cons, List.cons.injEq] at hm
      obtain ⟨m1, m2, m3⟩ := hm
      rw [← e3] at m1
      rw [← f3] at m2
      have hj := hexLc_inj (by omega) e2 m1
      have hk := hexLc_inj (by omega) f2 m2
      have := ih (fun x hx => h x (by simp [hx])) xs b' hr h1 m3
      simp only [beDec, h2, hr]
      have hv : (UInt8.ofNat (j * 16 + k)).toNat = x.toNat := by simp; omega
      rw [hv]
      omega

/-- Numbers with equal leading bytes are in the same bucket. -/
theorem bkt_of_take {a b : Bytes} {bb m : Nat} (ha : 8 ≤ a.length) (hb : 8 ≤ b.length)
    (hbb : bb ≤ 8 * m) (hbb2 : bb ≤ 64) (h : a.take m = b.take m) :
    bkt bb (key64 a) = bkt bb (key64 b) := by
  -- reduce to m ≤ 8
  have h' : (a.take 8).take (min m 8) = (b.take 8).take (min m 8) := by
    rw [List.take_take, List.take_take]
    have := congrArg (List.take (min m 8)) h
    rw [List.take_take, List.take_take] at this
    rw [show min (min m 8) 8 = min m 8 by omega]
    rwa [show min (min m 8) m = min m 8 by omega] at this
  have hbb' : bb ≤ 8 * min m 8 := by omega
  have hm8 : min m 8 ≤ 8 := by omega
  revert h' hbb' hm8
  generalize min m 8 = q
  intro h' hbb' hm8
  have e1 := beDec_append ((a.take 8).take q) ((a.take 8).drop q)
  have e2 := beDec_append ((b.take 8).take q) ((b.take 8).drop q)
  rw [List.take_append_drop] at e1 e2
  have l1 : ((a.take 8).drop q).length = 8 - q := by simp; omega
  have l2 : ((b.take 8).drop q).length = 8 - q := by simp; omega
  have b1 := beDec_lt ((a.take 8).drop q)
  have b2 := beDec_lt ((b.take 8).drop q)
  rw [l1] at e1 b1
  rw [l2, ← h'] at e2
  rw [l2] at b2
  unfold bkt key64
  rw [e1, e2]
  have hp : 256 ^ (8 - q) = 2 ^ (8 * (8 - q)) := by rw [Nat.pow_mul]
  have hq : 2 ^ (64 - bb) = 2 ^ (8 * (8 - q)) * 2 ^ (64 - bb - 8 * (8 - q)) := by
    rw [← Nat.pow_add]; congr 1; omega
  rw [hq, ← Nat.div_div_eq_div_mul, ← Nat.div_div_eq_div_mul, hp]
  rw [hp] at b1 b2
  congr 1
  have hpos : 0 < 2 ^ (8 * (8 - q)) := Nat.pow_pos (by omega)
  rw [Nat.add_comm, Nat.add_mul_div_right _ _ hpos, Nat.div_eq_of_lt b1,
    Nat.add_comm (_ * _), Nat.add_mul_div_right _ _ hpos, Nat.div_eq_of_lt b2]

theorem chunks_drop_index {F : Bytes} {bp0 : Bucket} {rs : List Bytes} (h : IsIndex F bp0 rs) (j : Nat) :
    chunksOf 32 (F.drop (2 ^ (bp0.bb + 3) + 32 * j)) = rs.drop j := by
  rw [← List.drop_drop, h.skip.2, flatten_drop rs h.len j]
  apply chunksOf_flatten (by omega)
  intro r hr
  exact h.len r (List.mem_of_mem_drop hr)

theorem hexVal_aux (l : Bytes) (a : Nat) :
    (hexStr l).foldl (fun n c => n * 16 + (if c < 58 then c.toNat - 48 else (toLower c).toNat - 87)) a
      = a * 256 ^ l.length + beDec l := by
  have tbl : ∀ j : Fin 16, (if hexLc j < 58 then (hexLc j).toNat - 48 else (toLower (hexLc j)).toNat - 87) = j := by
    decide
  induction l generalizing a with
  | nil => simp [hexStr, beDec]
  | cons x xs ih =>
    have hx := x.toNat_lt
    have t1 := tbl ⟨x.toNat / 16, by omega⟩
    have t2 := tbl ⟨x.toNat % 16, by omega⟩
    simp only at t1 t2
    simp only [hexStr, List.foldl_cons, t1, t2, ih, beDec, List.length_cons]
    have e : (a * 16 + x.toNat / 16) * 16 + x.toNat % 16 = a * 256 + x.toNat := by omega
    rw [e, Nat.pow_succ, Nat.add_mul]
    have : a * 256 * 256 ^ xs.length = a * (256 ^ xs.length * 256) := by
      rw [Nat.mul_assoc, Nat.mul_comm 256]
    omega

theorem hexVal_hexStr (l : Bytes) : hexVal (hexStr l) = beDec l := by
  unfold hexVal; rw [hexVal_aux]; simp

theorem hexVal_lower (l : Bytes) (h : ∀ c ∈ l, isHex c) : hexVal (l.map toLower) = hexVal l := by
  unfold hexVal
  have tbl : ∀ c : Fin 256, isHex (UInt8.ofNat c) →
      (if toLower (UInt8.ofNat c) < 58 then (toLower (UInt8.ofNat c)).toNat - 48
        else (toLower (toLower (UInt8.ofNat c))).toNat - 87) =
      (if UInt8.ofNat c < 58 then (UInt8.ofNat c).toNat - 48 else (toLower (UInt8.ofNat c)).toNat - 87) := by
    set_option maxRecDepth 20000 in decide
  have tb : ∀ c : UInt8, isHex c → (if toLower c < 58 then (toLower c).toNat - 48
        else (toLower (toLower c)).toNat - 87) =
      (if c < 58 then c.toNat - 48 else (toLower c).toNat - 87) := by
    intro c hc
    have := tbl ⟨c.toNat, c.toNat_lt⟩
    simp only [UInt8.ofNat_toNat] at this
    exact this hc
  generalize 0 = a
  induction l generalizing a with
  | nil => rfl
  | cons c cs ih =>
    simp only [List.map_cons, List.foldl_cons]
    rw [tb c (h c (by simp)), ih (fun x hx => h x (by simp [hx]))]

theorem padKey_take16 (k : Bytes) : padKey 16 k = (padKey 24 k).take 16 := by
  unfold padKey
  simp only [List.length_take, List.length_map, List.take_append, List.take_take, List.take_replicate]
  congr 1
  congr 1
  omega

/-- The binary key agrees with the number the digits write. -/
theorem idKey_eq {k keyP : Bytes} (h3 : hexStr keyP = padKey 24 k) : idKey k = key64 keyP := by
  unfold idKey key64
  rw [padKey_take16, ← h3, show 16 = 2 * 8 by rfl, ← hexStr_take, hexVal_hexStr]

theorem keyVal_take {k keyP : Bytes} (hk : ∀ c ∈ k, isHex c) (h3 : hexStr keyP = padKey 24 k) :
    hexVal (k.take (2 * (min k.length 24 / 2))) = beDec (keyP.take (min k.length 24 / 2)) := by
  rw [← hexVal_lower _ (fun c hc => hk c (List.mem_of_mem_take hc)), ← hexVal_hexStr, hexStr_take, h3]
  congr 1
  unfold padKey
  simp only [List.take_append, List.take_take, List.length_take, List.length_map, List.take_replicate,
    List.map_take]
  rw [show min (2 * (min k.length 24 / 2)) 24 = 2 * (min k.length 24 / 2) by omega]
  have : min (2 * (min k.length 24 / 2) - min 24 k.length) (24 - min 24 k.length) = 0 := by omega
  rw [this]
  simp

/-- A file that is a whole number of rows. -/
theorem chunks_rows (F : Bytes) (n : Nat) (h : F.length = 32 * n) :
    chunksOf 32 F = (List.range n).map (row F) ∧ ((List.range n).map (row F)).flatten = F := by
  have hf : ((List.range n).map (row F)).flatten = F := by
    induction n generalizing F with
    | zero => simp at h; subst h; rfl
    | succ n ih =>
      rw [List.range_succ_eq_map, List.map_cons, List.flatten_cons, List.map_map]
      have hrow : row F 0 = F.take 32 := by simp [row]
      have hrest : (List.range n).map (row F ∘ Nat.succ) = (List.range n).map (row (F.drop 32)) := by
        apply List.map_congr_left
        intro j hj
        simp only [Function.comp, row, List.drop_drop]
        congr 2
        omega
      rw [hrow, hrest, ih (F.drop 32) (by simp; omega), List.take_append_drop]
  refine ⟨?_, hf⟩
  conv => lhs; rw [← hf]
  apply chunksOf_flatten (by omega)
  intro r hr
  obtain ⟨j, hj, rfl⟩ := List.mem_map.1 hr
  have := List.mem_range.1 hj
  simp only [row, List.length_take, List.length_drop]
  omega

theorem row_drop (F : Bytes) (p j : Nat) : row (F.drop (32 * p)) j = row F (p + j) := by
  simp only [row, List.drop_drop]
  congr 2
  omega

theorem row_index {F : Bytes} {bp0 : Bucket} {rs : List Bytes} (h : IsIndex F bp0 rs) {i : Nat}
    (hi : i < rs.length) : row F (2 ^ (bp0.bb - 2) + i) = rs[i] := by
  obtain ⟨h1, h2, h3, h4, h5, h6⟩ := h.facts
  have hH : 2 ^ (bp0.bb + 3) = 32 * 2 ^ (bp0.bb - 2) := by
    rw [show bp0.bb + 3 = 5 + (bp0.bb - 2) by omega, Nat.pow_add]
  rw [← row_drop, ← hH, h.skip.2]
  have hlen : rs.flatten.length = 32 * rs.length := by
    rw [← h.skip.2, List.length_drop, h6]; omega
  have := (chunks_rows rs.flatten rs.length hlen).1
  rw [chunksOf_flatten (by omega) rs h.len] at this
  have h9 : rs[i] = ((List.range rs.length).map (row rs.flatten))[i]'(by simpa using hi) := by
    congr 1
  rw [h9]
  simp

theorem index_len {F : Bytes} {bp0 : Bucket} {rs : List Bytes} (h : IsIndex F bp0 rs) :
    F.length = 32 * (2 ^ (bp0.bb - 2) + rs.length) := by
  obtain ⟨h1, h2, h3, h4, h5, h6⟩ := h.facts
  have hH : 2 ^ (bp0.bb + 3) = 32 * 2 ^ (bp0.bb - 2) := by
    rw [show bp0.bb + 3 = 5 + (bp0.bb - 2) by omega, Nat.pow_add]
  rw [h6, hH]; omega

/-- Rows that sort before the key are skipped by the scan. -/
theorem idxScan_skip {σ : Type} (f : σ → Entry → σ × Int) (cl : Nat) (keyP : Bytes) (kp : Option Bytes)
    (hcl : 2 ≤ cl) (hc2 : cl ≤ 24) (hk : keyP.length = 12) (t rs : List Bytes)
    (ht : ∀ r ∈ t, r.length = 32 ∧ beDec (r.take (cl / 2)) < beDec (keyP.take (cl / 2))) (s : σ) :
    idxScan true cl keyP kp f (t ++ rs) s = idxScan true cl keyP kp f rs s := by
  induction t with
  | nil => rfl
  | cons r t ih =>
    obtain ⟨h1, h2⟩ := ht r (by simp)
    have : memcmp (r.take (cl / 2)) (keyP.take (cl / 2)) = .lt :=
      (memcmp_eq_lt (by simp; omega)).2 h2
    rw [List.cons_append, idxScan]
    simp only [h1, this]
    simp [hcl, ih (fun x hx => ht x (by simp [hx]))]


theorem tbl_word (F : Bytes) (h : 8 ≤ F.length) :
    tblBits F = beDec (F.take 8) / 2 ^ 40 % 256 ∧ tblNrec F = beDec (F.take 8) % 2 ^ 40 := by
  have e1 : F.take 8 = F.take 2 ++ (F.drop 2).take 1 ++ (F.drop 3).take 5 := by
    have h1 : F.take 8 = F.take 3 ++ (F.drop 3).take 5 := by rw [← List.take_add]
    have h2 : F.take 3 = F.take 2 ++ (F.drop 2).take 1 := by rw [← List.take_add]
    rw [h1, h2]
  have e2 : (F.drop 2).take 1 = [F.getD 2 0] := by
    rw [List.take_one, List.head?_drop, List.getD_eq_getElem?_getD]
    rw [List.getElem?_eq_getElem (by omega)]
    rfl
  have l5 : ((F.drop 3).take 5).length = 5 := by simp; omega
  have b5 := beDec_lt ((F.drop 3).take 5)
  rw [e1, beDec_append, beDec_append, e2, l5]
  rw [l5] at b5
  unfold tblBits tblNrec
  have := (F.getD 2 0).toNat_lt
  simp only [beDec, List.length_cons, List.length_nil]
  generalize beDec ((F.drop 3).take 5) = x at *
  generalize (F.getD 2 0).toNat = y at *
  generalize beDec (F.take 2) = z
  clear e1 e2 l5 h
  have h5 : 256 ^ 5 = 2 ^ 40 := by decide
  rw [h5] at *
  omega

theorem IsIndex.tbl {F : Bytes} {bp0 : Bucket} {rs : List Bytes} (h : IsIndex F bp0 rs) :
    tblBits F = bp0.bb ∧ tblNrec F = bp0.nrec := by
  obtain ⟨h1, h2, h3, -, -, -⟩ := h.facts
  obtain ⟨w1, w2⟩ := h.word0
  obtain ⟨e1, e2⟩ := tbl_word F w1
  rw [e1, e2, w2]
  clear e1 e2 w1 w2 h
  unfold INDEX_ID
  omega

theorem IsIndex.recKey {F : Bytes} {bp0 : Bucket} {rs : List Bytes} (h : IsIndex F bp0 rs) {i : Nat}
    (hi : i < rs.length) : Spec.recKey F i = key64 rs[i] := by
  unfold Spec.recKey key64
  rw [h.tbl.1, row_index h hi]

theorem IsIndex.numRecs {F : Bytes} {bp0 : Bucket} {rs : List Bytes} (h : IsIndex F bp0 rs) :
    Spec.numRecs F = rs.length := by
  unfold Spec.numRecs
  rw [h.tbl.1, index_len h]
  omega

/-- A full scan of a sorted file that starts at the first record or at a safe seek target. -/
theorem sortedFile_exact {σ : Type} {F : Bytes} {bp0 : Bucket} {rs : List Bytes}
    (h : IsIndex F bp0 rs) (hlen : rs.length ≤ 2 ^ 40) (hn32 : bp0.nrec < 2 ^ 32)
    (hg : ∀ r ∈ rs, GoodRec r) (kp : Option Bytes) (keyP : Bytes)
    (hhex : ∀ c ∈ kp.getD [], isHex c) (hkey : idxKeyBin 12 (kp.getD []) = .ok keyP)
    (hsafe : SeekSafe F (kp.getD []))
    (hcl : bkt bp0.bb (key64 keyP) = 0 ∨ bp0.bb ≤ 8 * (min (kp.getD []).length 24 / 2))
    (f : σ → Entry → σ × Int) (s : σ) :
    ∃ pos, bucketSeek keyP F = .ok pos ∧
      idxScan true (min (kp.getD []).length 24) keyP kp f (chunksOf 32 (F.drop pos)) s =
        .ok (deliver f ((rs.map entryOf).filter (Matches (kp.getD []))) s) := by
  obtain ⟨h1, h2, h3, h4, h5, h6⟩ := h.facts
  obtain ⟨b', k1, k2, k3⟩ := idxKeyBin_spec 12 (kp.getD []) hhex
  have : b' = keyP := by rw [hkey] at k1; cases k1; rfl
  subst this
  rcases Nat.eq_zero_or_pos (bkt bp0.bb (key64 b')) with hz | hpos
  · refine ⟨_, h.seek0 b' hz, ?_⟩
    have := chunks_drop_index h 0
    simp only [Nat.mul_zero, Nat.add_zero, List.drop_zero] at this
    rw [this]
    exact idxScan_sorted f kp b' k3 k2 rs hg h.sorted s
  · have hblt : bkt bp0.bb (key64 b') < 2 ^ bp0.bb := bkt_lt (key64_lt _) (by omega)
    have hslot := h.slotOk hlen hpos hblt
    have hH : 2 ^ (bp0.bb - 2) ≤ 2 ^ 26 := Nat.pow_le_pow_right (by omega) (by omega)
    obtain ⟨t1, t2⟩ := h.tbl
    rw [SeekSafe, h.numRecs, t1, t2, idKey_eq k3] at hsafe
    obtain ⟨q, hq, hrows⟩ := hsafe.resolve_left (fun hc => by unfold bkt at hpos; omega)
    have hq' : ∃ q' : Nat, (q' : Int) ≤ (prd bp0.nrec (key64 b') : Int) + slot bp0 rs (bkt bp0.bb (key64 b')) ∧
        ∀ j, q' ≤ j → j < 2 ^ (bp0.bb - 2) →
      beDec ((row F j).take (min (kp.getD []).length 24 / 2)) <
        hexVal ((kp.getD []).take (2 * (min (kp.getD []).length 24 / 2))) := by
      rcases hslot.2 with hv | ⟨i, hi, hbi, hv⟩
      · refine ⟨2 ^ (bp0.bb - 2), ?_, fun j h1 h2 => by omega⟩
        rw [hv]
        have : ((2 : Int) ^ 31) = 2147483648 := by decide
        omega
      · refine ⟨q, ?_, hrows⟩
        rw [hv]
        have := hq i hi (by rw [h.recKey hi]; exact hbi)
        rw [h.recKey hi] at this
        have e1 : predicted bp0.nrec (key64 rs[i]) = prd bp0.nrec (key64 rs[i]) := rfl
        have e2 : predicted bp0.nrec (key64 b') = prd bp0.nrec (key64 b') := rfl
        rw [e1, e2] at this
        omega
    clear hq hrows q
    obtain ⟨q, hge, hrows⟩ := hq'
    obtain ⟨p, hp⟩ : ∃ p : Nat, (prd bp0.nrec (key64 b') : Int) + slot bp0 rs (bkt bp0.bb (key64 b')) = p :=
      ⟨_, (Int.toNat_of_nonneg (Int.le_trans (Int.natCast_nonneg _) hge)).symm⟩
    have hseek := h.seekPos hlen hn32 b' hpos
    rw [hp] at hseek hge
    rw [if_neg (by omega), Int.toNat_natCast] at hseek
    refine ⟨_, hseek, ?_⟩
    have hqp : q ≤ p := by omega
    have hpe : 2 ^ (bp0.bb + 3) = 2 ^ (bp0.bb - 2) * 32 := by
      rw [show bp0.bb + 3 = (bp0.bb - 2) + 5 by omega, Nat.pow_add]
    have hcl2 : 2 ≤ min (kp.getD []).length 24 := by
      have := hcl.resolve_left (by omega)
      omega
    -- the rows of the table that are read are skipped
    have hchunks : ∃ t, chunksOf 32 (F.drop (p * 32)) = t ++ rs.drop (p - 2 ^ (bp0.bb - 2)) ∧
        ∀ r ∈ t, r.length = 32 ∧ beDec (r.take (min (kp.getD []).length 24 / 2)) <
          beDec (b'.take (min (kp.getD []).length 24 / 2)) := by
      rcases Nat.le_total (2 ^ (bp0.bb - 2)) p with hc | hc
      · refine ⟨[], ?_, by simp⟩
        rw [← chunks_drop_index h]
        simp only [List.nil_append]
        congr 2
        omega
      · have hFl := index_len h
        refine ⟨(List.range (2 ^ (bp0.bb - 2) - p)).map fun j => row F (p + j), ?_, ?_⟩
        · have hl : (F.drop (32 * p)).length = 32 * ((2 ^ (bp0.bb - 2) - p) + rs.length) := by
            rw [List.length_drop, hFl]; omega
          rw [Nat.mul_comm p 32, (chunks_rows _ _ hl).1, List.range_add, List.map_append, List.map_map]
          congr 1
          · apply List.map_congr_left
            intro j _
            exact row_drop F p j
          · rw [show p - 2 ^ (bp0.bb - 2) = 0 by omega, List.drop_zero]
            apply List.ext_getElem
            · simp
            · intro i hi1 hi2
              simp only [List.getElem_map, List.getElem_range, Function.comp]
              rw [row_drop, ← row_index h hi2]
              congr 1
              omega
        · intro r hr
          obtain ⟨j, hj, rfl⟩ := List.mem_map.1 hr
          have := List.mem_range.1 hj
          refine ⟨?_, ?_⟩
          · simp only [row, List.length_take, List.length_drop, hFl]
            omega
          · rw [← keyVal_take hhex k3]
            exact hrows (p + j) (by omega) (by omega)
    obtain ⟨t, ht, ht2⟩ := hchunks
    rw [ht, idxScan_skip f _ b' kp hcl2 (by omega) k2 t _ ht2 s]
    clear ht ht2 t
    generalize hj : p - 2 ^ (bp0.bb - 2) = j
    have hsplit : rs.map entryOf = (rs.take j).map entryOf ++ (rs.drop j).map entryOf := by
      rw [← List.map_append, List.take_append_drop]
    have hnone : ((rs.take j).map entryOf).filter (Matches (kp.getD [])) = [] := by
      rw [List.filter_eq_nil_iff]
      intro e he hm
      rw [List.mem_map] at he
      obtain ⟨x, hx, rfl⟩ := he
      obtain ⟨i, hi, rfl⟩ := List.mem_iff_getElem.1 hx
      have hij : i < j := by simp at hi; omega
      have hil : i < rs.length := by simp at hi; omega
      rw [List.getElem_take] at hm
      have hgi := hg rs[i] (List.getElem_mem _)
      have hm' := (matches_iff hgi.1).1 hm
      have hbytes := match_bytes k3 hm'
      have hcl' := hcl.resolve_left (by omega)
      have hb : bkt bp0.bb (key64 rs[i]) = bkt bp0.bb (key64 b') :=
        bkt_of_take (by rw [hgi.1]; omega) (by omega) hcl' (by omega) hbytes
      have hle : key64 b' ≤ key64 rs[i] := by
        have hlt12 : (rs[i].take 12).length = 12 := by simp [hgi.1]
        have := keyBin_le 12 (kp.getD []) hhex (rs[i].take 12) b' hlt12 hkey hm'
        have := take_mono' (a := b') (b := rs[i].take 12) (by omega) 8 this
        rw [List.take_take] at this
        exact this
      have h7 := hslot.1 i hil hb
      have h8 : prd bp0.nrec (key64 b') ≤ prd bp0.nrec (key64 rs[i]) := prd_mono hle
      omega
    rw [hsplit, List.filter_append, hnone, List.nil_append]
    apply idxScan_sorted f kp b' k3 k2 (rs.drop j)
    · intro r hr; exact hg r (List.mem_of_mem_drop hr)
    · exact List.Pairwise.sublist (List.drop_sublist _ _) h.sorted

end Verif.Index
