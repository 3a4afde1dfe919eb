/-
Properties C23, C24, C51: reading silos.
-/
import Verif.Proofs.Rsilo
import Verif.Props.Gzip
import Verif.Spec.Record

namespace Verif.Props
open Verif Gzip Header Inflate Rsilo

theorem cstr_eq {t : Bytes} (h : (0 : UInt8) ∉ t) : cstr t = t := by
  unfold cstr
  induction t with
  | nil => rfl
  | cons a t ih =>
    have ha : (a != 0) = true := by
      simp only [bne_iff_ne, ne_eq]
      rintro rfl
      exact h (by simp)
    rw [List.takeWhile_cons_of_pos (by simpa using ha), ih (fun hm => h (by simp [hm]))]

theorem take_append_le {α : Type} (a b : List α) (n : Nat) (h : a.length ≤ n) : (a ++ b).take n = a ++ b.take (n - a.length) := by
  rw [List.take_append, List.take_of_length_le h]

/-- The state of a reader that has just read the header of a record at `off`. -/
def atBody (file : Bytes) (off : Nat) (r : Rec) : Rs :=
  { file := file, pos := off + r.hgz.length, bodylen := r.bgz.length, whr := .body }

/-- The state of a reader that has just read the body of a record at `off`. -/
def atCrlf (file : Bytes) (off : Nat) (r : Rec) (bl : Int) : Rs :=
  { file := file, pos := off + r.hgz.length + r.bgz.length, bodylen := bl, whr := .crlf }

theorem readHeader_rec {ps : Nat} {pfx pre post : Bytes} {r : Rec} {h : Hdr} (hc : r.Complete pfx h) (hf : r.Fits ps) (bl : Int) :
    readHeader ps pfx { file := pre ++ r.bytes ++ post, pos := pre.length, bodylen := bl, whr := .head } =
      .ok (some h, atBody (pre ++ r.bytes ++ post) pre.length r) := by
  obtain ⟨rs, hrs⟩ : ∃ rs : Rs, rs = { file := pre ++ r.bytes ++ post, pos := pre.length, bodylen := bl, whr := .head } := ⟨_, rfl⟩
  have hread : Rsilo.read rs ps = r.hgz ++ (r.bgz ++ separator ++ post).take (ps - r.hgz.length) := by
    unfold Rsilo.read
    rw [hrs]
    simp only
    rw [List.append_assoc, List.drop_left' rfl, Rec.bytes, List.append_assoc, List.append_assoc,
      take_append_le _ _ _ (by have := hf.packed; omega), List.append_assoc]
  have hb := member_length hc.body
  have hpk := hf.packed
  have hbl : readAa ((r.bgz ++ separator ++ post).take (ps - r.hgz.length)) ((r.bgz ++ separator ++ post).take (ps - r.hgz.length)).length =
      .ok (r.bgz.length : Int) := by
    by_cases hle : ps - r.hgz.length ≤ r.bgz.length
    · have := member_readAa hc.body (r.bgz.take (ps - r.hgz.length)) (by rw [List.length_take]; omega)
        (r.bgz.drop (ps - r.hgz.length)) (List.take_append_drop _ _) []
      rw [List.append_nil] at this
      rw [List.append_assoc, List.take_append_of_le_length hle]
      exact this
    · have := member_readAa hc.body r.bgz (by omega) [] (by simp) ((separator ++ post).take (ps - r.hgz.length - r.bgz.length))
      rw [List.append_assoc, take_append_le _ _ _ (by omega)]
      exact this
  have hparse : headerParse pfx (cstr r.text) = .ok h := by rw [cstr_eq hc.nonul]; exact hc.parse
  rw [← hrs]
  rw [readHeader_page (by rw [hrs]) (by rw [hread]; exact member_gunzip1 hc.head _) hf.plain hbl hparse]
  rw [hread, List.length_append, Nat.add_sub_cancel, hrs]
  rfl

theorem skipCRNL_rec {pre post : Bytes} {r : Rec} (bl : Int) :
    skipCRNL (atCrlf (pre ++ r.bytes ++ post) pre.length r bl) =
      .ok { file := pre ++ r.bytes ++ post, pos := (pre ++ r.bytes).length, bodylen := bl, whr := .head } := by
  have hd : Rsilo.read (atCrlf (pre ++ r.bytes ++ post) pre.length r bl) 24 = separator := by
    unfold Rsilo.read atCrlf
    simp only
    rw [Rec.bytes]
    have : (pre ++ (r.hgz ++ r.bgz ++ separator) ++ post) = (pre ++ r.hgz ++ r.bgz) ++ (separator ++ post) := by
      simp only [List.append_assoc]
    rw [this, List.drop_left' (by simp only [List.length_append]), List.take_left' (by rfl)]
  unfold skipCRNL
  rw [show crnlcrnl.length = 24 from rfl]
  simp only [hd]
  have hsep : separator = crnlcrnl := rfl
  have hl : separator.length = 24 := rfl
  rw [show (atCrlf (pre ++ r.bytes ++ post) pre.length r bl).whr = .crlf from rfl]
  simp only [hsep, decide_true, Res.check_true, Res.ok_bind]
  have hp : pre.length + r.hgz.length + r.bgz.length + 24 = (pre ++ r.bytes).length := by
    simp only [Rec.bytes, List.length_append, hl]; omega
  unfold atCrlf
  simp only [show crnlcrnl.length = 24 from rfl, hp, Res.pure_eq, decide_true, Res.check_true, Res.ok_bind]

theorem nextHeader_rec {pre post : Bytes} {r : Rec} :
    nextHeader (atBody (pre ++ r.bytes ++ post) pre.length r) =
      .ok { file := pre ++ r.bytes ++ post, pos := (pre ++ r.bytes).length, bodylen := r.bgz.length, whr := .head } := by
  unfold nextHeader atBody
  simp only [decide_true, Res.check_true, Res.ok_bind]
  have hl : crnlcrnl.length = 24 := rfl
  have hs : separator.length = 24 := rfl
  rw [hl, decide_eq_true (by omega)]
  simp only [Res.check_true, Res.ok_bind]
  congr 1
  simp only [Rs.mk.injEq, true_and, and_true]
  simp only [Rec.bytes, List.length_append, hs]
  omega

theorem readChunk_rec {σ : Type} {pfx pre post : Bytes} {r : Rec} {h : Hdr} (hc : r.Complete pfx h)
    (cut : Bytes → List Bytes) (func : ByteIter σ) (s : σ) :
    readChunk cut func (atBody (pre ++ r.bytes ++ post) pre.length r) s = (do
      let d ← deliver func (cut r.data) s
      pure (d.1, atCrlf (pre ++ r.bytes ++ post) pre.length r r.bgz.length, if d.2 then r.bgz.length else 0)) := by
  have hd : (atBody (pre ++ r.bytes ++ post) pre.length r).file.drop (atBody (pre ++ r.bytes ++ post) pre.length r).pos =
      r.bgz ++ (separator ++ post) := by
    unfold atBody
    simp only
    rw [Rec.bytes]
    have : (pre ++ (r.hgz ++ r.bgz ++ separator) ++ post) = (pre ++ r.hgz) ++ (r.bgz ++ (separator ++ post)) := by
      simp only [List.append_assoc]
    rw [this, List.drop_left' (by simp only [List.length_append])]
  unfold readChunk
  rw [hd, member_gunzip1 hc.body]
  rw [show (atBody (pre ++ r.bytes ++ post) pre.length r).whr = .body from rfl]
  simp only [decide_true, Res.check_true, Res.ok_bind]
  have hlen : (r.bgz ++ (separator ++ post)).length - (separator ++ post).length = r.bgz.length := by
    rw [List.length_append (as := r.bgz)]; omega
  rw [hlen]
  rfl

/-- The pieces in which `Rsilo_ReadGZChunk` reads the body. -/
def pieces (n : Nat) : (fuel : Nat) → Bytes → List Bytes
  | 0, _ => []
  | fuel + 1, l => if l = [] then [] else l.take n :: pieces n fuel (l.drop n)

theorem pieces_flatten (n : Nat) (hn : 0 < n) (fuel : Nat) (l : Bytes) (hf : l.length ≤ fuel) : (pieces n fuel l).flatten = l := by
  induction fuel generalizing l with
  | zero => rw [List.length_eq_zero_iff.mp (Nat.le_zero.mp hf)]; rfl
  | succ f ih =>
    rw [pieces]
    split
    · next h => rw [h]; rfl
    · next h =>
      rw [List.flatten_cons, ih _ (by
        rw [List.length_drop]
        have := List.length_pos_iff.mpr h
        omega), List.take_append_drop]

theorem gzLoop_pieces {σ : Type} (ps : Nat) (hps : 0 < ps) (func : ByteIter σ) (fuel : Nat) (file pre : Bytes) (gz post : Bytes)
    (hfile : file = pre ++ gz ++ post) (hne : gz ≠ []) (hf : gz.length ≤ fuel) (s : σ) (ll : Nat) :
    (∀ s', deliver func (pieces (32 * ps) fuel gz) s = .ok (s', true) →
      gzLoop ps func fuel { file := file, pos := pre.length, bodylen := gz.length, whr := .body } s ll =
        .ok (s', { file := file, pos := pre.length + gz.length, bodylen := 0, whr := .crlf }, ll + gz.length)) ∧
    (∀ s', deliver func (pieces (32 * ps) fuel gz) s = .ok (s', false) →
      ∃ rs, gzLoop ps func fuel { file := file, pos := pre.length, bodylen := gz.length, whr := .body } s ll = .ok (s', rs, 0)) ∧
    (deliver func (pieces (32 * ps) fuel gz) s = .fail →
      gzLoop ps func fuel { file := file, pos := pre.length, bodylen := gz.length, whr := .body } s ll = .fail) := by
  induction fuel generalizing pre gz s ll with
  | zero =>
    exact absurd (List.length_eq_zero_iff.mp (Nat.le_zero.mp hf)) hne
  | succ f ih =>
    have hlen := List.length_pos_iff.mpr hne
    obtain ⟨d, hd⟩ : ∃ d, d = gz.take (32 * ps) := ⟨_, rfl⟩
    have hread : Rsilo.read { file := file, pos := pre.length, bodylen := gz.length, whr := .body } (min (32 * ps) ((gz.length : Int).toNat)) = d := by
      unfold Rsilo.read
      simp only
      rw [hfile, List.append_assoc, List.drop_left' rfl, Int.toNat_natCast, List.take_append_of_le_length (by omega), hd]
      rcases Nat.le_total (32 * ps) gz.length with h | h
      · rw [Nat.min_eq_left h]
      · rw [Nat.min_eq_right h, List.take_of_length_le (Nat.le_refl _), List.take_of_length_le h]
    have hdl : d.length = min (32 * ps) gz.length := by rw [hd, List.length_take]
    have hdne : d ≠ [] := by
      intro h0
      rw [h0] at hdl
      simp only [List.length_nil] at hdl
      omega
    have hgz : gz = d ++ gz.drop (32 * ps) := by rw [hd, List.take_append_drop]
    rw [pieces, if_neg hne, ← hd]
    simp only [deliver, gzLoop]
    rw [hread, if_neg hdne]
    cases hfn : func s d with
    | fail => simp
    | ub => simp
    | ok r =>
      simp only [Res.ok_bind]
      by_cases hr : r.2 = 0
      · simp only [hr, ne_eq, not_true_eq_false, if_false]
        by_cases hmore : gz.drop (32 * ps) = []
        · have hdg : d = gz := by rw [hmore, List.append_nil] at hgz; exact hgz.symm
          have hz : ¬ ((gz.length : Int) - (d.length : Int) > 0) := by rw [hdg]; omega
          have hpn : pieces (32 * ps) f (gz.drop (32 * ps)) = [] := by
            rw [hmore]; cases f <;> rfl
          rw [hpn]
          simp only [if_neg hz, deliver, Res.pure_eq]
          refine ⟨?_, ?_, ?_⟩
          · intro s' h
            have : r.1 = s' := by simpa using h
            rw [this, hdg]
            simp
          · intro s' h; simp at h
          · intro h; simp at h
        · have hdlt : d.length < gz.length := by
            have := List.length_pos_iff.mpr hmore
            rw [List.length_drop] at this
            omega
          have hz : (gz.length : Int) - (d.length : Int) > 0 := by omega
          simp only [if_pos hz]
          have hsub : ((gz.length : Int) - (d.length : Int)) = ((gz.drop (32 * ps)).length : Int) := by
            rw [List.length_drop, hdl]; omega
          have hpre : pre.length + d.length = (pre ++ d).length := by rw [List.length_append]
          rw [hsub, hpre]
          have hfile2 : file = (pre ++ d) ++ gz.drop (32 * ps) ++ post := by
            rw [hfile]
            conv => lhs; rw [hgz]
            simp only [List.append_assoc]
          have := ih (pre ++ d) (gz.drop (32 * ps)) hfile2 hmore (by rw [List.length_drop]; omega) r.1 (ll + d.length)
          obtain ⟨i1, i2, i3⟩ := this
          refine ⟨?_, i2, i3⟩
          intro s' h
          rw [i1 s' h]
          have : (pre ++ d).length + (gz.drop (32 * ps)).length = pre.length + gz.length := by
            rw [List.length_append, List.length_drop, hdl]; omega
          rw [this]
          congr 3
          rw [List.length_drop, hdl]; omega
      · simp only [ne_eq, hr, not_false_eq_true, if_true]
        refine ⟨?_, ?_, ?_⟩
        · intro s' h; simp at h
        · intro s' h
          have : r.1 = s' := by simpa using h
          exact ⟨_, by rw [this]; rfl⟩
        · intro h; simp at h

/-- A callback that collects what it is given. -/
def collectIter : ByteIter Bytes := fun s d => pure (s ++ d, 0)

theorem deliver_collectIter (cs : List Bytes) (s : Bytes) : deliver collectIter cs s = .ok (s ++ cs.flatten, true) := by
  induction cs generalizing s with
  | nil => simp [deliver]
  | cons c cs ih =>
    rw [deliver]
    have hc : collectIter s c = .ok (s ++ c, 0) := rfl
    simp only [hc, Res.ok_bind, ne_eq, not_true_eq_false, if_false]
    rw [ih, List.flatten_cons, List.append_assoc]

/-! ### C24 -/

/-- C24: opening a silo at the start of a complete record whose header fits a page, whatever comes before
and after it, gives its header; the body delivered is the record's, plain or as stored; and the
reader ends up at the next record.  Only the return value of the gzip variant is reduced modulo 2^32. -/
theorem C24_random_access (ps : Nat) (pfx pre post : Bytes) (r : Rec) (h : Hdr) (hc : r.Complete pfx h) (hf : r.Fits ps)
    (cut : Bytes → List Bytes) (hcut : ∀ b, (cut b).flatten = b) :
    ∃ rs1 rs2 rs3 rs4, readHeader ps pfx (rsOpen (pre ++ r.bytes ++ post) pre.length) = .ok (some h, rs1) ∧
      bodyLen rs1 = .ok (r.bgz.length : Int) ∧
      readChunk cut collectIter rs1 [] = .ok (r.data, rs2, r.bgz.length) ∧
      readGZChunk ps collectIter rs1 [] = .ok (r.bgz, rs3, r.bgz.length % 2 ^ 32) ∧
      skipCRNL rs2 = .ok rs4 ∧ rs4.pos = (pre ++ r.bytes).length ∧ rs4.whr = .head ∧
      (∃ rs5, skipCRNL rs3 = .ok rs5 ∧ rs5.pos = (pre ++ r.bytes).length ∧ rs5.whr = .head) := by
  have hb := member_length hc.body
  have hne : r.bgz ≠ [] := by intro h0; rw [h0] at hb; simp at hb
  have hps : 0 < ps := by have := hf.packed; omega
  refine ⟨_, atCrlf (pre ++ r.bytes ++ post) pre.length r r.bgz.length, atCrlf (pre ++ r.bytes ++ post) pre.length r 0, _, readHeader_rec hc hf 0, rfl, ?_, ?_, skipCRNL_rec (post := post) (r.bgz.length : Int), rfl, rfl, _,
    skipCRNL_rec (post := post) 0, rfl, rfl⟩
  · rw [readChunk_rec hc, deliver_collectIter, hcut]
    simp
  · have h1 := (gzLoop_pieces ps hps collectIter (r.bgz.length + 1) (pre ++ r.bytes ++ post) (pre ++ r.hgz) r.bgz (separator ++ post)
      (by simp only [Rec.bytes, List.append_assoc]) hne (by omega) [] 0).1 _ (deliver_collectIter _ _)
    rw [pieces_flatten _ (by omega) _ _ (by omega), List.nil_append, Nat.zero_add, List.length_append] at h1
    unfold readGZChunk
    rw [show (atBody (pre ++ r.bytes ++ post) pre.length r).whr = .body from rfl]
    simp only [decide_true, Res.check_true, Res.ok_bind]
    rw [show (atBody (pre ++ r.bytes ++ post) pre.length r).bodylen.toNat = r.bgz.length from rfl]
    unfold atBody
    rw [h1]
    rfl

/-! ### C23 -/

theorem scanHeaders_recs (ps : Nat) (pfx pre : Bytes) (l : List (Rec × Hdr)) (hl : ∀ x ∈ l, x.1.Complete pfx x.2 ∧ x.1.Fits ps)
    (fuel : Nat) (hfuel : l.length < fuel) (bl : Int) :
    scanHeaders ps pfx fuel { file := pre ++ siloBytes (l.map (·.1)), pos := pre.length, bodylen := bl, whr := .head } =
      .ok ((offsets pre.length (l.map (·.1))).zip (l.map fun x => (x.2, (x.1.bgz.length : Int)))) := by
  induction l generalizing pre fuel bl with
  | nil =>
    obtain ⟨f, rfl⟩ : ∃ f, fuel = f + 1 := ⟨fuel - 1, by simp at hfuel; omega⟩
    rw [scanHeaders, readHeader_eof rfl (by simp [siloBytes])]
    rfl
  | cons x l ih =>
    obtain ⟨f, rfl⟩ : ∃ f, fuel = f + 1 := ⟨fuel - 1, by simp at hfuel; omega⟩
    obtain ⟨hc, hf⟩ := hl x (by simp)
    have hfile : pre ++ siloBytes ((x :: l).map (·.1)) = pre ++ x.1.bytes ++ siloBytes (l.map (·.1)) := by
      simp [siloBytes]
    rw [hfile, scanHeaders, readHeader_rec hc hf]
    simp only [Res.ok_bind]
    rw [show bodyLen (atBody (pre ++ x.1.bytes ++ siloBytes (l.map (·.1))) pre.length x.1) = .ok (x.1.bgz.length : Int) from rfl]
    simp only [Res.ok_bind]
    rw [nextHeader_rec]
    simp only [Res.ok_bind]
    rw [ih (pre ++ x.1.bytes) (fun y hy => hl y (by simp [hy])) f (by simp at hfuel; omega)]
    simp only [Res.ok_bind, Res.pure_eq, List.map_cons, offsets, List.zip_cons_cons, List.length_append]

/-- C23: reading a silo made of complete records whose headers fit a page, header by header, gives
exactly the records' start offsets, headers and body lengths, in order. -/
theorem C23_enumerate_headers (ps : Nat) (pfx : Bytes) (l : List (Rec × Hdr))
    (hl : ∀ x ∈ l, x.1.Complete pfx x.2 ∧ x.1.Fits ps) (fuel : Nat) (hfuel : l.length < fuel) :
    scanHeaders ps pfx fuel (rsOpen (siloBytes (l.map (·.1))) 0) =
      .ok ((offsets 0 (l.map (·.1))).zip (l.map fun x => (x.2, (x.1.bgz.length : Int)))) := by
  have := scanHeaders_recs ps pfx [] l hl fuel hfuel 0
  simpa [rsOpen] using this

theorem scanBodies_recs (ps : Nat) (pfx pre : Bytes) (cut : Bytes → List Bytes) (hcut : ∀ b, (cut b).flatten = b)
    (l : List (Rec × Hdr)) (hl : ∀ x ∈ l, x.1.Complete pfx x.2 ∧ x.1.Fits ps) (fuel : Nat) (hfuel : l.length < fuel) (bl : Int) :
    scanBodies ps pfx cut fuel { file := pre ++ siloBytes (l.map (·.1)), pos := pre.length, bodylen := bl, whr := .head } =
      .ok ((offsets pre.length (l.map (·.1))).zip (l.map fun x => (x.2, x.1.data))) := by
  induction l generalizing pre fuel bl with
  | nil =>
    obtain ⟨f, rfl⟩ : ∃ f, fuel = f + 1 := ⟨fuel - 1, by simp at hfuel; omega⟩
    rw [scanBodies, readHeader_eof rfl (by simp [siloBytes])]
    rfl
  | cons x l ih =>
    obtain ⟨f, rfl⟩ : ∃ f, fuel = f + 1 := ⟨fuel - 1, by simp at hfuel; omega⟩
    obtain ⟨hc, hf⟩ := hl x (by simp)
    have hfile : pre ++ siloBytes ((x :: l).map (·.1)) = pre ++ x.1.bytes ++ siloBytes (l.map (·.1)) := by
      simp [siloBytes]
    rw [hfile, scanBodies, readHeader_rec hc hf]
    simp only [Res.ok_bind]
    rw [show (fun (s : Bytes) d => pure (s ++ d, 0)) = collectIter from rfl, readChunk_rec hc, deliver_collectIter, hcut]
    simp only [Res.ok_bind, Res.pure_eq, if_true, List.nil_append]
    rw [skipCRNL_rec]
    simp only [Res.ok_bind]
    rw [ih (pre ++ x.1.bytes) (fun y hy => hl y (by simp [hy])) f (by simp at hfuel; omega)]
    simp only [Res.ok_bind, List.map_cons, offsets, List.zip_cons_cons, List.length_append]

/-- C23: reading a silo record by record with the bodies gives exactly the records' start offsets,
headers and contents, in order, in whatever pieces zlib hands out the contents. -/
theorem C23_enumerate_bodies (ps : Nat) (pfx : Bytes) (cut : Bytes → List Bytes) (hcut : ∀ b, (cut b).flatten = b)
    (l : List (Rec × Hdr)) (hl : ∀ x ∈ l, x.1.Complete pfx x.2 ∧ x.1.Fits ps) (fuel : Nat) (hfuel : l.length < fuel) :
    scanBodies ps pfx cut fuel (rsOpen (siloBytes (l.map (·.1))) 0) =
      .ok ((offsets 0 (l.map (·.1))).zip (l.map fun x => (x.2, x.1.data))) := by
  have := scanBodies_recs ps pfx [] cut hcut l hl fuel hfuel 0
  simpa [rsOpen] using this

/-! ### Headers that do not fit, C51 -/

/-- A member that does not fit the page makes the reader abort. -/
theorem C23_counterexample_long_header (ps : Nat) (pfx pre post : Bytes) (r : Rec) (h : Hdr) (hc : r.Complete pfx h)
    (hps : 0 < ps) (hlong : ps < r.hgz.length) :
    readHeader ps pfx (rsOpen (pre ++ r.bytes ++ post) pre.length) = .fail := by
  have hread : Rsilo.read (rsOpen (pre ++ r.bytes ++ post) pre.length) ps = r.hgz.take ps := by
    unfold Rsilo.read rsOpen
    simp only
    rw [List.append_assoc, List.drop_left' rfl, Rec.bytes, List.append_assoc, List.append_assoc,
      List.take_append_of_le_length (by omega)]
  have hl : (r.hgz.take ps).length = ps := by rw [List.length_take]; omega
  have hnone : gunzip1 (r.hgz.take ps) = none := by
    cases hg : gunzip1 (r.hgz.take ps) with
    | none => rfl
    | some p =>
      exfalso
      obtain ⟨out, rest⟩ := p
      obtain ⟨c, h1, h2, h3⟩ := gunzip1_local hg
      have e := h3 (rest ++ r.hgz.drop ps)
      rw [← List.append_assoc, ← h1, List.take_append_drop] at e
      have e2 := member_gunzip1 hc.head []
      rw [List.append_nil] at e2
      rw [e2] at e
      have : rest ++ r.hgz.drop ps = [] := by
        have := congrArg (Option.map Prod.snd) e
        simpa using this.symm
      have := congrArg List.length this
      rw [List.length_append, List.length_drop] at this
      simp only [List.length_nil] at this
      omega
  unfold readHeader
  rw [show (rsOpen (pre ++ r.bytes ++ post) pre.length).whr = .head from rfl]
  simp only [hread, hnone, decide_true, Res.check_true, Res.ok_bind]
  rw [if_neg]
  intro h0
  rw [h0] at hl
  simp at hl
  omega

/-- C51 is false: a complete record whose header member leaves between 16 and 23 bytes of the page makes
the reader look outside the page. -/
theorem C51_counterexample_page_end (ps : Nat) (pfx pre post : Bytes) (r : Rec) (h : Hdr) (hc : r.Complete pfx h)
    (ht : r.text.length ≤ ps) (h1 : ps < r.hgz.length + 24) (h2 : r.hgz.length + 16 ≤ ps) :
    readHeader ps pfx (rsOpen (pre ++ r.bytes ++ post) pre.length) = .ub := by
  have hb := member_length hc.body
  have hread : Rsilo.read (rsOpen (pre ++ r.bytes ++ post) pre.length) ps = r.hgz ++ r.bgz.take (ps - r.hgz.length) := by
    unfold Rsilo.read rsOpen
    simp only
    rw [List.append_assoc, List.drop_left' rfl, Rec.bytes, List.append_assoc, List.append_assoc,
      take_append_le _ _ _ (by omega), List.take_append_of_le_length (by omega)]
  have hub : readAa (r.bgz.take (ps - r.hgz.length)) (r.bgz.take (ps - r.hgz.length)).length = .ub := by
    have hl : (r.bgz.take (ps - r.hgz.length)).length = ps - r.hgz.length := by rw [List.length_take]; omega
    obtain ⟨xfl, body, ts, rr, hx, hgz, h63, _⟩ := hc.body
    have h16 : (r.bgz.take (ps - r.hgz.length)).take 16 =
        [0x1f, 0x8b, 0x08, 0x04, 0, 0, 0, 0, xfl, 3, 0x0c, 0, 0x41, 0x61, 0x08, 0] := by
      rw [List.take_take, Nat.min_eq_left (by omega)]
      conv => lhs; rw [hgz]
      unfold aaHead
      simp only [List.cons_append, List.nil_append, List.take_succ_cons, List.take_zero]
    unfold readAa goodAa
    rw [hl, decide_eq_true (by omega : 16 ≤ ps - r.hgz.length), decide_eq_false (by omega : ¬ 24 ≤ ps - r.hgz.length)]
    simp only [h16]
    rcases hx with rfl | rfl <;> rfl
  have hg := member_gunzip1 hc.head (r.bgz.take (ps - r.hgz.length))
  unfold readHeader
  rw [show (rsOpen (pre ++ r.bytes ++ post) pre.length).whr = .head from rfl]
  simp only [hread, hg, decide_true, Res.check_true, Res.ok_bind]
  rw [if_neg (by
    have hm := member_length hc.head
    intro h0
    have hl0 := congrArg List.length h0
    rw [List.length_append, List.length_nil] at hl0
    omega)]
  rw [decide_eq_true ht, hub]
  rfl

/-- C51, for any file contents: the reader can leave the page only if a gzip member ends 16 to 23 bytes
before the end of what was read. -/
theorem C51_in_bounds_partial (ps : Nat) (pfx : Bytes) (rs : Rs)
    (h : ∀ text rest, gunzip1 ((rs.file.drop rs.pos).take ps) = some (text, rest) → 24 ≤ rest.length ∨ rest.length < 16)
    (hub : ∀ t, headerParse pfx t ≠ .ub) : readHeader ps pfx rs ≠ .ub := by
  unfold readHeader
  cases decide (rs.whr = .head) with
  | false => simp
  | true =>
    simp only [Res.check_true, Res.ok_bind]
    split
    · simp
    · split
      · simp
      · next text rest hg =>
        cases decide (text.length ≤ ps) with
        | false => simp
        | true =>
          simp only [Res.check_true, Res.ok_bind]
          have := C19_in_bounds_partial rest (h text rest hg)
          cases hr : readAa rest rest.length with
          | ub => exact absurd hr this
          | fail => simp
          | ok bl =>
            simp only [Res.ok_bind]
            cases hp : headerParse pfx (cstr text) with
            | ub => exact absurd hp (hub _)
            | fail => simp
            | ok v => simp

/-! ### The hypotheses are met -/

/-- A record for any header text that parses and any contents, with stored blocks. -/
def storedRec (text data : Bytes) : Rec := { text := text, data := data, hgz := storedSegment text, bgz := storedSegment data }

theorem storedRec_complete {pfx text data : Bytes} {h : Hdr} (hp : headerParse pfx text = .ok h) (hz : (0 : UInt8) ∉ text)
    (h1 : 37 + 6 * text.length < 2 ^ 63) (h2 : 37 + 6 * data.length < 2 ^ 63) : (storedRec text data).Complete pfx h :=
  ⟨storedMember_ok text h1, storedMember_ok data h2, hp, hz⟩

example : let h : Hdr := ⟨b!"00ff", [(b!"Content-Length", b!"3"), (b!"WARC-Type", b!"resource")]⟩
    let text := headerSerialize b!"http://x/" h
    (storedRec text b!"abc").Complete b!"http://x/" h ∧ (storedRec text b!"abc").Fits 4096 ∧
    (storedRec text []).Complete b!"http://x/" h := by
  refine ⟨storedRec_complete (by decide +kernel) (by decide +kernel) (by decide +kernel) (by decide +kernel), ?_,
    storedRec_complete (by decide +kernel) (by decide +kernel) (by decide +kernel) (by decide +kernel)⟩
  constructor
  · show (headerSerialize _ _).length ≤ 4096
    decide +kernel
  · show (storedSegment _).length + 24 ≤ 4096
    rw [storedSegment_length]
    decide +kernel

/-- A header for which the page ends in the wrong place: with pages of 700 bytes, one field of a suitable length. -/
example : ∃ text h data, (storedRec text data).Complete b!"x/" h ∧ text.length ≤ 700 ∧
    700 < (storedRec text data).hgz.length + 24 ∧ (storedRec text data).hgz.length + 16 ≤ 700 := by
  refine ⟨headerSerialize b!"x/" ⟨b!"00", [(b!"A", List.replicate 66 97)]⟩, ⟨b!"00", [(b!"A", List.replicate 66 97)]⟩, [],
    storedRec_complete (by decide +kernel) (by decide +kernel) (by decide +kernel) (by decide +kernel), ?_⟩
  rw [show (storedRec (headerSerialize b!"x/" ⟨b!"00", [(b!"A", List.replicate 66 97)]⟩) []).hgz =
    storedSegment (headerSerialize b!"x/" ⟨b!"00", [(b!"A", List.replicate 66 97)]⟩) from rfl, storedSegment_length]
  decide +kernel

end Verif.Props
