/-
Properties C28 and C25: the space reserved for the header of a new silo, and the size of hold files.
-/
import Verif.Proofs.SegHdr
import Verif.Spec.Example
import Verif.Spec.Example

namespace Verif.Props
open Verif Header Gzip Ident Index Wsilo Segjob

/-! ### C28 -/

/-- What zlib does at level 0 with a short text: one stored block; the header with the extra field has 24
bytes, the block 5 and the trailer 8. -/
def Level0 (env : Env) : Prop := ∀ t : Bytes, 0 < t.length → t.length < 2 ^ 15 → (env.pack0 t).length = t.length + 37

/-- C28: when the commit does not abort, the header occupies exactly the space reserved for it, and nothing
else in the hold file is changed. -/
theorem C28_in_place {env : Env} {sl : Sl} {f : Bytes} (h : finalHold env sl = .ok f) (hl : sl.hdStart + sl.hdLen ≤ sl.hold.length) :
    f.length = sl.hold.length ∧ f.take sl.hdStart = sl.hold.take sl.hdStart ∧
    f.drop (sl.hdStart + sl.hdLen) = sl.hold.drop (sl.hdStart + sl.hdLen) ∧
    ∃ h', (f.drop sl.hdStart).take sl.hdLen = env.pack0 (headerSerialize env.pfx h') ∧
      (h' = sl.hd ∨ ∃ n, headerSet sl.hd b!"z" (List.replicate n 95) = .ok h') := by
  obtain ⟨h', h1, h2, rfl⟩ := finalHold_inv h
  have ht : (sl.hold.take sl.hdStart).length = sl.hdStart := by rw [List.length_take]; omega
  refine ⟨?_, ?_, ?_, h', ?_, h1⟩
  · simp only [List.length_append, List.length_drop, ht, h2]
    omega
  · rw [List.append_assoc, List.take_left' ht]
  · rw [List.drop_left' (by rw [List.length_append, ht, h2])]
  · rw [List.append_assoc, List.drop_left' ht, List.take_left' h2]

theorem serialize_pos (pfx : Bytes) (h : Hdr) : 0 < (headerSerialize pfx h).length := by
  rw [serialize_length]; omega

theorem nameOk_z : nameOk b!"z" = true := by decide

/-- C28: the commit does not abort if and only if the final header has exactly the reserved length, or is
at least five bytes shorter. -/
theorem C28_iff {env : Env} {sl : Sl} (h0 : Level0 env) (hs : SortedF sl.hd.fields) (hz : headerGet sl.hd b!"z" = none)
    (hlen : sl.hdLen < 2 ^ 15) (hlen2 : (headerSerialize env.pfx sl.hd).length < 2 ^ 15) :
    (∃ f, finalHold env sl = .ok f) ↔
      (headerSerialize env.pfx sl.hd).length + 37 = sl.hdLen ∨ (headerSerialize env.pfx sl.hd).length + 37 + 5 ≤ sl.hdLen := by
  have hp := h0 _ (serialize_pos env.pfx sl.hd) hlen2
  unfold finalHold padHeader
  simp only
  rw [hp]
  by_cases hi : ((sl.hdLen : Int) - ((headerSerialize env.pfx sl.hd).length + 37 : Nat) > 0)
  · simp only [if_pos hi]
    by_cases h5 : (5 : Int) ≤ (sl.hdLen : Int) - ((headerSerialize env.pfx sl.hd).length + 37 : Nat)
    · rw [decide_eq_true h5, Res.check_true, Res.ok_bind]
      obtain ⟨h', e1, e2, e3, e4⟩ := headerSet_spec sl.hd b!"z" (List.replicate ((sl.hdLen : Int) - ((headerSerialize env.pfx sl.hd).length + 37 : Nat) - 5).toNat 95) hs nameOk_z
      have hl := set_len_add (pfx := env.pfx) hs e1 hz
      have hhl : headerLen b!"z" (List.replicate ((sl.hdLen : Int) - ((headerSerialize env.pfx sl.hd).length + 37 : Nat) - 5).toNat 95) =
          5 + ((sl.hdLen : Int) - ((headerSerialize env.pfx sl.hd).length + 37 : Nat) - 5).toNat := by
        unfold headerLen
        rw [List.length_replicate]
        show 1 + 2 + _ + 2 = _
        omega
      rw [hhl] at hl
      have hp' := h0 _ (serialize_pos env.pfx h') (by omega)
      rw [e1, Res.ok_bind]
      rw [decide_eq_true (by omega : (env.pack0 (headerSerialize env.pfx h')).length = sl.hdLen)]
      constructor
      · intro _; omega
      · intro _; exact ⟨_, rfl⟩
    · rw [decide_eq_false h5, Res.check_false]
      constructor
      · rintro ⟨f, hf⟩; simp at hf
      · intro h; omega
  · simp only [if_neg hi, Res.ok_bind]
    by_cases he : (headerSerialize env.pfx sl.hd).length + 37 = sl.hdLen
    · rw [hp, decide_eq_true he]
      constructor
      · intro _; exact .inl he
      · intro _; exact ⟨_, rfl⟩
    · rw [hp, decide_eq_false he]
      constructor
      · rintro ⟨f, hf⟩; simp at hf
      · intro h; omega

/-- The space reserved for the header of segment `n` when `before` bytes of the object are in earlier segments
(segjob.c:117-150, wsilo.c:229-271). -/
def reserved (env : Env) (n before : Nat) (h0 : Hdr) : Nat := (env.pack0 (headerSerialize env.pfx h0)).length + (seg0Pad env n before + 6)

theorem wsiloHeader_reserved {env : Env} {sl sl' : Sl} {h0 : Hdr} {n before : Nat} (h : wsiloHeader env sl h0 (seg0Pad env n before) = .ok sl') :
    sl'.hdLen = reserved env n before h0 := by
  have hp : 0 < seg0Pad env n before := by
    unfold seg0Pad headerLen
    split <;> omega
  obtain ⟨rfl, -, -⟩ := wsiloHeader_inv h hp
  rfl

/-- C28, objects of one segment: the final header always fits. -/
theorem C28_unsegmented {env : Env} {h h0 h1 : Hdr} {sl : Sl} {dig : Bytes} {size : Nat} {ident : Option Bytes} (h00 : Level0 env)
    (hsha : ∀ d, (env.sha d).length = 64) (hj : JobHdr env.idSize h) (e0 : seg0Hdr env h 1 = .ok h0) (hdig : dig.length = 64) (hsize : size < 2 ^ 63)
    (e1 : finishHdr env h0 dig size ident = .ok h1) (hsl : sl.hd = h1) (hlen : sl.hdLen = reserved env 1 0 h0)
    (hshort : (headerSerialize env.pfx h0).length + 200 < 2 ^ 15) : ∃ f, finalHold env sl = .ok f := by
  obtain ⟨s0, i0, g1, g2, g3⟩ := seg0_first hj.sorted e0
  obtain ⟨s1, i1, l1, -, -, g6⟩ := finishHdr_inv s0 g1 g2 (by rw [hdig, hsha]) (by rw [i0, hj.id]) e1
  have hz : headerGet h1 b!"z" = none := by
    rw [g6 _ ⟨by decide, by decide⟩, g3 _ ⟨by decide, by decide⟩, hj.pad]
  have hp := h00 _ (serialize_pos env.pfx h0) (by omega)
  have hpad : seg0Pad env 1 0 = 118 := by
    unfold seg0Pad headerLen
    rw [if_pos rfl, List.length_append, hsha]
    rfl
  unfold reserved at hlen
  rw [hp, hpad] at hlen
  have hd := dec_length size 18 (by omega)
  have hm := List.length_pos_iff.mpr (dec_ne_nil env.max)
  rw [List.length_append] at l1
  have h2 : (b!"00").length = 2 := rfl
  rw [h2] at l1
  refine (C28_iff h00 (by rw [hsl]; exact s1) (by rw [hsl]; exact hz) (by omega) (by rw [hsl]; omega)).2 ?_
  rw [hsl]
  omega

/-- C28, the first of several segments: the final header fits if the length of the segment's contents has at
most three digits more than the configured size (or exactly eight more, when no padding is needed). -/
theorem C28_first_partial {env : Env} {h h0 h1 h2 h3 h4 : Hdr} {sl : Sl} {dig pd : Bytes} {size : Nat} {ident : Option Bytes} (h00 : Level0 env)
    (hsha : ∀ d, (env.sha d).length = 64) (hj : JobHdr env.idSize h) (e0 : seg0Hdr env h 1 = .ok h0) (hdig : dig.length = 64) (hpd : pd.length = 64)
    (hsize : size < 2 ^ 63) (e1 : finishHdr env h0 dig size ident = .ok h1)
    (e2 : headerSet h1 b!"WARC-Payload-Digest" (b!"sha256:" ++ pd) = .ok h2) (e3 : identSet env.sha env.pfx env.idSize h2 pd ident = .ok h3)
    (e4 : headerSet h3 b!"WARC-Segment-Number" b!"1" = .ok h4)
    (hsl : sl.hd = h4) (hlen : sl.hdLen = reserved env 1 0 h0) (hshort : (headerSerialize env.pfx h0).length + 200 < 2 ^ 15) :
    (∃ f, finalHold env sl = .ok f) ↔ (dec size).length ≤ (dec env.max).length + 3 ∨ (dec size).length = (dec env.max).length + 8 := by
  obtain ⟨s0, i0, g1, g2, g3⟩ := seg0_first hj.sorted e0
  obtain ⟨s1, i1, l1, -, -, g6⟩ := finishHdr_inv s0 g1 g2 (by rw [hdig, hsha]) (by rw [i0, hj.id]) e1
  obtain ⟨-, i2, s2, g7, -, -⟩ := headerSet_inv s1 e2
  obtain ⟨f3, i3⟩ := identSet_inv e3
  have s3 : SortedF h3.fields := by rw [f3]; exact s2
  obtain ⟨-, i4, s4, g8, -, -⟩ := headerSet_inv s3 e4
  have l2 := set_len_add (pfx := env.pfx) s1 e2 (by rw [g6 _ ⟨by decide, by decide⟩, g3 _ ⟨by decide, by decide⟩, hj.payload])
  have l3 := setId_len (pfx := env.pfx) f3 (by rw [i3, i2, i1])
  have l4 := set_len_add (pfx := env.pfx) s3 e4 (by
    rw [get_of_fields f3, g7, if_neg (by decide), g6 _ ⟨by decide, by decide⟩, g3 _ ⟨by decide, by decide⟩, hj.segno])
  have hz : headerGet h4 b!"z" = none := by
    rw [g8, if_neg (by decide), get_of_fields f3, g7, if_neg (by decide), g6 _ ⟨by decide, by decide⟩, g3 _ ⟨by decide, by decide⟩, hj.pad]
  have hp := h00 _ (serialize_pos env.pfx h0) (by omega)
  have hpad : seg0Pad env 1 0 = 118 := by
    unfold seg0Pad headerLen
    rw [if_pos rfl, List.length_append, hsha]
    rfl
  have hl2 : headerLen b!"WARC-Payload-Digest" (b!"sha256:" ++ pd) = 94 := by
    unfold headerLen
    rw [List.length_append, hpd]
    rfl
  have hl4 : headerLen b!"WARC-Segment-Number" b!"1" = 24 := rfl
  unfold reserved at hlen
  rw [hp, hpad] at hlen
  have hd := dec_length size 18 (by omega)
  have hm := List.length_pos_iff.mpr (dec_ne_nil env.max)
  rw [List.length_append] at l1
  have h2 : (b!"00").length = 2 := rfl
  rw [h2] at l1
  rw [C28_iff h00 (by rw [hsl]; exact s4) (by rw [hsl]; exact hz) (by omega) (by rw [hsl]; omega)]
  rw [hsl]
  omega

/-- The header of a continuation segment when it is committed (segjob.c:369-385). -/
theorem cont_len {env : Env} {h h0 h1 h2 : Hdr} {n : Nat} {dig fid : Bytes} {size : Nat} {ident : Option Bytes}
    (hsha : ∀ d, (env.sha d).length = 64) (hj : JobHdr env.idSize h) (hn : n ≠ 1) (e0 : seg0Hdr env h n = .ok h0) (hdig : dig.length = 64)
    (e1 : finishHdr env h0 dig size ident = .ok h1) (e2 : headerSetRef env.pfx env.idSize h1 b!"WARC-Segment-Origin-ID" fid = .ok h2) :
    SortedF h2.fields ∧ headerGet h2 b!"z" = none ∧ headerGet h2 b!"WARC-Segment-Total-Length" = none ∧
    (headerSerialize env.pfx h2).length + (2 + (dec env.max).length) = (headerSerialize env.pfx h0).length + (dec size).length := by
  obtain ⟨s0, i0, g1, g2, g3, g4, g5, l5, g6⟩ := seg0_cont hn hj.sorted e0
  obtain ⟨s1, i1, l1, -, -, g7⟩ := finishHdr_inv s0 g1 g2 (by rw [hdig, hsha]) (by rw [i0, hj.id]) e1
  obtain ⟨l, e2⟩ := headerSetRef_inv e2
  obtain ⟨-, i2, s2, g8, -, -⟩ := headerSet_inv s1 e2
  have l2 := set_len_replace (pfx := env.pfx) s1 e2 (by rw [g7 _ ⟨by decide, by decide⟩, g5])
  refine ⟨s2, ?_, ?_, ?_⟩
  · rw [g8, if_neg (by decide), g7 _ ⟨by decide, by decide⟩, g6 _ ⟨by decide, by decide⟩ (by decide) (by decide) (by decide), hj.pad]
  · rw [g8, if_neg (by decide), g7 _ ⟨by decide, by decide⟩, g6 _ ⟨by decide, by decide⟩ (by decide) (by decide) (by decide), hj.total]
  · simp only [List.length_append, List.length_take] at l1 l2
    have h2 : (b!"00").length = 2 := rfl
    rw [h2] at l1
    omega

/-- C28, segments in the middle: the final header always fits. -/
theorem C28_middle {env : Env} {h h0 h1 h2 : Hdr} {sl : Sl} {n before : Nat} {dig fid : Bytes} {size : Nat} {ident : Option Bytes} (h00 : Level0 env)
    (hsha : ∀ d, (env.sha d).length = 64) (hj : JobHdr env.idSize h) (hn : n ≠ 1) (e0 : seg0Hdr env h n = .ok h0) (hdig : dig.length = 64)
    (hsize : size < 2 ^ 63) (hbefore : before + env.max < 2 ^ 63) (e1 : finishHdr env h0 dig size ident = .ok h1)
    (e2 : headerSetRef env.pfx env.idSize h1 b!"WARC-Segment-Origin-ID" fid = .ok h2)
    (hsl : sl.hd = h2) (hlen : sl.hdLen = reserved env n before h0) (hshort : (headerSerialize env.pfx h0).length + 200 < 2 ^ 15) :
    ∃ f, finalHold env sl = .ok f := by
  obtain ⟨s2, hz, -, l⟩ := cont_len hsha hj hn e0 hdig e1 e2
  have hp := h00 _ (serialize_pos env.pfx h0) (by omega)
  have hd := dec_length size 18 (by omega)
  have hm := List.length_pos_iff.mpr (dec_ne_nil env.max)
  have hb := dec_length (before + env.max) 18 (by omega)
  have hpad : seg0Pad env n before = 29 + (dec (before + env.max)).length := by
    unfold seg0Pad headerLen
    rw [if_neg hn]
    show 25 + 2 + _ + 2 = _
    omega
  unfold reserved at hlen
  rw [hp, hpad] at hlen
  refine (C28_iff h00 (by rw [hsl]; exact s2) (by rw [hsl]; exact hz) (by omega) (by rw [hsl]; omega)).2 ?_
  rw [hsl]
  omega

/-- C28, the last of several segments: exactly when the final header fits. -/
theorem C28_last_partial {env : Env} {h h0 h1 h2 h3 : Hdr} {sl : Sl} {n before : Nat} {dig fid : Bytes} {size : Nat} {ident : Option Bytes} (h00 : Level0 env)
    (hsha : ∀ d, (env.sha d).length = 64) (hj : JobHdr env.idSize h) (hn : n ≠ 1) (e0 : seg0Hdr env h n = .ok h0) (hdig : dig.length = 64)
    (hsize : before + size < 2 ^ 63) (hbefore : before + env.max < 2 ^ 63) (e1 : finishHdr env h0 dig size ident = .ok h1)
    (e2 : headerSetRef env.pfx env.idSize h1 b!"WARC-Segment-Origin-ID" fid = .ok h2)
    (e3 : headerSet h2 b!"WARC-Segment-Total-Length" (dec (before + size)) = .ok h3)
    (hsl : sl.hd = h3) (hlen : sl.hdLen = reserved env n before h0) (hshort : (headerSerialize env.pfx h0).length + 200 < 2 ^ 15) :
    (∃ f, finalHold env sl = .ok f) ↔
      (dec size).length + (dec (before + size)).length ≤ (dec env.max).length + (dec (before + env.max)).length + 3 ∨
      (dec size).length + (dec (before + size)).length = (dec env.max).length + (dec (before + env.max)).length + 8 := by
  obtain ⟨s2, hz, ht, l⟩ := cont_len hsha hj hn e0 hdig e1 e2
  obtain ⟨-, i3, s3, g3, -, -⟩ := headerSet_inv s2 e3
  have l3 := set_len_add (pfx := env.pfx) s2 e3 ht
  have hp := h00 _ (serialize_pos env.pfx h0) (by omega)
  have hd := dec_length size 18 (by omega)
  have hd2 := dec_length (before + size) 18 (by omega)
  have hm := List.length_pos_iff.mpr (dec_ne_nil env.max)
  have hb := dec_length (before + env.max) 18 (by omega)
  have hpad : seg0Pad env n before = 29 + (dec (before + env.max)).length := by
    unfold seg0Pad headerLen
    rw [if_neg hn]
    show 25 + 2 + _ + 2 = _
    omega
  have hl3 : headerLen b!"WARC-Segment-Total-Length" (dec (before + size)) = 29 + (dec (before + size)).length := by
    unfold headerLen
    show 25 + 2 + _ + 2 = _
    omega
  unfold reserved at hlen
  rw [hp, hpad] at hlen
  rw [C28_iff h00 (by rw [hsl]; exact s3) (by rw [hsl, g3, if_neg (by decide)]; exact hz) (by omega) (by rw [hsl]; omega)]
  rw [hsl]
  omega

/-- C28 is false: a last segment that compresses well.  With the smallest silo size of 15 KiB, 15000 bytes in the
first segment and 1.3 million equal bytes (which compress to less than 2000) in the second one, the final
header is four bytes too short, which is too little for a padding header. -/
theorem C28_counterexample {env : Env} {h h0 h1 h2 h3 : Hdr} {sl : Sl} {dig fid : Bytes} {ident : Option Bytes} (h00 : Level0 env)
    (hsha : ∀ d, (env.sha d).length = 64) (hj : JobHdr env.idSize h) (e0 : seg0Hdr env h 2 = .ok h0) (hdig : dig.length = 64) (hmax : env.max = 15360)
    (e1 : finishHdr env h0 dig 1300000 ident = .ok h1) (e2 : headerSetRef env.pfx env.idSize h1 b!"WARC-Segment-Origin-ID" fid = .ok h2)
    (e3 : headerSet h2 b!"WARC-Segment-Total-Length" (dec (15000 + 1300000)) = .ok h3)
    (hsl : sl.hd = h3) (hlen : sl.hdLen = reserved env 2 15000 h0) (hshort : (headerSerialize env.pfx h0).length + 200 < 2 ^ 15) :
    ¬ ∃ f, finalHold env sl = .ok f := by
  rw [C28_last_partial h00 hsha hj (by decide) e0 hdig (by decide) (by rw [hmax]; decide) e1 e2 e3 hsl hlen hshort, hmax]
  have h1 : (dec 1300000).length = 7 := by
    have := dec_length 1300000 6 (by decide)
    have := dec_length_ge 1300000 6 (by decide)
    omega
  have h2 : (dec (15000 + 1300000)).length = 7 := by
    have := dec_length (15000 + 1300000) 6 (by decide)
    have := dec_length_ge (15000 + 1300000) 6 (by decide)
    omega
  have h3 : (dec 15360).length = 5 := by
    have := dec_length 15360 4 (by decide)
    have := dec_length_ge 15360 4 (by decide)
    omega
  have h4 : (dec (15000 + 15360)).length = 5 := by
    have := dec_length (15000 + 15360) 4 (by decide)
    have := dec_length_ge (15000 + 15360) 4 (by decide)
    omega
  rw [h1, h2, h3, h4]
  decide

/-- The hypotheses can be met: stored blocks, and the header of a store job. -/
theorem example_level0 (max : Nat) : Level0 (Example.env max) := fun t _ _ => Inflate.stored1_length t

theorem example_jobHdr : JobHdr 24 Example.hdr := ⟨by unfold SortedF; decide, by decide, by decide, by decide, by decide, by decide, by decide⟩

/-- The commit of a segment of `size` bytes with `before` bytes in front of it; it is the last one if `n` is not 1. -/
def exampleCommit (n before size : Nat) : Res Nat := do
  let env := Example.env 15360
  let h0 ← seg0Hdr env Example.hdr n
  let h1 ← finishHdr env h0 (Example.toySha []) size none
  let h2 ← (if n = 1 then Res.ok h1 else headerSetRef env.pfx env.idSize h1 b!"WARC-Segment-Origin-ID" (Example.toySha []))
  let h3 ← (if n = 1 then Res.ok h2 else headerSet h2 b!"WARC-Segment-Total-Length" (dec (before + size)))
  let f ← finalHold env { no := 0, idx := 0, hold := List.replicate 2000 0, hd := h3, hdStart := 500, hdLen := reserved env n before h0, infoId := [] }
  return f.length

set_option maxRecDepth 1000000 in
example : exampleCommit 1 0 4711 = .ok 2000 ∧ exampleCommit 2 15000 12000 = .ok 2000 ∧ exampleCommit 2 15000 130000 = .ok 2000 ∧
    exampleCommit 2 15000 1300000 = .fail := by decide +kernel

/-! ### C25 -/

/-- C25: the hold file of a finished segment is shorter than the configured size. -/
theorem C25_hold {σ : Type} {env : Env} {D : Deflater σ} {ident : Option Bytes} {c : Cur σ} {space : Nat} {s : Seg}
    (h : endSeg env D ident c space = .ok s) : s.silo.hold.length < env.max := by
  unfold endSeg at h
  simp only [Res.bind_eq_ok, Res.check_eq_ok, exists_const] at h
  obtain ⟨-, r, -, sp2, -, q, -, h1, sl, h2, h3⟩ := h
  obtain ⟨h', sl', -, e2, rfl⟩ := finishseg_hdr h3
  obtain ⟨rfl, -, -⟩ := storeStep h2
  obtain ⟨f, rfl, e3, -, -⟩ := wsiloFinish_inv e2
  simp only at e3 ⊢
  rw [e3, List.length_append]
  have h1 := of_decide_eq_true h1
  unfold getSpace at h1
  have : crnlcrnl.length = 24 := rfl
  split at h1 <;> omega

/-- C25: installing a finished segment gives a silo of the size of the hold file. -/
theorem C25_installed {env : Env} {w w' : World} {sl : Sl} {segd : Bool} {id : Bytes} {rid : Option Bytes}
    (h : install env w sl segd id rid = .ok w') (hl : sl.hdStart + sl.hdLen ≤ sl.hold.length) :
    ∃ f, w'.silos sl.no = some f ∧ f.data.length = sl.hold.length ∧ ∀ n, n ≠ sl.no → w'.silos n = w.silos n := by
  unfold install at h
  simp only [Res.bind_eq_ok, Res.check_eq_ok, exists_const, Res.pure_eq, Res.ok.injEq] at h
  obtain ⟨file, h1, fl, -, d, -, d', -, -, rfl⟩ := h
  have hs : ∀ (w : World) c, (putCache w c).silos = w.silos := by
    intro w c; unfold putCache; split <;> rfl
  have hl' := (C28_in_place h1 hl).1
  refine ⟨⟨file, true⟩, ?_, hl', ?_⟩
  · simp [abandon, hs, Commit.upd]
  · intro n hn
    simp [abandon, hs, Commit.upd, hn]

end Verif.Props
