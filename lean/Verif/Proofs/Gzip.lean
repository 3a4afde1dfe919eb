/-
The stitching state machine: the effect of a segment, however it is cut into chunks.
-/
import Verif.Model.Gzip
import Verif.Proofs.Bytes

namespace Verif.Gzip
open Verif

/-- A callback that collects the output. -/
def collect : Bytes → Bytes → Bytes × Int := fun o b => (o ++ b, 0)

/-- The last 13 bytes of a segment are recognised. -/
def TailOk (T : Bytes) : Prop :=
  (T.getD 3 0 = 0x03 ∧ T.getD 4 0 = 0x00) ∨
  (T.getD 0 0 = 0x01 ∧ T.getD 1 0 = 0 ∧ T.getD 2 0 = 0 ∧ T.getD 3 0 = 0xff ∧ T.getD 4 0 = 0xff)

/-- What is kept of the last 13 bytes. -/
def tailKeep (T : Bytes) : Bytes := if T.getD 3 0 = 0x03 ∧ T.getD 4 0 = 0x00 then T.take 3 else []

/-- Effect of a segment with middle part `M` and last 13 bytes `T`. -/
structure Done (gs0 gs : Stitch Bytes) (M T : Bytes) : Prop where
  state : gs.state = .outside
  retval : gs.retval = 0
  out : gs.out = gs0.out ++ M ++ tailKeep T
  crc : gs.crc = Crc.combine gs0.crc (BitVec.ofNat 32 (leDec ((T.drop 5).take 4))) (leDec ((T.drop 9).take 4))
  lcrc : gs.lcrc = (gs0.lcrc + leDec ((T.drop 9).take 4)) % 2 ^ 32
  tailbuf : gs.tailbuf.length = 13

/-- In the middle of a segment, with `rest` still to come. -/
inductive At (gs0 : Stitch Bytes) (M T : Bytes) : Bytes → Stitch Bytes → Prop
  | inside (gs : Stitch Bytes) (M' rest : Bytes) (hs : gs.state = .inside) (hr : rest = M' ++ T)
      (hl : gs.gzlen = rest.length) (ho : gs.out ++ M' = gs0.out ++ M) (hv : gs.retval = 0) (hc : gs.crc = gs0.crc)
      (hlc : gs.lcrc = gs0.lcrc) (ht : gs.tailbuf.length = 13) : At gs0 M T rest gs
  | tail (gs : Stitch Bytes) (rest : Bytes) (hs : gs.state = .tail) (hl : gs.gzlen = rest.length) (hl13 : rest.length ≤ 13)
      (hne : rest ≠ []) (ho : gs.out = gs0.out ++ M) (hv : gs.retval = 0) (hc : gs.crc = gs0.crc)
      (hlc : gs.lcrc = gs0.lcrc) (ht : gs.tailbuf.length = 13) (htb : gs.tailbuf.take (13 - rest.length) ++ rest = T) :
      At gs0 M T rest gs

/-- The next piece in state `tail`. -/
theorem feed_tail (gs0 gs : Stitch Bytes) (M T p rest : Bytes) (hT : T.length = 13) (hok : TailOk T) (hp : p ≠ [])
    (hs : gs.state = .tail) (hl : gs.gzlen = (p ++ rest).length) (hl13 : (p ++ rest).length ≤ 13)
    (ho : gs.out = gs0.out ++ M) (hv : gs.retval = 0) (hc : gs.crc = gs0.crc)
    (hlc : gs.lcrc = gs0.lcrc) (ht : gs.tailbuf.length = 13)
    (htb : gs.tailbuf.take (13 - (p ++ rest).length) ++ (p ++ rest) = T) :
    ∃ gs', feedTail collect gs p = .ok (gs', []) ∧
      (rest ≠ [] → At gs0 M T rest gs') ∧ (rest = [] → Done gs0 gs' M T) ∧ gs'.retval = 0 := by
  have hlen : (p ++ rest).length = p.length + rest.length := List.length_append
  have hat : (13 - gs.gzlen).toNat = 13 - (p ++ rest).length := by rw [hl]; omega
  have hg2 : gs.gzlen - (p.length : Int) = (rest.length : Int) := by rw [hl, hlen]; omega
  unfold feedTail
  rw [decide_eq_true (by rw [hl]; omega)]
  simp only [Res.access_true, Res.ok_bind, hat, hg2]
  by_cases hr : rest = []
  · subst hr
    rw [List.append_nil] at *
    have htb2 : gs.tailbuf.take (13 - p.length) ++ p ++ gs.tailbuf.drop (13 - p.length + p.length) = T := by
      rw [htb, List.drop_eq_nil_of_le (by rw [ht]; omega), List.append_nil]
    rw [htb2]
    simp only [List.length_nil, Int.natCast_zero, ne_eq, not_true_eq_false, if_false]
    by_cases hsync : T.getD 3 0 = 0x03 ∧ T.getD 4 0 = 0x00
    · simp only [hsync, and_self, if_true, collect, true_and, not_true_eq_false, if_false, true_or, decide_true,
        Res.check_true, Res.ok_bind, Res.pure_eq]
      exact ⟨_, rfl, fun h => h.elim, fun _ => ⟨rfl, rfl, by
        unfold tailKeep; rw [if_pos hsync, ho], by rw [hc], by rw [hlc], hT⟩, rfl⟩
    · have hfin := hok.resolve_left hsync
      simp only [hsync, if_false, false_and, false_or]
      rw [decide_eq_true hfin]
      simp only [Res.check_true, Res.ok_bind, Res.pure_eq]
      exact ⟨_, rfl, fun h => h.elim, fun _ => ⟨rfl, hv, by
        unfold tailKeep; rw [if_neg hsync, ho, List.append_nil], by rw [hc], by rw [hlc], hT⟩, hv⟩
  · have hrl : rest.length ≠ 0 := fun h => hr (List.length_eq_zero_iff.1 h)
    rw [if_pos (by omega)]
    refine ⟨_, rfl, fun _ => ?_, fun h => absurd h hr, hv⟩
    have h1 : (gs.tailbuf.take (13 - (p ++ rest).length)).length = 13 - (p ++ rest).length := by
      rw [List.length_take, ht]; omega
    refine .tail _ _ hs rfl (by omega) hr ho hv hc hlc ?_ ?_
    · simp only [List.length_append, List.length_take, List.length_drop, ht]; omega
    · simp only
      rw [List.take_append_of_le_length (by
        rw [List.length_append, h1, hlen]; omega), List.take_of_length_le (by rw [List.length_append, h1, hlen]; omega)]
      rw [List.append_assoc]
      exact htb

theorem feedLoop_nil (fuel : Nat) (gs : Stitch Bytes) : feedLoop collect fuel gs [] = .ok gs := by
  cases fuel with
  | zero => rfl
  | succ fuel => rw [feedLoop, if_pos rfl]; rfl

/-- The next piece of a segment. -/
theorem loop_at (gs0 gs : Stitch Bytes) (M T p rest : Bytes) (hT : T.length = 13) (hok : TailOk T) (hp : p ≠ [])
    (h : At gs0 M T (p ++ rest) gs) (fuel : Nat) :
    ∃ gs', feedLoop collect (fuel + 2) gs p = .ok gs' ∧
      (rest ≠ [] → At gs0 M T rest gs') ∧ (rest = [] → Done gs0 gs' M T) ∧ gs'.retval = 0 := by
  generalize hq : p ++ rest = q at h
  cases h with
  | tail gs rest' hs hl hl13 hne ho hv hc hlc ht htb =>
    subst hq
    obtain ⟨gs', h1, h2, h3, h4⟩ := feed_tail gs0 gs M T p rest hT hok hp hs hl hl13 ho hv hc hlc ht htb
    refine ⟨gs', ?_, h2, h3, h4⟩
    rw [feedLoop, if_neg hp, hs]
    simp only [h1, Res.ok_bind, h4, ne_eq, not_true_eq_false, if_false]
    exact feedLoop_nil _ _
  | inside gs M' rest' hs hr hl ho hv hc hlc ht =>
    subst hq
    have hlen : (p ++ rest).length = M'.length + 13 := by rw [hr, List.length_append, hT]
    have hlen2 : p.length + rest.length = M'.length + 13 := by rw [← hlen, List.length_append]
    have hskip : (if (p.length : Int) > gs.gzlen - 13 then gs.gzlen - 13 else (p.length : Int)) =
        ((min p.length M'.length : Nat) : Int) := by
      rw [hl, hlen]; split <;> omega
    have hpos : 0 < p.length := List.length_pos_iff.2 hp
    have hins : feedInside collect gs p = .ok
        ({ gs with retval := 0, out := gs.out ++ p.take (min p.length M'.length),
                   gzlen := gs.gzlen - ((min p.length M'.length : Nat) : Int),
                   state := if gs.gzlen - ((min p.length M'.length : Nat) : Int) = 13 then .tail else gs.state },
         p.drop (min p.length M'.length)) := by
      unfold feedInside
      rw [decide_eq_true (by rw [hl, hlen]; omega)]
      simp only [Res.check_true, Res.ok_bind]
      rw [hskip, decide_eq_true (by omega)]
      simp [collect]
    rw [feedLoop, if_neg hp, hs]
    simp only [hins, Res.ok_bind, ne_eq, not_true_eq_false, if_false]
    by_cases hle : p.length < M'.length
    · -- all of it is in the middle
      have hmin : min p.length M'.length = p.length := by omega
      have hpM : M' = p ++ M'.drop p.length := by
        have h1 : (p ++ rest).take p.length = (M' ++ T).take p.length := by rw [hr]
        rw [List.take_append_of_le_length (Nat.le_refl _), List.take_length, List.take_append_of_le_length (by omega)] at h1
        conv => lhs; rw [← List.take_append_drop p.length M', ← h1]
      have hrest : rest = M'.drop p.length ++ T := by
        have h1 : (p ++ rest).drop p.length = (M' ++ T).drop p.length := by rw [hr]
        rw [List.drop_append_of_le_length (Nat.le_refl _), List.drop_length, List.nil_append,
          List.drop_append_of_le_length (by omega)] at h1
        exact h1
      rw [hmin, List.drop_length, feedLoop_nil]
      refine ⟨_, rfl, fun _ => ?_, fun h => ?_, rfl⟩
      · refine .inside _ (M'.drop p.length) _ ?_ hrest ?_ ?_ rfl hc hlc ht
        · simp only
          rw [if_neg (by rw [hl, hlen]; omega), hs]
        · simp only
          rw [hl, List.length_append]; omega
        · simp only
          rw [List.take_length, List.append_assoc, ← hpM, ho]
      · exfalso
        rw [h] at hlen2; simp at hlen2; omega
    · -- reaches the tail
      have hmin : min p.length M'.length = M'.length := by omega
      have hpM : p = M' ++ p.drop M'.length := by
        have h1 : (p ++ rest).take M'.length = (M' ++ T).take M'.length := by rw [hr]
        rw [List.take_append_of_le_length (by omega), List.take_append_of_le_length (Nat.le_refl _), List.take_length] at h1
        conv => lhs; rw [← List.take_append_drop M'.length p, h1]
      have hrest : p.drop M'.length ++ rest = T := by
        have h1 : (p ++ rest).drop M'.length = (M' ++ T).drop M'.length := by rw [hr]
        rw [List.drop_append_of_le_length (by omega), List.drop_append_of_le_length (Nat.le_refl _), List.drop_length,
          List.nil_append] at h1
        exact h1
      have htakeM : p.take M'.length = M' := by
        have h1 : (p ++ rest).take M'.length = (M' ++ T).take M'.length := by rw [hr]
        rw [List.take_append_of_le_length (by omega), List.take_append_of_le_length (Nat.le_refl _), List.take_length] at h1
        exact h1
      rw [hmin, htakeM, if_pos (by rw [hl, hlen]; omega)]
      have hp'len : (p.drop M'.length).length = p.length - M'.length := List.length_drop
      by_cases hp' : p.drop M'.length = []
      · rw [hp', feedLoop_nil]
        rw [hp', List.nil_append] at hrest
        refine ⟨_, rfl, fun _ => ?_, fun h => ?_, rfl⟩
        · refine .tail _ _ rfl ?_ (by omega) (by rw [hrest]; intro h; rw [h] at hT; simp at hT) ?_ rfl hc hlc ht ?_
          · simp only
            rw [hl, hlen, hrest, hT]; omega
          · exact ho
          · simp only
            rw [hrest, hT]; simp
        · exfalso
          rw [← hrest, h] at hT; simp at hT
      · obtain ⟨gs', h1, h2, h3, h4⟩ := feed_tail gs0
          { gs with retval := 0, out := gs.out ++ M', gzlen := gs.gzlen - (M'.length : Int), state := GzState.tail }
          M T (p.drop M'.length) rest hT hok hp' rfl
          (by simp only; rw [hl, hlen, hrest, hT]; omega) (by rw [hrest, hT]; exact Nat.le_refl _) ho rfl hc hlc ht
          (by rw [hrest, hT]; simp)
        refine ⟨gs', ?_, h2, h3, h4⟩
        rw [feedLoop, if_neg hp']
        simp only [h1, Res.ok_bind, h4, ne_eq, not_true_eq_false, if_false]
        exact feedLoop_nil _ _

/-- The header of a segment: everything up to and including the length. -/
structure HeadOk (H : Bytes) (len : Nat) : Prop where
  length : H.length = 24
  b0 : H.getD 0 0 = 0x1f
  b1 : H.getD 1 0 = 0x8b
  b2 : H.getD 2 0 = 0x08
  b3 : H.getD 3 0 = 0x04
  b12 : H.getD 12 0 = 0x41
  b13 : H.getD 13 0 = 0x61
  b14 : H.getD 14 0 = 0x08
  b15 : H.getD 15 0 = 0x00
  len : toInt64 (leDec (H.drop 16)) = len

theorem feed_outside (gs : Stitch Bytes) (H p : Bytes) (len : Nat) (hH : HeadOk H len) :
    feedOutside gs (H ++ p) = .ok ({ gs with gzlen := (len : Int) - 24, state := .inside }, p) := by
  have hg : ∀ i, i < 24 → (H ++ p).getD i 0 = H.getD i 0 := by
    intro i hi
    rw [List.getD_eq_getElem?_getD, List.getElem?_append_left (by rw [hH.length]; exact hi), ← List.getD_eq_getElem?_getD]
  unfold feedOutside
  rw [hg 0 (by omega), hg 1 (by omega), hg 2 (by omega), hg 3 (by omega), hg 12 (by omega), hg 13 (by omega),
    hg 14 (by omega), hg 15 (by omega), hH.b0, hH.b1, hH.b2, hH.b3, hH.b12, hH.b13, hH.b14, hH.b15]
  rw [decide_eq_true (by rw [List.length_append, hH.length]; omega)]
  have h1 : ((H ++ p).drop 16).take 8 = H.drop 16 := by
    rw [List.drop_append_of_le_length (by rw [hH.length]; omega), List.take_left' (by rw [List.length_drop, hH.length])]
  have h2 : (H ++ p).drop 24 = p := List.drop_left' hH.length
  rw [h1, h2, hH.len]
  simp

/-- The first chunk of a segment. -/
theorem feed_first (gs : Stitch Bytes) (H M T c rest : Bytes) (len : Nat) (hH : HeadOk H len) (hT : T.length = 13)
    (hok : TailOk T) (hlen : len = (H ++ M ++ T).length) (hc : 24 ≤ c.length) (hcr : c ++ rest = H ++ M ++ T)
    (hs : gs.state = .outside) (hv : gs.retval = 0) (ht : gs.tailbuf.length = 13) :
    ∃ gs', stitchFeed collect gs c = .ok gs' ∧
      (rest ≠ [] → At gs M T rest gs') ∧ (rest = [] → Done gs gs' M T) ∧ gs'.retval = 0 := by
  have hcH : c = H ++ c.drop 24 := by
    have h1 : (c ++ rest).take 24 = (H ++ M ++ T).take 24 := by rw [hcr]
    rw [List.take_append_of_le_length hc, List.append_assoc, List.take_left' hH.length] at h1
    conv => lhs; rw [← List.take_append_drop 24 c, h1]
  obtain ⟨p, hp⟩ : ∃ p, p = c.drop 24 := ⟨_, rfl⟩
  rw [← hp] at hcH
  have hpr : p ++ rest = M ++ T := by
    rw [hcH, List.append_assoc, List.append_assoc] at hcr
    exact List.append_cancel_left hcr
  have hc0 : c ≠ [] := by intro h; rw [h] at hc; simp at hc
  unfold stitchFeed
  rw [if_neg (by simp [hv]), feedLoop, if_neg hc0, hs]
  simp only
  rw [hcH, feed_outside gs H p len hH]
  simp only [Res.ok_bind]
  rw [if_neg (show ¬ (gs.retval ≠ 0) by simp [hv])]
  have hAt : At gs M T (p ++ rest) { gs with gzlen := (len : Int) - 24, state := .inside } := by
    refine .inside _ M _ rfl hpr ?_ rfl hv rfl rfl ht
    simp only
    rw [hlen, hpr]
    simp only [List.length_append, hH.length]
    omega
  by_cases hp0 : p = []
  · rw [hp0, feedLoop_nil]
    rw [hp0, List.nil_append] at hAt hpr
    refine ⟨_, rfl, fun _ => hAt, fun h => ?_, hv⟩
    exfalso
    rw [h] at hpr
    have := congrArg List.length hpr
    simp only [List.length_append, List.length_nil, hT] at this
    omega
  · exact loop_at gs _ M T p rest hT hok hp0 hAt 1

/-- Later chunks. -/
theorem chunks_at (cs : List Bytes) (gs0 gs : Stitch Bytes) (M T : Bytes) (hT : T.length = 13) (hok : TailOk T)
    (h : At gs0 M T cs.flatten gs) :
    ∃ gs', stitchChunks collect cs gs = .ok gs' ∧ Done gs0 gs' M T := by
  induction cs generalizing gs with
  | nil =>
    exfalso
    generalize hq : ([] : List Bytes).flatten = q at h
    cases h with
    | tail gs rest hs hl hl13 hne => subst hq; exact hne rfl
    | inside gs M' rest hs hr =>
      subst hq
      have := congrArg List.length hr
      simp only [List.flatten_nil, List.length_append, List.length_nil, hT] at this
      omega
  | cons c cs ih =>
    rw [List.flatten_cons] at h
    by_cases hc : c = []
    · subst hc
      have hv : gs.retval = 0 := by cases h <;> assumption
      have hf : stitchFeed collect gs [] = .ok gs := by
        unfold stitchFeed; rw [if_neg (by simp [hv]), feedLoop_nil]
      rw [stitchChunks, hf]
      simp only [Res.ok_bind, hv, ne_eq, not_true_eq_false, if_false]
      exact ih gs h
    · have hv : gs.retval = 0 := by cases h <;> assumption
      obtain ⟨gs', h1, h2, h3, h4⟩ := loop_at gs0 gs M T c cs.flatten hT hok hc h 2
      have hf : stitchFeed collect gs c = .ok gs' := by
        unfold stitchFeed; rw [if_neg (by simp [hv]), h1]
      rw [stitchChunks, hf]
      simp only [Res.ok_bind, h4, ne_eq, not_true_eq_false, if_false]
      by_cases hr : cs.flatten = []
      · have hd := h3 hr
        -- only empty chunks are left
        have hall : ∀ cs : List Bytes, cs.flatten = [] → stitchChunks collect cs gs' = .ok gs' := by
          intro cs
          induction cs with
          | nil => intro _; rfl
          | cons x xs ihx =>
            intro hx
            rw [List.flatten_cons, List.append_eq_nil_iff] at hx
            have hf : stitchFeed collect gs' x = .ok gs' := by
              rw [hx.1]; unfold stitchFeed; rw [if_neg (by simp [h4]), feedLoop_nil]
            rw [stitchChunks, hf]
            simp only [Res.ok_bind, h4, ne_eq, not_true_eq_false, if_false]
            exact ihx hx.2
        exact ⟨gs', hall cs hr, hd⟩
      · exact ih gs' (h2 hr)

/-- A whole segment: the effect does not depend on the cut, as long as the first chunk has the header. -/
theorem seg_done (c : Bytes) (cs : List Bytes) (gs : Stitch Bytes) (H M T : Bytes) (len : Nat) (hH : HeadOk H len)
    (hT : T.length = 13) (hok : TailOk T) (hlen : len = (H ++ M ++ T).length) (hc : 24 ≤ c.length)
    (hcr : (c :: cs).flatten = H ++ M ++ T)
    (hs : gs.state = .outside) (hv : gs.retval = 0) (ht : gs.tailbuf.length = 13) :
    ∃ gs', stitchChunks collect (c :: cs) gs = .ok gs' ∧ Done gs gs' M T := by
  rw [List.flatten_cons] at hcr
  obtain ⟨gs', h1, h2, h3, h4⟩ := feed_first gs H M T c cs.flatten len hH hT hok hlen hc hcr hs hv ht
  rw [stitchChunks, h1]
  simp only [Res.ok_bind, h4, ne_eq, not_true_eq_false, if_false]
  by_cases hr : cs.flatten = []
  · have hall : ∀ cs : List Bytes, cs.flatten = [] → stitchChunks collect cs gs' = .ok gs' := by
      intro cs
      induction cs with
      | nil => intro _; rfl
      | cons x xs ihx =>
        intro hx
        rw [List.flatten_cons, List.append_eq_nil_iff] at hx
        have hf : stitchFeed collect gs' x = .ok gs' := by
          rw [hx.1]; unfold stitchFeed; rw [if_neg (by simp [h4]), feedLoop_nil]
        rw [stitchChunks, hf]
        simp only [Res.ok_bind, h4, ne_eq, not_true_eq_false, if_false]
        exact ihx hx.2
    exact ⟨gs', hall cs hr, h3 hr⟩
  · exact chunks_at cs gs gs' M T hT hok (h2 hr)

end Verif.Gzip
