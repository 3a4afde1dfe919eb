/-
Rebuilding silos: the three parts of a record, in whatever pieces they come.
-/
import Verif.Proofs.Rebuild

namespace Verif.Props
open Verif Header Gzip Wsilo Segjob Spec Inflate Rsilo
open _root_.Verif.Rebuild (Cfg Rb blankEnd putHeader gotHeader takeHead fixed takeFix endBody takeBody process members rebuildSilo rebuildFiles mainRebuild)

/-- Pieces that leave room for the NUL. -/
def Small (c : Cfg) (ps : List Bytes) : Prop := ∀ p ∈ ps, p.length < 16 * c.env.ps

theorem small_tail {c : Cfg} {p : Bytes} {ps : List Bytes} (h : Small c (p :: ps)) : p.length < 16 * c.env.ps ∧ Small c ps :=
  ⟨h p (by simp), fun q hq => h q (by simp [hq])⟩

theorem rb_process_nil {σ : Type} (c : Cfg) (D : Deflater σ) (f : Nat) (st : Rebuild.St σ) (out : Bytes) : process c D (f + 1) st out [] = .ok (st, out) := by
  rw [process, if_pos rfl]

theorem rb_process_step {σ : Type} {c : Cfg} {D : Deflater σ} {f : Nat} {st : Rebuild.St σ} {out p : Bytes} {r : Rb σ} (hp : p ≠ [])
    (h : Rebuild.round c D st out p = .ok r) : process c D (f + 1) st out p = process c D f r.st r.out r.rest := by
  rw [process, if_neg hp, h]
  rfl

theorem rb_pieces_cons {σ : Type} {c : Cfg} {D : Deflater σ} {p : Bytes} {ps : List Bytes} {st st' : Rebuild.St σ} {out out' : Bytes} (hp : p.length < 16 * c.env.ps)
    (h : process c D (3 * p.length + 4) st out p = .ok (st', out')) : Rebuild.pieces c D (p :: ps) st out = Rebuild.pieces c D ps st' out' := by
  rw [Rebuild.pieces, decide_eq_true hp, h]
  rfl

theorem rb_pieces_nil {σ : Type} (c : Cfg) (D : Deflater σ) : ∀ {ps : List Bytes} (st : Rebuild.St σ) (out : Bytes), Small c ps → ps.flatten = [] →
    Rebuild.pieces c D ps st out = .ok (st, out)
  | [], _, _, _, _ => rfl
  | p :: ps, st, out, hs, hf => by
    obtain ⟨h1, h2⟩ := small_tail hs
    obtain ⟨h3, h4⟩ := List.append_eq_nil_iff.1 (List.flatten_cons ▸ hf)
    subst h3
    rw [rb_pieces_cons h1 (rb_process_nil c D _ st out)]
    exact rb_pieces_nil c D st out h2 h4

/-- The part of the header that has been read is `buf`. -/
def HeadSt {σ : Type} (buf : Bytes) (st : Rebuild.St σ) : Prop := st = .head buf ∨ st = .start ∧ buf = []

theorem headSt_round {σ : Type} {c : Cfg} {D : Deflater σ} {buf out p : Bytes} {st : Rebuild.St σ} (h : HeadSt buf st) :
    Rebuild.round c D st out p = takeHead c D buf out p := by
  rcases h with rfl | ⟨rfl, rfl⟩ <;> rfl

theorem head_pieces {σ : Type} {c : Cfg} {D : Deflater σ} {text out : Bytes} {r : Rb σ} (hb : blankEnd text = some text.length) (hz : (0 : UInt8) ∉ text)
    (hl : text.length + 1 < c.bufsiz) (hg : gotHeader c D text out = .ok r) (hr : r.rest = []) :
    ∀ {ps : List Bytes} {buf : Bytes} {st : Rebuild.St σ}, HeadSt buf st → buf ++ ps.flatten = text → ps.flatten ≠ [] → Small c ps →
      Rebuild.pieces c D ps st out = .ok (r.st, r.out)
  | [], _, _, _, _, h0, _ => absurd rfl h0
  | p :: ps, buf, st, hst, ht, h0, hs => by
    obtain ⟨h1, h2⟩ := small_tail hs
    rw [List.flatten_cons] at ht h0
    by_cases hp : p = []
    · subst hp
      rw [rb_pieces_cons h1 (rb_process_nil c D _ st out)]
      exact head_pieces hb hz hl hg hr hst ht h0 h2
    · rw [← List.append_assoc] at ht
      have hlen := congrArg List.length ht
      simp only [List.length_append] at hlen
      have hz' : (0 : UInt8) ∉ buf ++ p := fun hm => hz (by rw [← ht]; exact List.mem_append_left _ hm)
      by_cases hq : ps.flatten = []
      · rw [hq, List.append_nil] at ht
        have : Rebuild.round c D st out p = .ok r := by
          rw [headSt_round hst, takeHead, decide_eq_true (by omega), cstr_eq hz', ht, hb]
          simp only [Res.check_true, Res.ok_bind, decide_true]
          exact hg
        have h3 : process c D (3 * p.length + 4) st out p = .ok (r.st, r.out) := by
          rw [rb_process_step hp this, hr, rb_process_nil]
        rw [rb_pieces_cons h1 h3]
        exact rb_pieces_nil c D _ _ h2 hq
      · have hbn : blankEnd (buf ++ p) = none := by
          cases hn : blankEnd (buf ++ p) with
          | none => rfl
          | some n =>
            exfalso
            have h3 := blankEnd_le hn
            have h4 := blankEnd_prefix ps.flatten hn
            rw [ht, hb] at h4
            cases h4
            have := List.length_pos_iff.2 hq
            simp only [List.length_append] at h3
            omega
        have : Rebuild.round c D st out p = .ok ⟨.head (buf ++ p), out, []⟩ := by
          rw [headSt_round hst, takeHead, decide_eq_true (by omega), cstr_eq hz', hbn]
          rfl
        have h3 : process c D (3 * p.length + 4) st out p = .ok (.head (buf ++ p), out) := by
          rw [rb_process_step hp this, rb_process_nil]
        rw [rb_pieces_cons h1 h3]
        exact head_pieces hb hz hl hg hr (.inl rfl) ht hq h2

/-! ### Contents -/

theorem rb_writeAa {pre raw data : Bytes} (h : RawSegment raw data) (hl : raw.length < 2 ^ 63) :
    writeAa (pre ++ raw) pre.length (raw.length : Int) = .ok (pre ++ withAa raw) := by
  have h24 := raw_length h
  unfold writeAa
  rw [decide_eq_true (by omega)]
  simp only [Res.check_true, Res.ok_bind, List.drop_left]
  rw [decide_eq_true (by rw [List.length_take]; omega)]
  simp only [Res.check_true, Res.ok_bind]
  have hg : goodAa (raw.take 16) (raw.take 16).length = .ok true := by
    obtain ⟨xfl, body, stop, n, ts, hx, rfl, -⟩ := h
    rcases hx with rfl | rfl <;> rfl
  rw [hg]
  simp only [Res.check_true, Res.ok_bind, Res.pure_eq, Res.ok.injEq]
  rw [ofInt64_nat hl, List.take_length_add_append, List.drop_length_add_append]
  unfold withAa
  simp only [List.append_assoc]

/-- What is left in the file when the contents have ended. -/
def bodyDone (pre raw : Bytes) : Bytes := pre ++ withAa raw ++ crnlcrnl

theorem endBody_ok {σ : Type} {c : Cfg} {D : Deflater σ} (hR : Refill D (16 * c.env.ps) c.osz) {gz : σ} {inp o avail : Bytes} (hf : Fed D (16 * c.env.ps) c.osz gz inp o)
    (ha : avail.length < 16 * c.env.ps) (hlen : (inp ++ avail).length < 2 ^ 60) : ∃ raw, RawSegment raw (inp ++ avail) ∧ raw.length < 2 ^ 63 ∧
    ∀ pre p, endBody c D pre.length gz avail (pre ++ o) p = .ok ⟨.sep 4, bodyDone pre raw, p⟩ := by
  obtain ⟨h1, h2, h3, h4⟩ := hR.last gz inp o avail _ _ hf ha rfl rfl
  have h5 := hR.sync gz inp o avail hf ha
  have h6 : (o ++ (D.deflate gz avail .sync c.osz).out ++ (D.deflate (D.deflate gz avail .sync c.osz).state
      (avail.drop (D.deflate gz avail .sync c.osz).used) .finish (c.osz - (D.deflate gz avail .sync c.osz).out.length)).out).length < 2 ^ 63 := by
    have h60 : 2 ^ 60 = 1152921504606846976 := by decide
    have h63 : 2 ^ 63 = 9223372036854775808 := by decide
    have h20 : 2 ^ 20 = 1048576 := by decide
    rw [h60] at hlen
    rw [h20] at h4
    rw [h63]
    omega
  refine ⟨_, h3, h6, fun pre p => ?_⟩
  · unfold endBody
    simp only
    rw [decide_eq_true h5]
    simp only [Res.check_true, Res.ok_bind]
    rw [decide_eq_true h1, h2]
    simp only [Res.check_true, Res.ok_bind]
    generalize (D.deflate gz avail .sync c.osz).out = zo at *
    generalize (D.deflate (D.deflate gz avail .sync c.osz).state (avail.drop (D.deflate gz avail .sync c.osz).used) .finish (c.osz - zo.length)).out = yo at *
    have he : pre ++ o ++ zo ++ yo = pre ++ (o ++ zo ++ yo) := by simp only [List.append_assoc]
    have hi : (((pre ++ (o ++ zo ++ yo)).length : Nat) : Int) - (pre.length : Nat) = ((o ++ zo ++ yo).length : Nat) := by
      rw [List.length_append]; omega
    rw [he, hi, rb_writeAa h3 h6]
    rfl

theorem body_pieces {σ : Type} {c : Cfg} {D : Deflater σ} (hR : Refill D (16 * c.env.ps) c.osz) :
    ∀ {ps : List Bytes} {gz : σ} {inp o : Bytes}, Fed D (16 * c.env.ps) c.osz gz inp o → Small c ps → ps.flatten ≠ [] → (inp ++ ps.flatten).length < 2 ^ 60 →
    ∃ raw, RawSegment raw (inp ++ ps.flatten) ∧ raw.length < 2 ^ 63 ∧
      ∀ pre : Bytes, Rebuild.pieces c D ps (.body ps.flatten.length pre.length gz) (pre ++ o) = .ok (.sep 4, bodyDone pre raw)
  | [], _, _, _, _, _, h0, _ => absurd rfl h0
  | p :: ps, gz, inp, o, hf, hs, h0, hlen => by
    obtain ⟨h1, h2⟩ := small_tail hs
    rw [List.flatten_cons] at h0 hlen ⊢
    by_cases hp : p = []
    · subst hp
      rw [List.nil_append] at h0 hlen ⊢
      obtain ⟨raw, r1, r2, r3⟩ := body_pieces hR hf h2 h0 hlen
      refine ⟨raw, r1, r2, fun pre => ?_⟩
      rw [rb_pieces_cons h1 (rb_process_nil c D _ _ _)]
      exact r3 pre
    · have hlp : (p ++ ps.flatten).length = p.length + ps.flatten.length := List.length_append
      have hmin : min (((p ++ ps.flatten).length : Nat) : Int).toNat p.length = p.length := by omega
      by_cases hq : ps.flatten = []
      · rw [hq, List.append_nil] at hlen ⊢
        obtain ⟨raw, r1, r2, r3⟩ := endBody_ok hR hf h1 hlen
        refine ⟨raw, r1, r2, fun pre => ?_⟩
        have hr : Rebuild.round c D (.body (p.length : Nat) pre.length gz) (pre ++ o) p = .ok ⟨.sep 4, bodyDone pre raw, []⟩ := by
          show takeBody c D _ _ _ _ _ = _
          rw [takeBody, decide_eq_true (by omega)]
          simp only [Res.access_true, Res.ok_bind]
          rw [if_neg (by omega)]
          simp only [Int.toNat_natCast, Nat.min_self, List.take_length, List.drop_length]
          exact r3 pre []
        have h3 : process c D (3 * p.length + 4) (.body (p.length : Nat) pre.length gz) (pre ++ o) p = .ok (.sep 4, bodyDone pre raw) := by
          rw [rb_process_step hp hr, rb_process_nil]
        rw [rb_pieces_cons h1 h3]
        exact rb_pieces_nil c D _ _ h2 hq
      · have hpos := List.length_pos_iff.2 hq
        have hf' := Fed.step p hf hp h1
        rw [← List.append_assoc] at hlen
        obtain ⟨raw, r1, r2, r3⟩ := body_pieces hR hf' h2 hq hlen
        rw [List.append_assoc] at r1
        refine ⟨raw, r1, r2, fun pre => ?_⟩
        have hr : Rebuild.round c D (.body ((p ++ ps.flatten).length : Nat) pre.length gz) (pre ++ o) p =
            .ok ⟨.body (ps.flatten.length : Nat) pre.length (D.deflate gz p .none c.osz).state, pre ++ (o ++ (D.deflate gz p .none c.osz).out), []⟩ := by
          show takeBody c D _ _ _ _ _ = _
          rw [takeBody, decide_eq_true (by omega)]
          simp only [Res.access_true, Res.ok_bind]
          rw [hmin, if_pos (by omega), List.take_length, decide_eq_true (hR.feed gz inp o p hf hp h1)]
          simp only [Res.check_true, Res.ok_bind, List.drop_length, List.append_assoc]
          have : (((p ++ ps.flatten).length : Nat) : Int) - ((p.length : Nat) : Int) = (ps.flatten.length : Nat) := by omega
          rw [this]
          rfl
        have h3 : process c D (3 * p.length + 4) (.body ((p ++ ps.flatten).length : Nat) pre.length gz) (pre ++ o) p =
            .ok (.body (ps.flatten.length : Nat) pre.length (D.deflate gz p .none c.osz).state, pre ++ (o ++ (D.deflate gz p .none c.osz).out)) := by
          rw [rb_process_step hp hr, rb_process_nil]
        rw [rb_pieces_cons h1 h3]
        exact r3 pre

/-! ### The separator -/

theorem sep_round {σ : Type} (c : Cfg) (D : Deflater σ) (left : Nat) (out p : Bytes) (h : p.length ≤ left) :
    Rebuild.round c D (.sep left) out p = .ok ⟨if left = p.length then .start else .sep (left - p.length), out, []⟩ := by
  show Res.ok _ = _
  rw [Nat.min_eq_right h, List.drop_length]
  by_cases h1 : left = p.length
  · rw [if_pos (by omega), if_pos h1]
  · rw [if_neg (by omega), if_neg h1]

theorem sep_pieces {σ : Type} (c : Cfg) (D : Deflater σ) (out : Bytes) : ∀ {ps : List Bytes} {left : Nat}, Small c ps → ps.flatten.length = left → 0 < left →
    Rebuild.pieces c D ps (.sep left) out = .ok (.start, out)
  | [], _, _, h, h0 => by
    change 0 = _ at h
    omega
  | p :: ps, left, hs, h, h0 => by
    obtain ⟨h1, h2⟩ := small_tail hs
    rw [List.flatten_cons, List.length_append] at h
    by_cases hp : p = []
    · subst hp
      rw [rb_pieces_cons h1 (rb_process_nil c D _ _ _)]
      exact sep_pieces c D out h2 (by simpa using h) h0
    · have hpos := List.length_pos_iff.2 hp
      have hr := sep_round c D left out p (by omega)
      have h3 := rb_process_step (f := 3 * p.length + 3) hp hr
      rw [rb_process_nil] at h3
      rw [rb_pieces_cons h1 h3]
      by_cases hq : ps.flatten = []
      · rw [hq] at h
        rw [if_pos (by simpa using h.symm)]
        exact rb_pieces_nil c D _ _ h2 hq
      · have := List.length_pos_iff.2 hq
        rw [if_neg (by omega)]
        exact sep_pieces c D out h2 (by omega) (by omega)

/-- In at most two rounds the state is the one behind the contents, with nothing taken. -/
def Ends {σ : Type} (c : Cfg) (D : Deflater σ) (st : Rebuild.St σ) (out out' : Bytes) : Prop :=
  ∀ f p, p ≠ [] → ∃ f', f ≤ f' ∧ process c D (f + 2) st out p = process c D f' (.sep 4) out' p

theorem ends_pieces {σ : Type} {c : Cfg} {D : Deflater σ} {st : Rebuild.St σ} {out out' : Bytes} (he : Ends c D st out out') :
    ∀ {ps : List Bytes}, Small c ps → ps.flatten.length = 4 → Rebuild.pieces c D ps st out = .ok (.start, out')
  | [], _, h => by cases h
  | p :: ps, hs, h => by
    obtain ⟨h1, h2⟩ := small_tail hs
    have hc := h
    rw [List.flatten_cons, List.length_append] at h
    by_cases hp : p = []
    · subst hp
      rw [rb_pieces_cons h1 (rb_process_nil c D _ _ _)]
      exact ends_pieces he h2 (by simpa using h)
    · have hpos := List.length_pos_iff.2 hp
      obtain ⟨f', hf, e⟩ := he (3 * p.length + 2) p hp
      obtain ⟨g, rfl⟩ : ∃ g, f' = g + 2 := ⟨f' - 2, by omega⟩
      have hr := sep_round c D 4 out' p (by omega)
      have h3 := rb_process_step (f := g + 1) hp hr
      rw [rb_process_nil] at h3
      rw [rb_pieces_cons h1 (e.trans h3)]
      by_cases hq : ps.flatten = []
      · rw [hq] at h
        rw [if_pos (by simpa using h.symm)]
        exact rb_pieces_nil c D _ _ h2 hq
      · have := List.length_pos_iff.2 hq
        rw [if_neg (by omega)]
        exact sep_pieces c D out' h2 (by omega) (by omega)

theorem ends_sep {σ : Type} (c : Cfg) (D : Deflater σ) (out : Bytes) : Ends c D (.sep 4) out out := fun f _ _ => ⟨f + 2, by omega, rfl⟩

theorem ends_one {σ : Type} {c : Cfg} {D : Deflater σ} {st : Rebuild.St σ} {out out' : Bytes}
    (h : ∀ p, p ≠ [] → Rebuild.round c D st out p = .ok ⟨.sep 4, out', p⟩) : Ends c D st out out' :=
  fun f p hp => ⟨f + 1, by omega, rb_process_step hp (h p hp)⟩

theorem ends_two {σ : Type} {c : Cfg} {D : Deflater σ} {st st' : Rebuild.St σ} {out out1 out' : Bytes} (h : ∀ p, p ≠ [] → Rebuild.round c D st out p = .ok ⟨st', out1, p⟩)
    (h2 : ∀ p, p ≠ [] → Rebuild.round c D st' out1 p = .ok ⟨.sep 4, out', p⟩) : Ends c D st out out' :=
  fun f p hp => ⟨f, by omega, by rw [rb_process_step hp (h p hp)]; exact rb_process_step hp (h2 p hp)⟩

/-! ### Old records -/

theorem fix_pieces {σ : Type} {c : Cfg} {D : Deflater σ} {hd : Hdr} {data out out' : Bytes} {st' : Rebuild.St σ} (hb : data.length ≤ c.bufsiz)
    (hdel : headerDelete hd b!"WARC-record-digest" = .ok hd) (hfix : ∀ p, fixed c D hd data out p = .ok ⟨st', out', p⟩) :
    ∀ {ps : List Bytes} {h : Hdr} {got : Bytes}, headerDelete h b!"WARC-record-digest" = .ok hd → got ++ ps.flatten = data → ps.flatten ≠ [] → Small c ps →
      Rebuild.pieces c D ps (.fix h data.length got) out = .ok (st', out')
  | [], _, _, _, _, h0, _ => absurd rfl h0
  | p :: ps, h, got, hh, ht, h0, hs => by
    obtain ⟨h1, h2⟩ := small_tail hs
    rw [List.flatten_cons] at ht h0
    by_cases hp : p = []
    · subst hp
      rw [rb_pieces_cons h1 (rb_process_nil c D _ _ _)]
      exact fix_pieces hb hdel hfix hh ht h0 h2
    · have hlen := congrArg List.length ht
      simp only [List.length_append] at hlen
      have hmin : min (data.length - got.length) p.length = p.length := by omega
      by_cases hq : ps.flatten = []
      · rw [hq, List.append_nil] at ht
        rw [hq, List.length_nil] at hlen
        have hr : Rebuild.round c D (.fix h data.length got) out p = .ok ⟨st', out', []⟩ := by
          show takeFix c D h _ got out p = _
          rw [takeFix, hh]
          simp only [Res.ok_bind, Int.toNat_natCast, hmin]
          rw [decide_eq_true (by omega), decide_eq_true (by omega)]
          simp only [Res.access_true, Res.ok_bind, List.take_length, List.drop_length, ht]
          rw [if_neg (by omega)]
          exact hfix []
        have h3 := rb_process_step (f := 3 * p.length + 3) hp hr
        rw [rb_process_nil] at h3
        rw [rb_pieces_cons h1 h3]
        exact rb_pieces_nil c D _ _ h2 hq
      · have hpos := List.length_pos_iff.2 hq
        have hr : Rebuild.round c D (.fix h data.length got) out p = .ok ⟨.fix hd data.length (got ++ p), out, []⟩ := by
          show takeFix c D h _ got out p = _
          rw [takeFix, hh]
          simp only [Res.ok_bind, Int.toNat_natCast, hmin]
          rw [decide_eq_true (by omega), decide_eq_true (by omega)]
          simp only [Res.access_true, Res.ok_bind, List.take_length, List.drop_length]
          rw [if_pos (by omega)]
          rfl
        have h3 := rb_process_step (f := 3 * p.length + 3) hp hr
        rw [rb_process_nil] at h3
        rw [rb_pieces_cons h1 h3]
        exact fix_pieces hb hdel hfix hdel (by rw [List.append_assoc]; exact ht) hq h2

/-- No contents at all: the work is done when the separator comes. -/
theorem ends_empty {σ : Type} {c : Cfg} {D : Deflater σ} (hR : Refill D (16 * c.env.ps) c.osz) (hps : 0 < c.env.ps) :
    ∃ raw, RawSegment raw [] ∧ raw.length < 2 ^ 63 ∧ ∀ pre : Bytes, Ends c D (.body 0 pre.length D.init) pre (bodyDone pre raw) := by
  obtain ⟨raw, r1, r2, r3⟩ := endBody_ok hR (avail := []) Fed.start (by simp only [List.length_nil]; omega) (by decide)
  refine ⟨raw, r1, r2, fun pre => ends_one fun p _ => ?_⟩
  show takeBody c D 0 pre.length D.init pre p = _
  rw [takeBody, decide_eq_true (by omega)]
  simp only [Res.access_true, Res.ok_bind, Int.toNat_zero, Nat.zero_min]
  rw [if_neg (by omega), List.take_zero, List.drop_zero]
  have := r3 pre p
  rwa [List.append_nil] at this

/-- All the contents at once. -/
theorem ends_last {σ : Type} {c : Cfg} {D : Deflater σ} (hR : Refill D (16 * c.env.ps) c.osz) {data : Bytes} (hd : data.length < 16 * c.env.ps) (hl : data.length < 2 ^ 60) :
    ∃ raw, RawSegment raw data ∧ raw.length < 2 ^ 63 ∧ ∀ pre p : Bytes, Rebuild.round c D (.last pre.length D.init data) pre p = .ok ⟨.sep 4, bodyDone pre raw, p⟩ := by
  obtain ⟨raw, r1, r2, r3⟩ := endBody_ok hR Fed.start hd (by simpa using hl)
  refine ⟨raw, by simpa using r1, r2, fun pre p => ?_⟩
  have := r3 pre p
  rw [List.append_nil] at this
  exact this

end Verif.Props
