/-
Feeding a store job cannot fail.
-/
import Verif.Proofs.Total
import Verif.Proofs.Store
import Verif.Props.Ident
import Verif.Spec.Live

namespace Verif.Props
open Verif Header Gzip Ident Index Wsilo Segjob Spec Inflate
open _root_.Verif.Commit (upd Silo)

/-! ### Headers -/

/-- The ID of a record with this header can be made: its type is one of those for which there is one (ident.c:44-81), and an ID given by the user is
a bare one. -/
def CanId (env : Env) (h : Hdr) (ident : Option Bytes) : Prop :=
  (headerGet h b!"WARC-Type" = some b!"resource" ∨ headerGet h b!"WARC-Type" = some b!"continuation" ∨
    headerGet h b!"WARC-Type" = some b!"metadata" ∧ (headerGet h b!"WARC-Refers-To").isSome = true) ∧
  ∀ i, ident = some i → i.length = env.idSize ∧ ∀ c ∈ i, isHex c = true

theorem identSet_total {env : Env} (he : EnvOk env) {h : Hdr} {ident : Option Bytes} {d : Bytes} (hc : CanId env h ident) (hd : d.length = 64)
    (hx : ∀ c ∈ d, isHex c = true) : ∃ h', identSet env.sha env.pfx env.idSize h d ident = .ok h' := by
  obtain ⟨h1, h2⟩ := hc
  have hid := he.idSize
  cases ident with
  | some i =>
    obtain ⟨p, hp⟩ := he.slash
    exact ⟨_, C50_bare env.sha env.pfx env.idSize h d i (by rw [hp]; simp) (h2 i rfl).2 (h2 i rfl).1⟩
  | none =>
    unfold identSet identCreate
    have key : ∀ d' : Bytes, d'.length = 64 → (∀ c ∈ d', isHex c = true) → ∃ h', headerSetId env.idSize h (d'.take env.idSize) = .ok h' := fun d' a b =>
      ⟨_, headerSetId_total (fun c hc => b c (List.mem_of_mem_take hc)) (by rw [List.length_take]; omega)⟩
    rcases h1 with h1 | h1 | ⟨h1, h3⟩
    · simp only [h1]
      rw [if_pos trivial]
      exact key d hd hx
    · simp only [h1]
      rw [if_neg (by decide), if_pos trivial]
      exact key d hd hx
    · obtain ⟨r, hr⟩ := Option.isSome_iff_exists.1 h3
      simp only [h1, hr]
      rw [if_neg (by decide), if_neg (by decide), if_neg (by decide), if_pos trivial]
      exact key _ (he.sha _).1 (he.sha _).2

theorem finishHdr_total {env : Env} (he : EnvOk env) {h : Hdr} {d : Bytes} {ident : Option Bytes} {size : Nat} (hs : SortedF h.fields) (hc : CanId env h ident)
    (hd : d.length = 64) (hx : ∀ c ∈ d, isHex c = true) : ∃ h', finishHdr env h d size ident = .ok h' := by
  obtain ⟨h1, e1, -, s1, g1⟩ := headerSet_spec h b!"WARC-Block-Digest" (b!"sha256:" ++ d) hs (by decide)
  obtain ⟨h2, e2, -, s2, g2⟩ := headerSet_spec h1 b!"Content-Length" (dec size) s1 (by decide)
  unfold finishHdr
  rw [e1, Res.ok_bind, e2, Res.ok_bind]
  refine identSet_total he ?_ hd hx
  unfold CanId at hc ⊢
  rwa [g2, if_neg (by decide), g1, if_neg (by decide), g2, if_neg (by decide), g1, if_neg (by decide)]

theorem seg0Hdr_total {env : Env} (he : EnvOk env) {h : Hdr} (hs : SortedF h.fields) (n : Nat) : ∃ h0, seg0Hdr env h n = .ok h0 := by
  have hc : headerClone h = h := by
    unfold headerClone
    simp
  obtain ⟨h1, e1, -, s1, -⟩ := headerSet_spec h b!"WARC-Block-Digest" (b!"sha256:" ++ env.sha []) hs (by decide)
  obtain ⟨h2, e2, -, s2, -⟩ := headerSet_spec h1 b!"Content-Length" (b!"00" ++ dec env.max) s1 (by decide)
  unfold seg0Hdr
  rw [hc, e1, Res.ok_bind, e2, Res.ok_bind]
  split
  · exact ⟨_, rfl⟩
  · obtain ⟨h3, e3, -, s3, -⟩ := headerSet_spec h2 b!"WARC-Segment-Number" (dec n) s2 (by decide)
    obtain ⟨h4, e4, -, s4, -⟩ := headerSet_spec h3 b!"WARC-Type" b!"continuation" s3 (by decide)
    obtain ⟨h5, e5, -, -, -⟩ := headerSet_spec h4 b!"WARC-Segment-Origin-ID" (b!"<" ++ env.pfx ++ (env.sha []).take env.idSize ++ b!">") s4 (by decide)
    refine ⟨h5, ?_⟩
    rw [e3, Res.ok_bind, e4, Res.ok_bind]
    unfold headerSetRef
    rw [decide_eq_true (by rw [(he.sha []).1]; exact he.idSize.2), Res.check_true, Res.ok_bind, e5]

/-- The header a segment is begun with allows an ID to be made. -/
theorem seg0_canId {env : Env} {jh h0 : Hdr} {ident : Option Bytes} {n : Nat} (hs : SortedF jh.fields) (hc : CanId env jh ident) (e : seg0Hdr env jh n = .ok h0) :
    SortedF h0.fields ∧ CanId env h0 (if n = 1 then ident else none) := by
  by_cases hn : n = 1
  · rw [hn] at e
    obtain ⟨s0, -, -, -, g⟩ := seg0_first hs e
    rw [if_pos hn]
    refine ⟨s0, ?_⟩
    unfold CanId at hc ⊢
    rwa [g _ ⟨by decide, by decide⟩, g _ ⟨by decide, by decide⟩]
  · obtain ⟨s0, -, -, -, -, g, -⟩ := seg0_cont hn hs e
    rw [if_neg hn]
    exact ⟨s0, .inr (.inl g), fun i h => by cases h⟩

/-! ### Room -/

theorem getSpace_append (max : Nat) (sl : Sl) (d : Bytes) : getSpace max sl - d.length ≤ getSpace max { sl with hold := sl.hold ++ d } := by
  unfold getSpace
  simp only [List.length_append]
  split <;> split <;> omega

theorem getSpace_le (max : Nat) (sl : Sl) : getSpace max sl ≤ 1048576 := by
  unfold getSpace
  split <;> omega

theorem outbuf_total {env : Env} {sl : Sl} {k : Nat} (h : (k : Int) + 24 = getSpace env.max sl) : outbuf env sl = .ok k := by
  unfold outbuf
  simp only
  rw [← h, decide_eq_true (by omega), decide_eq_true (by omega), Res.check_true, Res.ok_bind, Res.access_true, Res.ok_bind, Res.pure_eq]
  congr 1
  omega

theorem runDeflate_total {σ : Type} {D : Deflater σ} {c : Cur σ} {fl : Flush} {space : Nat} {z : ZStep σ} (hz : D.deflate c.gz c.availIn fl space = z)
    (hr : z.ret = .ok ∨ fl = .finish ∧ z.ret = .streamEnd) (hl : z.out.length ≤ 2 ^ 20) :
    runDeflate D c fl space = .ok ({ c with gz := z.state, availIn := c.availIn.drop z.used, flag := fl, seg := { c.seg with silo := { c.seg.silo with hold := c.seg.silo.hold ++ z.out } } }, z) := by
  unfold runDeflate
  simp only [hz]
  rw [show (decide (z.ret = .ok) || (decide (fl = .finish) && decide (z.ret = .streamEnd))) = true by
    rw [Bool.or_eq_true, Bool.and_eq_true]; simpa only [decide_eq_true_eq] using hr]
  rw [Res.check_true, Res.ok_bind]
  by_cases h0 : z.out = []
  · rw [if_pos h0]
    simp only [h0, List.append_nil, Res.pure_eq]
  · rw [if_neg h0]
    unfold store
    rw [decide_eq_true (List.length_pos_iff.2 h0), decide_eq_true hl]
    rfl

theorem writeAa_total {pre raw post data : Bytes} (h : RawSegment raw data) {len : Int} (hl : 0 < len) :
    ∃ f, writeAa (pre ++ raw ++ post) pre.length len = .ok f := by
  have h24 := raw_length h
  have ht : (raw ++ post).take 16 = raw.take 16 := List.take_append_of_le_length (by omega)
  unfold writeAa
  rw [decide_eq_true hl]
  simp only [Res.check_true, Res.ok_bind, List.append_assoc, List.drop_left]
  rw [ht, decide_eq_true (by rw [List.length_take]; omega)]
  simp only [Res.check_true, Res.ok_bind]
  have hg : goodAa (raw.take 16) (raw.take 16).length = .ok true := by
    obtain ⟨xfl, body, stop, n, ts, hx, rfl, -⟩ := h
    rcases hx with rfl | rfl <;> rfl
  rw [hg]
  exact ⟨_, rfl⟩

/-- What the compressor needs is there: now, and after taking half of the room as input. -/
def Fits (n sp : Nat) : Prop := n < sp ∧ n ≤ 32000 ∧ (52 ≤ sp → sp < 131072 → n + sp / 2 + sp / 2 / 1024 + 8 < sp)

/-- The current segment between two calls of `deflate`. -/
structure CurOk {σ : Type} (env : Env) (D : Deflater σ) (need : σ → Nat) (c : Cur σ) : Prop where
  roomy : Roomy D need c.gz
  avail : c.availIn = []
  flag : c.flag = .none ∨ c.flag = .partialFlush
  room : ∃ sp : Nat, (sp : Int) + 24 = getSpace env.max c.seg.silo ∧ Fits (need c.gz) sp

theorem fits_start {n sp : Nat} (h : n ≤ 40) (hs : 128 ≤ sp) : Fits n sp := ⟨by omega, by omega, fun _ _ => by omega⟩

theorem fits_room {n sp a : Nat} (h : Fits n sp) (hs : 52 ≤ sp) (ha : a ≤ sp / 2) : n + a + a / 1024 + 8 < sp := by
  obtain ⟨h1, h2, h3⟩ := h
  by_cases hb : sp < 131072
  · have := h3 hs hb
    omega
  · omega

theorem fits_step {n sp a n' o sp' : Nat} (h : Fits n sp) (hs : 52 ≤ sp) (ha : a ≤ sp / 2) (ho : o + n' ≤ n + a + a / 1024 + 8) (hsp : sp ≤ sp' + o)
    (hn : n' ≤ 16 ∨ 131072 ≤ sp ∧ n' ≤ 32000) : Fits n' sp' := by
  have hr := fits_room h hs ha
  obtain ⟨h1, h2, h3⟩ := h
  refine ⟨by omega, by omega, fun h4 h5 => ?_⟩
  rcases hn with hn | ⟨hn1, hn2⟩ <;> omega

/-! ### Segments -/

/-- Ending a segment. -/
theorem endSeg_total {σ : Type} {env : Env} (he : EnvOk env) {D : Deflater σ} {need : σ → Nat} (hz : Zlib D) (hL : Live D need) {jh : Hdr} (hs : SortedF jh.fields)
    {ident : Option Bytes} (hid : CanId env jh ident) {before : Nat} {c : Cur σ} (hc : SegCur env D jh before c) (ho : CurOk env D need c) {space : Nat}
    (hsp : outbuf env c.seg.silo = .ok space) : ∃ s, endSeg env D ident c space = .ok s := by
  obtain ⟨h0, inp, out, hb, e1, e2, e3⟩ := hc.state
  obtain ⟨ra, rb, -, sp, rc, rd, -, -⟩ := ho
  have hsp := outbuf_inv hsp
  have hsp' : space = sp := by omega
  subst hsp'
  have hle := getSpace_le env.max c.seg.silo
  have h20 : (2 : Nat) ^ 20 = 1048576 := by decide
  -- the flush
  obtain ⟨z, hzz⟩ : ∃ z, D.deflate c.gz [] .sync space = z := ⟨_, rfl⟩
  obtain ⟨a1, a2⟩ := hL.sync c.gz space ra rd
  have hf := fun sp2 => hL.finish c.gz space sp2 ra rd
  rw [hzz] at a1 a2 hf
  unfold endSeg
  rw [decide_eq_true rb, Res.check_true, Res.ok_bind]
  rw [runDeflate_total (z := z) (by rw [rb]; exact hzz) (.inl a1) (by omega), Res.ok_bind]
  have g1 : getSpace env.max c.seg.silo - z.out.length ≤ getSpace env.max { c.seg.silo with hold := c.seg.silo.hold ++ z.out } := getSpace_append _ _ _
  -- the end of the stream
  obtain ⟨sp2, hsp2⟩ : ∃ sp2 : Nat, (sp2 : Int) + 24 = getSpace env.max { c.seg.silo with hold := c.seg.silo.hold ++ z.out } :=
    ⟨(getSpace env.max { c.seg.silo with hold := c.seg.silo.hold ++ z.out } - 24).toNat, by omega⟩
  simp only
  rw [outbuf_total hsp2, Res.ok_bind, rb]
  simp only [List.drop_nil]
  obtain ⟨y, hy⟩ : ∃ y, D.deflate z.state [] .finish sp2 = y := ⟨_, rfl⟩
  obtain ⟨b1, b2, b3⟩ := hf sp2 (by omega)
  rw [hy] at b1 b2 b3
  rw [runDeflate_total (z := y) hy (.inr ⟨rfl, b1⟩) (by omega), Res.ok_bind]
  simp only [List.drop_nil]
  have g2 : getSpace env.max { c.seg.silo with hold := c.seg.silo.hold ++ z.out } - y.out.length ≤
    getSpace env.max { c.seg.silo with hold := c.seg.silo.hold ++ z.out ++ y.out } := getSpace_append _ _ _
  rw [decide_eq_true (show getSpace env.max { c.seg.silo with hold := c.seg.silo.hold ++ z.out ++ y.out } > 24 by omega), Res.check_true, Res.ok_bind]
  unfold store
  rw [show decide (0 < crnlcrnl.length) = true by decide, show decide (crnlcrnl.length ≤ 2 ^ 20) = true by decide]
  simp only [Res.check_true, Res.ok_bind, Res.pure_eq]
  -- header and length
  have hraw := hz.done _ _ _ space sp2 e2 (by rw [hzz]; exact a1) (by rw [hzz]; omega) (by rw [hzz, hy]; exact b1)
  rw [hzz, hy] at hraw
  obtain ⟨s0, i0⟩ := seg0_canId hs hid hb.hdr0
  obtain ⟨h', f1⟩ := finishHdr_total he (size := c.seg.size) s0 i0 (he.sha c.seg.content).1 (he.sha c.seg.content).2
  rw [← e1] at f1
  unfold finishHdr at f1
  simp only [Res.bind_eq_ok] at f1
  obtain ⟨x1, f1, x2, f2, f3⟩ := f1
  unfold finishseg
  simp only
  rw [b3, Res.check_true, Res.ok_bind, f1, Res.ok_bind, f2, Res.ok_bind, f3, Res.ok_bind]
  obtain ⟨ih, info, res, i1, i2, i3, i4, i5⟩ := hb.hold
  have hlen : (info ++ res).length = c.seg.silo.hdStart + c.seg.silo.hdLen := by rw [List.length_append, i3, i4]
  unfold wsiloFinish
  simp only
  have h24 := raw_length hraw
  have hhold : c.seg.silo.hold ++ z.out ++ y.out ++ crnlcrnl = info ++ res ++ (out ++ z.out ++ y.out) ++ crnlcrnl := by
    rw [i5]; simp only [List.append_assoc]
  obtain ⟨f, hw⟩ := writeAa_total (pre := info ++ res) (post := crnlcrnl) hraw
    (len := ((info ++ res ++ (out ++ z.out ++ y.out) ++ crnlcrnl).length : Int) - ((c.seg.silo.hdStart : Int) + c.seg.silo.hdLen + 24)) (by
      rw [List.length_append, List.length_append (as := info ++ res), hlen]
      have : crnlcrnl.length = 24 := rfl
      omega)
  rw [hhold, ← hlen, hw]
  exact ⟨_, rfl⟩

/-- No silo and no hold file has the number `n` or a higher one. -/
def FreeFrom (w : World) (n : Nat) : Prop := ∀ m, n ≤ m → w.silos m = none ∧ w.holds m = false

theorem wsiloNext_total (silo hold : Nat → Bool) {N : Nat} (hs : silo N = false) (hh : hold N = false) : ∀ (fuel n : Nat), n ≤ N → N < n + fuel →
    ∃ m, Cache.wsiloNext silo hold fuel n = some m ∧ m ≤ N
  | 0, n, h1, h2 => by omega
  | fuel + 1, n, h1, h2 => by
    rw [Cache.wsiloNext]
    split
    · rename_i h
      have hn : n ≠ N := by
        rintro rfl
        rw [hs, hh] at h
        simp at h
      exact wsiloNext_total silo hold hs hh fuel (n + 1) (by omega) (by omega)
    · exact ⟨n, rfl, h1⟩

/-- There is room in a silo for the warcinfo record, for a page with the header, and for some contents. -/
def RoomEnv (env : Env) : Prop := ∀ n, n < 2 ^ 32 → infoLen env n + env.ps + 152 ≤ env.max

theorem wsiloNextW_total {env : Env} (he : EnvOk env) (hm : RoomEnv env) {w : World} {N fuel : Nat} (hf : FreeFrom w N)
    (hN : (Cache.readCache w.cacheFile w.cache).firstNon ≤ N) (hN2 : N + 1 < 2 ^ 32) (hfuel : N < fuel) :
    ∃ w' sl, wsiloNextW env fuel w = .ok (w', sl) ∧ sl.hold.length = infoLen env sl.no ∧ sl.hdStart = 0 ∧ sl.no ≤ N := by
  obtain ⟨m, h1, h2⟩ := wsiloNext_total (fun n => (w.silos n).isSome) w.holds (N := N) (by rw [(hf N (Nat.le_refl _)).1]; rfl) (hf N (Nat.le_refl _)).2 fuel
    (Cache.readCache w.cacheFile w.cache).firstNon hN (by omega)
  have hr := hm m (by omega)
  obtain ⟨ih, info, i1, i2, i3⟩ := warcinfoNew_total he (sl := { no := m, idx := 0, hold := [], hd := ⟨[], []⟩, hdStart := 0, hdLen := 0, infoId := [] })
    (by simp only; omega) rfl (by simp only; omega)
  refine ⟨{ w with cache := Cache.readCache w.cacheFile w.cache, holds := upd w.holds m true },
    { no := m, idx := 0, hold := info, hd := ⟨[], []⟩, hdStart := 0, hdLen := 0, infoId := ih.id }, ?_, i2, rfl, h2⟩
  unfold wsiloNextW
  simp only [h1]
  rw [decide_eq_true (show m + 1 < 2 ^ 32 by omega), Res.check_true, Res.ok_bind, i3]
  rfl

theorem wsiloHeader_total {env : Env} {sl : Sl} {hd : Hdr} {pad0 : Nat} (h0 : sl.hdStart = 0) (hp : 0 < pad0) (ht : 0 < (env.pack0 (headerSerialize env.pfx hd)).length)
    (hl : (env.pack0 (headerSerialize env.pfx hd)).length + (pad0 + 6) ≤ 2 ^ 15) (hm : sl.hold.length + (env.pack0 (headerSerialize env.pfx hd)).length + (pad0 + 6) < env.max) :
    ∃ sl', wsiloHeader env sl hd pad0 = .ok sl' := by
  have hs : ((((env.pack0 (headerSerialize env.pfx hd)).length + (pad0 + 6) : Nat) : Int)) < getSpace env.max sl := by
    unfold getSpace
    have h15 : (2 : Nat) ^ 15 = 32768 := by decide
    split <;> omega
  have h1 : ((pad0 + 6 : Nat) : Int) < getSpace env.max { sl with hold := sl.hold ++ env.pack0 (headerSerialize env.pfx hd) } := by
    have := getSpace_append env.max sl (env.pack0 (headerSerialize env.pfx hd))
    omega
  have h15 : (2 : Nat) ^ 15 = 32768 := by decide
  have h20 : (2 : Nat) ^ 20 = 1048576 := by decide
  unfold wsiloHeader
  rw [if_pos hp, show headerLen b!"z" b!"_" = 6 from rfl]
  simp only
  rw [decide_eq_true h0, decide_eq_true ht, decide_eq_true hs]
  simp only [Res.check_true, Res.ok_bind]
  unfold store
  rw [decide_eq_true ht, decide_eq_true (by omega)]
  simp only [Res.check_true, Res.ok_bind, Res.pure_eq]
  rw [decide_eq_true h1]
  simp only [Res.check_true, Res.ok_bind, List.length_replicate]
  rw [decide_eq_true (by omega), decide_eq_true (by omega)]
  exact ⟨_, rfl⟩

/-- What is assumed of a store job. -/
structure Storable (env : Env) (h : Hdr) (ident : Option Bytes) : Prop where
  job : JobHdr env.idSize h
  neat : Neat h
  short : Short env h
  canId : CanId env h ident

theorem pad_bound {env : Env} (he : EnvOk env) (n : Nat) {size : Nat} (hb : size + env.max < 2 ^ 63) : seg0Pad env n size ≤ 118 := by
  unfold seg0Pad
  split
  · unfold headerLen
    rw [List.length_append, (he.sha []).1]
    decide
  · have := dec_length (size + env.max) 18 (by omega)
    unfold headerLen
    show 25 + 2 + _ + 2 ≤ _
    omega

theorem newseg_total {σ : Type} {env : Env} (he : EnvOk env) (hm : RoomEnv env) {D : Deflater σ} {need : σ → Nat} (hL : Live D need) {w : World} {sj : Job σ}
    (hj : Storable env sj.hdr sj.ident) {N fuel : Nat} (hf : FreeFrom w N) (hN : (Cache.readCache w.cacheFile w.cache).firstNon ≤ N) (hN2 : N + 1 < 2 ^ 32) (hfuel : N < fuel)
    (hseg : sj.segs.length + 1 < 2 ^ 63) (hsz : sj.size + env.max < 2 ^ 63) :
    ∃ w' c sp, newseg env fuel D w sj = .ok (w', c) ∧ CurOk env D need c ∧ outbuf env c.seg.silo = .ok sp ∧ 128 ≤ sp ∧ c.seg.silo.no ≤ N := by
  obtain ⟨h0, e0⟩ := seg0Hdr_total he hj.job.sorted (sj.segs.length + 1)
  obtain ⟨w', sl, e1, l1, l2, l3⟩ := wsiloNextW_total he hm hf hN hN2 hfuel
  have hlen := seg0_len he hj.neat hseg e0
  have hsh := hj.short
  unfold Short at hsh
  have hps := he.ps
  have hpad := pad_bound he (sj.segs.length + 1) hsz
  have hp0 := pack0_len he (serialize_ne env.pfx h0) (by omega)
  have hroom := hm sl.no (by omega)
  obtain ⟨sl', e2⟩ := wsiloHeader_total (env := env) (sl := sl) (hd := h0) l2 (seg0Pad_pos env (sj.segs.length + 1) sj.size) (by omega) (by omega) (by omega)
  obtain ⟨e3, -, -⟩ := wsiloHeader_inv e2 (seg0Pad_pos env _ _)
  have hl : sl'.hold.length + 176 ≤ env.max := by
    rw [e3]
    simp only [List.length_append, List.length_replicate]
    omega
  have hg : 176 ≤ getSpace env.max sl' := by
    unfold getSpace
    split <;> omega
  have hob : outbuf env sl' = .ok (getSpace env.max sl' - 24).toNat := outbuf_total (by omega)
  refine ⟨w', { seg := ⟨sj.segs.length + 1, h0, sl', 0, []⟩, gz := D.init, availIn := [], flag := .none }, _, ?_, ⟨.start, rfl, .inl rfl, (getSpace env.max sl' - 24).toNat, ?_, fits_start hL.init ?_⟩, hob, by omega, ?_⟩
  · unfold newseg
    simp only
    rw [e0, Res.ok_bind, e1, Res.ok_bind, e2]
    rfl
  · exact (show (((getSpace env.max sl' - 24).toNat : Nat) : Int) + 24 = getSpace env.max sl' by omega)
  · omega
  · simp only [e3]
    exact l3

/-! ### Feeding -/

/-- A round of the loop that gives the compressor the input `d`. -/
theorem feed_round {σ : Type} {env : Env} {D : Deflater σ} {need : σ → Nat} (hL : Live D need) {fuel : Nat} {w w1 : World} {sj : Job σ} {c : Cur σ}
    (hcs : curSeg env (fuel + 1) D w sj = .ok (w1, c)) (hc : CurOk env D need c) {sp : Nat} (hsp : outbuf env c.seg.silo = .ok sp) (h52 : 52 ≤ sp) {d : Bytes} (hd : d ≠ [])
    (hdl : d.length ≤ sp / 2) : ∃ c1, CurOk env D need c1 ∧ ∀ rest : Bytes, (rest = [] ∨ d.length = sp / 2) →
      feedLoop env D (fuel + 1) w sj (d ++ rest) =
        if rest ≠ [] then feedLoop env D fuel w1 { sj with size := sj.size + d.length, payload := sj.payload ++ d, cur := some c1 } rest
        else .ok (w1, { sj with size := sj.size + d.length, payload := sj.payload ++ d, cur := some c1 }) := by
  obtain ⟨ra, rb, rf, sp', rc, rd⟩ := hc
  have hspi := outbuf_inv hsp
  have hsp' : sp' = sp := by omega
  subst hsp'
  have hle := getSpace_le env.max c.seg.silo
  have h20 : (2 : Nat) ^ 20 = 1048576 := by decide
  have h19 : (2 : Nat) ^ 19 = 524288 := by decide
  have hpos : 1 ≤ d.length := List.length_pos_iff.2 hd
  obtain ⟨fl, hfl⟩ : ∃ fl, fl = (if sp' < 128 * 1024 then Flush.partialFlush else c.flag) := ⟨_, rfl⟩
  have hflc : fl = .none ∨ fl = .partialFlush := by
    rw [hfl]
    split
    · exact .inr rfl
    · exact rf
  have hroom := fits_room rd h52 hdl
  obtain ⟨z, hz⟩ : ∃ z, D.deflate c.gz d fl sp' = z := ⟨_, rfl⟩
  obtain ⟨a1, a2, a3, a4⟩ := hL.feed c.gz d fl sp' ra hd (by omega) hflc hroom
  have hro := Roomy.step (need := need) d fl sp' ra hd (by omega) hflc hroom
  rw [hz] at a1 a2 a3 a4 hro
  have g1 : getSpace env.max c.seg.silo - z.out.length ≤ getSpace env.max { c.seg.silo with hold := c.seg.silo.hold ++ z.out } := getSpace_append _ _ _
  refine ⟨{ c with gz := z.state, availIn := [], flag := fl, seg := { c.seg with size := c.seg.size + d.length, content := c.seg.content ++ d, silo := { c.seg.silo with hold := c.seg.silo.hold ++ z.out } } },
    ⟨hro, rfl, hflc, (getSpace env.max { c.seg.silo with hold := c.seg.silo.hold ++ z.out } - 24).toNat, ?_, ?_⟩, ?_⟩
  · exact (show (((getSpace env.max { c.seg.silo with hold := c.seg.silo.hold ++ z.out } - 24).toNat : Nat) : Int) + 24 =
      getSpace env.max { c.seg.silo with hold := c.seg.silo.hold ++ z.out } by omega)
  · refine fits_step rd h52 hdl a3 (by omega) ?_
    rcases hflc with h | h
    · rw [if_pos h] at a4
      refine .inr ⟨?_, a4⟩
      rw [hfl] at h
      split at h
      · cases h
      · omega
    · rw [if_neg (by rw [h]; decide)] at a4
      exact .inl a4
  · intro rest hrest
    have hmin : min (sp' / 2) (d ++ rest).length = d.length := by
      rw [List.length_append]
      rcases hrest with rfl | h
      · simp only [List.length_nil]; omega
      · omega
    have hmore : moreInput sj c (d ++ rest) sp' = .ok ({ sj with size := sj.size + d.length, payload := sj.payload ++ d },
        { c with availIn := d, seg := { c.seg with size := c.seg.size + d.length, content := c.seg.content ++ d } }, rest) := by
      unfold moreInput
      rw [if_pos rb]
      simp only [hmin]
      rw [decide_eq_true (by omega), Res.check_true, Res.ok_bind, List.take_left, List.drop_left]
      rfl
    rw [Segjob.feedLoop, hcs, Res.ok_bind]
    simp only
    rw [hsp, Res.ok_bind, if_neg (by rintro (h | h)
                                     · omega
                                     · exact hd (List.append_eq_nil_iff.1 h).1), hmore, Res.ok_bind]
    simp only
    rw [← hfl, runDeflate_total (z := z) hz (.inl a1) (by omega), Res.ok_bind]
    simp only [a2, List.drop_length, ne_eq, not_true_eq_false, false_or]
    rfl

/-- A round of the loop that ends the segment. -/
theorem end_round {σ : Type} {env : Env} {D : Deflater σ} {fuel : Nat} {w : World} {sj : Job σ} {c : Cur σ} (hcur : sj.cur = some c) {sp : Nat}
    (hsp : outbuf env c.seg.silo = .ok sp) {s : Seg} (hs : endSeg env D sj.ident c sp = .ok s) {ip : Bytes} (h : sp < 52 ∨ ip = []) :
    feedLoop env D (fuel + 1) w sj ip = if ip = [] then .ok (w, { sj with segs := sj.segs ++ [s], cur := none })
      else feedLoop env D fuel w { sj with segs := sj.segs ++ [s], cur := none } ip := by
  rw [Segjob.feedLoop]
  unfold curSeg
  simp only [hcur, Res.ok_bind]
  rw [hsp, Res.ok_bind, if_pos h, hs, Res.ok_bind]
  rfl

/-- `SegJob_Feed` comes to its end. -/
theorem feedLoop_total {σ : Type} {env : Env} (he : EnvOk env) (hm : RoomEnv env) {D : Deflater σ} {need : σ → Nat} (hz : Zlib D) (hL : Live D need) (fuel : Nat) :
    ∀ {w : World} {sj : Job σ} {ip : Bytes} {N : Nat}, JobInv env D w sj → Storable env sj.hdr sj.ident → (∀ c, sj.cur = some c → CurOk env D need c) → FreeFrom w N →
    (Cache.readCache w.cacheFile w.cache).firstNon ≤ N → (ip = [] → sj.cur ≠ none) → 3 * ip.length + (curNo sj.cur).length + N + 3 ≤ fuel → N + ip.length + 1 < 2 ^ 32 →
    sj.segs.length + (curNo sj.cur).length + ip.length < 2 ^ 62 → sj.size + ip.length + env.max < 2 ^ 63 →
    ∃ w' sj' N', feedLoop env D fuel w sj ip = .ok (w', sj') ∧ (∀ c, sj'.cur = some c → CurOk env D need c) ∧ FreeFrom w' N' ∧
      (Cache.readCache w'.cacheFile w'.cache).firstNon ≤ N' ∧ N' ≤ N + ip.length ∧ sj'.segs.length + (curNo sj'.cur).length ≤ sj.segs.length + (curNo sj.cur).length + ip.length := by
  induction fuel with
  | zero => intro w sj ip N _ _ _ _ _ _ h; omega
  | succ fuel ih =>
    intro w sj ip N hi hj hc hf hN hip hfuel hN2 hsg hsz
    -- giving the compressor more input
    have take : ∀ (w1 : World) (c : Cur σ) (sp N1 : Nat), curSeg env (fuel + 1) D w sj = .ok (w1, c) → CurOk env D need c → outbuf env c.seg.silo = .ok sp → 52 ≤ sp →
        ip ≠ [] → FreeFrom w1 N1 → (Cache.readCache w1.cacheFile w1.cache).firstNon ≤ N1 → N1 + (curNo sj.cur).length ≤ N + 1 →
        ∃ w' sj' N', feedLoop env D (fuel + 1) w sj ip = .ok (w', sj') ∧ (∀ c, sj'.cur = some c → CurOk env D need c) ∧ FreeFrom w' N' ∧
          (Cache.readCache w'.cacheFile w'.cache).firstNon ≤ N' ∧ N' ≤ N + ip.length ∧ sj'.segs.length + (curNo sj'.cur).length ≤ sj.segs.length + (curNo sj.cur).length + ip.length := by
      intro w1 c sp N1 hcs hc1 hsp h52 hip0 hf1 hN1 hNN
      have hl : 1 ≤ ip.length := List.length_pos_iff.2 hip0
      have hdl : (ip.take (sp / 2)).length = min (sp / 2) ip.length := by rw [List.length_take]
      obtain ⟨c1, k1, k2⟩ := feed_round hL hcs hc1 hsp h52 (d := ip.take (sp / 2)) (List.ne_nil_of_length_pos (by omega)) (by omega)
      have hd := k2 [] (.inl rfl)
      rw [if_neg (by simp), List.append_nil] at hd
      obtain ⟨hi1, -⟩ := feedLoop_inv hz he.max (fuel + 1) hi (fun h => by rw [h] at hdl; simp only [List.length_nil] at hdl; omega) hd
      have hall := k2 (ip.drop (sp / 2)) (by
        by_cases h : ip.length ≤ sp / 2
        · exact .inl (List.drop_of_length_le h)
        · right; omega)
      rw [List.take_append_drop] at hall
      have hcur1 : (curNo (some c1)).length = 1 := rfl
      by_cases hr : ip.drop (sp / 2) = []
      · rw [if_neg (fun h => h hr)] at hall
        refine ⟨_, _, N1, hall, ?_, hf1, hN1, by omega, ?_⟩
        · intro c' h
          simp only [Option.some.injEq] at h
          rw [← h]; exact k1
        · simp only [hcur1]; omega
      · rw [if_pos hr] at hall
        have hdr : (ip.drop (sp / 2)).length = ip.length - sp / 2 := List.length_drop
        have hr0 : 1 ≤ (ip.drop (sp / 2)).length := List.length_pos_iff.2 hr
        have hcn : (curNo sj.cur).length ≤ 1 := by cases sj.cur <;> simp [curNo]
        obtain ⟨w', sj', N', f1, f2, f3, f4, f5, f6⟩ := ih (w := w1)
          (sj := { sj with size := sj.size + (ip.take (sp / 2)).length, payload := sj.payload ++ ip.take (sp / 2), cur := some c1 }) (ip := ip.drop (sp / 2)) (N := N1)
          hi1 hj (by intro c' h; simp only [Option.some.injEq] at h; rw [← h]; exact k1) hf1 hN1 (fun h => absurd h hr)
          (by simp only [hcur1]; omega) (by omega) (by simp only [hcur1]; omega) (by simp only; omega)
        refine ⟨w', sj', N', by rw [hall, f1], f2, f3, f4, by omega, ?_⟩
        simp only [hcur1] at f6
        omega
    cases hcur : sj.cur with
    | some c =>
      have hc1 := hc c hcur
      obtain ⟨i1, i2, -⟩ := hi.cur c hcur
      obtain ⟨sp, r1, -⟩ := hc1.room
      have hsp := outbuf_total (env := env) r1
      have hcn : (curNo sj.cur).length = 1 := by rw [hcur]; rfl
      by_cases he1 : sp < 52 ∨ ip = []
      · obtain ⟨s, hs⟩ := endSeg_total he hz hL hj.job.sorted hj.canId i2 hc1 hsp
        have hend := end_round (fuel := fuel) (w := w) hcur hsp hs (ip := []) (.inr rfl)
        rw [if_pos rfl] at hend
        obtain ⟨hi1, -⟩ := feedLoop_inv hz he.max (fuel + 1) hi (fun _ => by rw [hcur]; simp) hend
        have hall := end_round (fuel := fuel) (w := w) hcur hsp hs he1
        rw [← hcur, hall]
        have hcn0 : (curNo (none : Option (Cur σ))).length = 0 := rfl
        by_cases hip0 : ip = []
        · rw [if_pos hip0]
          refine ⟨_, _, N, rfl, fun c h => (by cases h), hf, hN, by omega, ?_⟩
          simp only [List.length_append, List.length_singleton, hcn0]
          omega
        · rw [if_neg hip0]
          obtain ⟨w', sj', N', f1, f2, f3, f4, f5, f6⟩ := ih (w := w) (sj := { sj with segs := sj.segs ++ [s], cur := none }) (ip := ip) (N := N)
            hi1 hj (fun c h => by cases h) hf hN (fun h => absurd h hip0) (by simp only [hcn0]; omega) hN2
            (by simp only [List.length_append, List.length_singleton, hcn0]; omega) hsz
          refine ⟨w', sj', N', f1, f2, f3, f4, f5, ?_⟩
          simp only [List.length_append, List.length_singleton, hcn0] at f6
          omega
      · rw [← hcur]
        exact take w c sp N (by unfold curSeg; rw [hcur]) hc1 hsp (by omega) (fun h => he1 (.inr h)) hf hN (by omega)
    | none =>
      have hip0 : ip ≠ [] := fun h => hip h hcur
      have hcn : (curNo sj.cur).length = 0 := by rw [hcur]; rfl
      obtain ⟨w1, c, sp, n1, n2, n3, n4, n5⟩ := newseg_total he hm hL hj (N := N) (fuel := fuel + 1) hf hN (by omega) (by omega) (by omega) (by omega)
      obtain ⟨-, -, -, -, -, -, -, q, -⟩ := newseg_inv n1
      rw [← hcur]
      refine take w1 c sp (N + 1) (by unfold curSeg; rw [hcur]; exact n1) n2 n3 (by omega) hip0 ?_ ?_ (by omega)
      · intro m hm'
        rw [q]
        obtain ⟨a, b⟩ := hf m (by omega)
        refine ⟨a, ?_⟩
        simp only [upd]
        rw [if_neg (by omega)]
        exact b
      · rw [q]
        simp only
        rw [readCache_idem]
        omega

end Verif.Props
