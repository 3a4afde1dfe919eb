/-
Proofs about store jobs: what is in the hold files.
-/
import Verif.Spec.Zlib
import Verif.Proofs.SegHdr
import Verif.Proofs.Stored

namespace Verif.Segjob
open Verif Header Index Gzip Wsilo Ident Spec Inflate

/-! ### The 'Aa' field -/

/-- The member with its length in the 'Aa' field. -/
def withAa (g : Bytes) : Bytes := g.take 16 ++ leEnc 8 g.length ++ g.drop 24

theorem aaHead_zero (xfl : UInt8) (n : Nat) : (aaHead [0, 0, 0, 0] xfl 3 0).take 16 ++ leEnc 8 n = aaHead [0, 0, 0, 0] xfl 3 n := by
  unfold aaHead
  rfl

theorem raw_length {g data : Bytes} (h : RawSegment g data) : 24 ≤ g.length := by
  obtain ⟨xfl, body, stop, n, ts, -, rfl, -⟩ := h
  have h24 : (aaHead [0, 0, 0, 0] xfl 3 0).length = 24 := aaHead_length rfl _ _ _
  simp only [List.length_append, h24]
  omega

theorem withAa_length {g data : Bytes} (h : RawSegment g data) : (withAa g).length = g.length := by
  have := raw_length h
  unfold withAa
  simp only [List.length_append, List.length_take, List.length_drop, leEnc_length]
  omega

theorem withAa_eq {g data : Bytes} (h : RawSegment g data) :
    ∃ (xfl : UInt8) (body stop : Bytes) (n : Nat) (ts : List Tok), (xfl = 2 ∨ xfl = 4) ∧
    withAa g = aaHead [0, 0, 0, 0] xfl 3 (withAa g).length ++ body ++ stop ++ trailer data ∧
    (stop = [0x01, 0x00, 0x00, 0xff, 0xff] ∨ stop = [0x03, 0x00] ∧ 3 ≤ body.length) ∧
    openBlocks n (toBits body) = some (ts, []) ∧ expand ts = some data := by
  have hl := withAa_length h
  obtain ⟨xfl, body, stop, n, ts, h1, h2, h3⟩ := h
  refine ⟨xfl, body, stop, n, ts, h1, ?_, h3⟩
  rw [hl, ← aaHead_zero]
  unfold withAa
  have h24 : (aaHead [0, 0, 0, 0] xfl 3 0).length = 24 := aaHead_length rfl _ _ _
  have e1 : g.take 16 = (aaHead [0, 0, 0, 0] xfl 3 0).take 16 := by
    rw [h2, List.append_assoc, List.append_assoc, List.take_append_of_le_length (by omega)]
  have e2 : g.drop 24 = body ++ stop ++ trailer data := by
    rw [h2, List.append_assoc, List.append_assoc, List.drop_left' h24, ← List.append_assoc]
  rw [e1, e2]
  simp only [List.append_assoc]

theorem withAa_segment {g data : Bytes} (h : RawSegment g data) (hl : g.length < 2 ^ 63) : Segment (withAa g) data := by
  have h1 := withAa_length h
  obtain ⟨xfl, body, stop, n, ts, -, h2, h3, h4, h5⟩ := withAa_eq h
  exact ⟨[0, 0, 0, 0], xfl, 3, body, stop, n, ts, rfl, h2, by rw [h1]; exact hl, h3, h4, h5⟩

theorem withAa_member {g data : Bytes} (h : RawSegment g data) (hl : g.length < 2 ^ 63) : Member (withAa g) data := by
  have h1 := withAa_length h
  obtain ⟨xfl, body, stop, n, ts, hx, h2, h3, h4, h5⟩ := withAa_eq h
  rcases h3 with rfl | ⟨rfl, -⟩
  · exact ⟨xfl, body ++ [0x01, 0x00, 0x00, 0xff, 0xff], ts, [], hx, by rw [← List.append_assoc]; exact h2, by rw [h1]; exact hl, deflate_stored h4, by simp, h5⟩
  · exact ⟨xfl, body ++ [0x03, 0x00], ts, _, hx, by rw [← List.append_assoc]; exact h2, by rw [h1]; exact hl, deflate_fixed h4, by simp, h5⟩

/-! ### Invariants -/

/-- The warcinfo record at the start of each silo (warcinfo.c). -/
def InfoRec (env : Env) (no : Nat) (h : Hdr) (info : Bytes) : Prop :=
  infoHdr env no = .ok h ∧ info = env.pack0 (headerSerialize env.pfx h) ++ env.pack0 (infoBody env no) ++ crnlcrnl

/-- What is known of a segment: `h0` is the header it was begun with, `before` the number of the object's bytes
in earlier segments, `out` what the compressor has made. -/
structure SegBase (env : Env) (jh : Hdr) (before : Nat) (s : Seg) (h0 : Hdr) (out : Bytes) : Prop where
  hdr0 : seg0Hdr env jh s.segno = .ok h0
  size : s.size = s.content.length
  hold : ∃ ih info res, InfoRec env s.silo.no ih info ∧ s.silo.infoId = ih.id ∧ info.length = s.silo.hdStart ∧ res.length = s.silo.hdLen ∧
    s.silo.hold = info ++ res ++ out
  hdLen : s.silo.hdLen = (env.pack0 (headerSerialize env.pfx h0)).length + (seg0Pad env s.segno before + 6)
  idx : s.silo.idx = typeFlag h0
  no : s.silo.no + 1 < 2 ^ 32

/-- The current segment. -/
structure SegCur {σ : Type} (env : Env) (D : Deflater σ) (jh : Hdr) (before : Nat) (c : Cur σ) : Prop where
  state : ∃ h0 inp out, SegBase env jh before c.seg h0 out ∧ c.seg.hdr = h0 ∧ Reach D c.gz inp out ∧ c.seg.content = inp ++ c.availIn

/-- A finished segment. -/
structure SegDone (env : Env) (jh : Hdr) (ident : Option Bytes) (before : Nat) (s : Seg) : Prop where
  state : ∃ h0 gz, SegBase env jh before s h0 (gz ++ crnlcrnl) ∧ Segment gz s.content ∧ Member gz s.content ∧
    finishHdr env h0 (env.sha s.content) s.size (if s.segno = 1 then ident else none) = .ok s.hdr
  hd : s.silo.hd = s.hdr
  max : s.silo.hold.length < env.max
  nonempty : s.content ≠ [] ∨ env.max < s.silo.hdStart + s.silo.hdLen + 76

/-- Finished segments numbered from `n` on. -/
def SegsDone (env : Env) (jh : Hdr) (ident : Option Bytes) : Nat → Nat → List Seg → Prop
  | _, _, [] => True
  | n, before, s :: ss => s.segno = n ∧ SegDone env jh ident before s ∧ SegsDone env jh ident (n + 1) (before + s.size) ss

theorem segsDone_snoc {env : Env} {jh : Hdr} {ident : Option Bytes} {s : Seg} (ss : List Seg) : ∀ {n before : Nat},
    SegsDone env jh ident n before ss → s.segno = n + ss.length → SegDone env jh ident (before + (ss.map (·.size)).sum) s →
    SegsDone env jh ident n before (ss ++ [s]) := by
  induction ss with
  | nil => intro n before _ h1 h2; exact ⟨by simpa using h1, by simpa using h2, trivial⟩
  | cons t ss ih =>
    intro n before h h1 h2
    obtain ⟨a, b, c⟩ := h
    refine ⟨a, b, ih c (by rw [h1, List.length_cons]; omega) ?_⟩
    rw [List.map_cons, List.sum_cons, ← Nat.add_assoc] at h2
    exact h2

/-- The silo number is the job's: no silo with it exists, and its hold file is there. -/
def Owned (w : World) (no : Nat) : Prop := w.silos no = none ∧ w.holds no = true

def curNo {σ : Type} (c : Option (Cur σ)) : List Nat := (c.map (·.seg.silo.no)).toList
def curContent {σ : Type} (c : Option (Cur σ)) : Bytes := (c.map (·.seg.content)).getD []

/-- The silo number is in use. -/
def Taken (w : World) (no : Nat) : Prop := w.silos no ≠ none ∨ w.holds no = true

/-- Silo numbers in ascending order; from the number where the search begins up to the last of them, all are in use. -/
def Rising (w : World) (l : List Nat) : Prop :=
  l.Pairwise (· < ·) ∧ ∀ n ∈ l, ∀ k, (Cache.readCache w.cacheFile w.cache).firstNon ≤ k → k ≤ n → Taken w k

/-- The invariant of a store job. -/
structure JobInv {σ : Type} (env : Env) (D : Deflater σ) (w : World) (sj : Job σ) : Prop where
  segs : SegsDone env sj.hdr sj.ident 1 0 sj.segs
  cur : ∀ c, sj.cur = some c → c.seg.segno = sj.segs.length + 1 ∧ SegCur env D sj.hdr (sj.segs.map (·.size)).sum c ∧ c.seg.content ≠ [] ∧ c.flag ≠ .finish
  size : sj.size = sj.payload.length
  payload : sj.payload = sj.segs.flatMap (·.content) ++ curContent sj.cur
  nodup : (sj.segs.map (·.silo.no) ++ curNo sj.cur).Nodup
  owned : ∀ n ∈ sj.segs.map (·.silo.no) ++ curNo sj.cur, Owned w n
  rising : Rising w (sj.segs.map (·.silo.no) ++ curNo sj.cur)

/-! ### Steps -/

theorem runDeflate_inv {σ : Type} {D : Deflater σ} {c : Cur σ} {fl : Flush} {space : Nat} {r : Cur σ × ZStep σ}
    (h : runDeflate D c fl space = .ok r) :
    r.2 = D.deflate c.gz c.availIn fl space ∧ (r.2.ret = .ok ∨ fl = .finish ∧ r.2.ret = .streamEnd) ∧
    r.1 = { c with gz := r.2.state, availIn := c.availIn.drop r.2.used, flag := fl,
                   seg := { c.seg with silo := { c.seg.silo with hold := c.seg.silo.hold ++ r.2.out } } } := by
  unfold runDeflate at h
  simp only [Res.bind_eq_ok, Res.check_eq_ok, exists_const] at h
  obtain ⟨h1, h2⟩ := h
  rw [Bool.or_eq_true, Bool.and_eq_true] at h1
  simp only [decide_eq_true_eq] at h1
  by_cases h0 : (D.deflate c.gz c.availIn fl space).out = []
  · rw [if_pos h0] at h2
    simp only [Res.pure_eq, Res.ok.injEq] at h2
    subst h2
    refine ⟨rfl, h1, ?_⟩
    simp only [h0, List.append_nil]
  · rw [if_neg h0] at h2
    simp only [Res.bind_eq_ok, Res.pure_eq, Res.ok.injEq] at h2
    obtain ⟨sl, h3, h4⟩ := h2
    obtain ⟨rfl, -, -⟩ := storeStep h3
    subst h4
    exact ⟨rfl, h1, rfl⟩

theorem outbuf_inv {env : Env} {sl : Sl} {space : Nat} (h : outbuf env sl = .ok space) :
    (space : Int) = getSpace env.max sl - 24 := by
  unfold outbuf at h
  simp only [Res.bind_eq_ok, Res.check_eq_ok, Res.access_eq_ok, exists_const, Res.pure_eq, Res.ok.injEq] at h
  obtain ⟨-, h1, rfl⟩ := h
  have := of_decide_eq_true h1
  omega

/-- A deflate step of the current segment that is not the last one. -/
theorem segCur_step {σ : Type} {env : Env} {D : Deflater σ} {jh : Hdr} {before : Nat} (hz : Zlib D) {c : Cur σ} (hc : SegCur env D jh before c)
    {fl : Flush} {space : Nat} {r : Cur σ × ZStep σ} (hr : runDeflate D c fl space = .ok r) (hok : r.2.ret = .ok) :
    SegCur env D jh before r.1 := by
  obtain ⟨h0, inp, out, hb, e1, e2, e3⟩ := hc.state
  obtain ⟨r1, -, r2⟩ := runDeflate_inv hr
  rw [r1] at hok
  rw [r2]
  refine ⟨h0, inp ++ c.availIn.take r.2.used, out ++ r.2.out, ?_, e1, ?_, ?_⟩
  · obtain ⟨a1, a2, ⟨ih, info, res, b1, b2, b3, b4, b5⟩, a4, a5, a6⟩ := hb
    exact ⟨a1, a2, ⟨ih, info, res, b1, b2, b3, b4, by simp only [b5, List.append_assoc]⟩, a4, a5, a6⟩
  · rw [r1]
    exact .step c.availIn fl space e2 hok
  · simp only [e3, List.append_assoc, List.take_append_drop]

/-- Ending a segment. -/
theorem endSeg_done {σ : Type} {env : Env} {D : Deflater σ} {jh : Hdr} {ident : Option Bytes} {before : Nat} (hz : Zlib D) (hmax : env.max < 2 ^ 63)
    {c : Cur σ} (hc : SegCur env D jh before c) {space : Nat} (hsp : outbuf env c.seg.silo = .ok space) {s : Seg}
    (h : endSeg env D ident c space = .ok s) (hne : c.seg.content ≠ [] ∨ env.max < c.seg.silo.hdStart + c.seg.silo.hdLen + 76) :
    SegDone env jh ident before s ∧ s.segno = c.seg.segno ∧ s.content = c.seg.content ∧ s.size = c.seg.size ∧ s.silo.no = c.seg.silo.no := by
  unfold endSeg at h
  simp only [Res.bind_eq_ok, Res.check_eq_ok, exists_const] at h
  obtain ⟨h1, r, h2, sp2, h3, q, h4, h5, sl, h6, h7⟩ := h
  have h1 := of_decide_eq_true h1
  have h5 := of_decide_eq_true h5
  obtain ⟨h0, inp, out, hb, e1, e2, e3⟩ := hc.state
  rw [h1, List.append_nil] at e3
  have hsp := outbuf_inv hsp
  have h3 := outbuf_inv h3
  obtain ⟨r1, r2, r3⟩ := runDeflate_inv h2
  obtain ⟨q1, q2, q3⟩ := runDeflate_inv h4
  have r2 : r.2.ret = .ok := r2.resolve_right (by rintro ⟨h, -⟩; cases h)
  rw [h1] at r1
  have g1 : r.1.seg.silo.hold = c.seg.silo.hold ++ r.2.out := by rw [r3]
  have g2 : q.1.seg.silo.hold = r.1.seg.silo.hold ++ q.2.out := by rw [q3]
  have ra : r.1.availIn = [] := by rw [r3]; simp [h1]
  have rg : r.1.gz = r.2.state := by rw [r3]
  rw [ra, rg] at q1
  have hreach2 : Reach D r.2.state inp (out ++ r.2.out) := by
    have := Reach.step [] .sync space e2 (by rw [← r1]; exact r2)
    rw [← r1] at this
    simpa using this
  have b1 : r.2.out.length + 25 ≤ 2 ^ 20 := by rw [r1]; exact hz.pending _ _ _ _ _ e2
  have b2 : q.2.out.length + 25 ≤ 2 ^ 20 := by rw [q1]; exact hz.pending _ _ _ _ _ hreach2
  have c1 : r.2.out.length ≤ space := by rw [r1]; exact hz.room _ _ _ _
  have c2 : q.2.out.length ≤ sp2 := by rw [q1]; exact hz.room _ _ _ _
  unfold getSpace at hsp h3 h5
  rw [g1, List.length_append] at h3
  rw [g2, g1, List.length_append, List.length_append] at h5
  have p20 : (2 : Int) ^ 20 = 1048576 := by decide
  have p20' : (2 : Nat) ^ 20 = 1048576 := by decide
  rw [p20] at hsp h3 h5
  rw [p20'] at b1 b2
  -- the last call came to its end
  have hq : q.2.ret = .streamEnd := by
    rcases q2 with q2 | ⟨-, q2⟩
    · exfalso
      have : q.2.out.length = sp2 := by rw [q1] at q2 ⊢; exact hz.full _ _ _ q2
      split at h5 <;> split at h3 <;> omega
    · exact q2
  -- the flush left room
  have hr : r.2.out.length < space := by
    apply Nat.lt_of_le_of_ne c1
    intro he
    have hsp0 : sp2 = 0 := by split at hsp <;> split at h3 <;> omega
    have := hz.noRoom r.2.state [] .finish
    rw [q1, hsp0, this] at hq
    cases hq
  have hraw : RawSegment (out ++ r.2.out ++ q.2.out) inp := by
    have := hz.done _ _ _ space sp2 e2 (by rw [← r1]; exact r2) (by rw [← r1]; exact hr) (by rw [← r1, ← q1]; exact hq)
    rw [← r1, ← q1] at this
    exact this
  obtain ⟨h', sl', f1, f2, rfl⟩ := finishseg_hdr h7
  obtain ⟨rfl, -, -⟩ := storeStep h6
  obtain ⟨f, rfl, f3, f4, f5⟩ := wsiloFinish_inv f2
  obtain ⟨a1, a2, ⟨ih, info, res, i1, i2, i3, i4, i5⟩, a4, a5, a6⟩ := hb
  have s1 : q.1.seg.silo.hdStart = c.seg.silo.hdStart := by rw [q3, r3]
  have s2 : q.1.seg.silo.hdLen = c.seg.silo.hdLen := by rw [q3, r3]
  have s3 : q.1.seg.silo.no = c.seg.silo.no := by rw [q3, r3]
  have s4 : q.1.seg.silo.infoId = c.seg.silo.infoId := by rw [q3, r3]
  have s5 : q.1.seg.silo.idx = c.seg.silo.idx := by rw [q3, r3]
  have s6 : q.1.seg.content = c.seg.content := by rw [q3, r3]
  have s7 : q.1.seg.segno = c.seg.segno := by rw [q3, r3]
  have s8 : q.1.seg.size = c.seg.size := by rw [q3, r3]
  have s9 : q.1.seg.hdr = c.seg.hdr := by rw [q3, r3]
  simp only at f1 f3 f4 f5
  rw [s1, s2] at f4 f5
  have hh : q.1.seg.silo.hold = info ++ res ++ (out ++ r.2.out ++ q.2.out) := by
    rw [g2, g1, i5]; simp only [List.append_assoc]
  have hlen : (info ++ res).length = c.seg.silo.hdStart + c.seg.silo.hdLen := by rw [List.length_append, i3, i4]
  have h24 := raw_length hraw
  have hfl : f.length < env.max := by
    rw [f3, List.length_append, g2, g1, List.length_append, List.length_append]
    have : crnlcrnl.length = 24 := rfl
    split at h5 <;> omega
  obtain ⟨g, hg⟩ : ∃ g, g = out ++ r.2.out ++ q.2.out := ⟨_, rfl⟩
  rw [← hg] at hraw hh h24
  have hf : f = info ++ res ++ (withAa g ++ crnlcrnl) := by
    rw [f5, hh]
    have hb : ((info ++ res ++ g ++ crnlcrnl).length : Int) - ((c.seg.silo.hdStart : Int) + c.seg.silo.hdLen + 24) = g.length := by
      rw [List.length_append, List.length_append (as := info ++ res), hlen]
      have : crnlcrnl.length = 24 := rfl
      omega
    rw [hb, ofInt64_nat (by
      have : f.length = info.length + res.length + g.length + 24 := by
        rw [f3, hh]; simp only [List.length_append]; rfl
      omega)]
    have t1 : (info ++ res ++ g ++ crnlcrnl).take (c.seg.silo.hdStart + c.seg.silo.hdLen + 16) = info ++ res ++ g.take 16 := by
      rw [List.append_assoc (info ++ res), ← hlen, List.take_length_add_append, List.take_append_of_le_length (by omega)]
    have t2 : (info ++ res ++ g ++ crnlcrnl).drop (c.seg.silo.hdStart + c.seg.silo.hdLen + 24) = g.drop 24 ++ crnlcrnl := by
      rw [List.append_assoc (info ++ res), ← hlen, List.drop_length_add_append, List.drop_append_of_le_length h24]
    rw [t1, t2]
    unfold withAa
    simp only [List.append_assoc]
  have hgl : g.length < 2 ^ 63 := by
    have : f.length = info.length + res.length + g.length + 24 := by
      rw [f3, hh]; simp only [List.length_append]; rfl
    omega
  refine ⟨⟨⟨h0, withAa g, ⟨?_, ?_, ⟨ih, info, res, ?_, ?_, ?_, ?_, ?_⟩, ?_, ?_, ?_⟩, ?_, ?_, ?_⟩, rfl, ?_, ?_⟩, ?_, ?_, ?_, ?_⟩
  · simpa only [s7] using a1
  · simpa only [s8, s6] using a2
  · simpa only [s3] using i1
  · simpa only [s4] using i2
  · simpa only [s1] using i3
  · simpa only [s2] using i4
  · exact hf
  · simpa only [s2, s7] using a4
  · simpa only [s5] using a5
  · simpa only [s3] using a6
  · simp only [s6, e3]; exact withAa_segment hraw hgl
  · simp only [s6, e3]; exact withAa_member hraw hgl
  · simp only [s6, s7, s8]
    simp only [s6, s7, s8, s9, e1] at f1
    exact f1
  · exact hfl
  · simpa only [s6, s1, s2] using hne
  · exact s7
  · exact s6
  · exact s8
  · exact s3

theorem wsiloNext_free (silo hold : Nat → Bool) (fuel : Nat) : ∀ (n m : Nat), Cache.wsiloNext silo hold fuel n = some m →
    silo m = false ∧ hold m = false := by
  induction fuel with
  | zero => intro n m h; cases h
  | succ fuel ih =>
    intro n m h
    simp only [Cache.wsiloNext] at h
    split at h
    · exact ih _ _ h
    · rename_i h1
      cases h
      simpa using h1

theorem wsiloNext_passed (silo hold : Nat → Bool) : ∀ (fuel n m : Nat), Cache.wsiloNext silo hold fuel n = some m →
    n ≤ m ∧ ∀ k, n ≤ k → k < m → silo k = true ∨ hold k = true := by
  intro fuel
  induction fuel with
  | zero => intro n m h; cases h
  | succ fuel ih =>
    intro n m h
    simp only [Cache.wsiloNext] at h
    split at h
    · rename_i h1
      obtain ⟨a, b⟩ := ih _ _ h
      refine ⟨by omega, fun k h2 h3 => ?_⟩
      by_cases hk : k = n
      · rw [hk]; exact h1
      · exact b k (by omega) h3
    · cases h
      exact ⟨Nat.le_refl _, fun k h1 h2 => by omega⟩

theorem readCache_idem (f : Option Bytes) (c : Cache.Cache) : Cache.readCache f (Cache.readCache f c) = Cache.readCache f c := by
  cases f with
  | none => rfl
  | some b =>
    by_cases h : (b.take 8).length = 8
    · simp only [Cache.readCache, if_pos h]
    · simp only [Cache.readCache, if_neg h]

/-- The number found is behind all that were found before. -/
theorem wsiloNextW_rising {env : Env} {fuel : Nat} {w w' : World} {sl : Sl} (h : wsiloNextW env fuel w = .ok (w', sl)) {l : List Nat} (hr : Rising w l)
    (hw : w' = { w with cache := Cache.readCache w.cacheFile w.cache, holds := Commit.upd w.holds sl.no true })
    (h1 : w.silos sl.no = none) (h2 : w.holds sl.no = false) : Rising w' (l ++ [sl.no]) := by
  unfold wsiloNextW at h
  simp only at h
  cases hn : Cache.wsiloNext (fun n => (w.silos n).isSome) w.holds fuel (Cache.readCache w.cacheFile w.cache).firstNon with
  | none => rw [hn] at h; cases h
  | some n =>
    rw [hn] at h
    simp only [Res.bind_eq_ok, Res.check_eq_ok, exists_const, Res.pure_eq, Res.ok.injEq, Prod.mk.injEq] at h
    obtain ⟨-, sl2, h3, -, rfl⟩ := h
    have hno : sl2.no = n := by
      unfold warcinfoNew at h3
      simp only [Res.bind_eq_ok, Res.pure_eq, Res.ok.injEq] at h3
      obtain ⟨ih, i1, s1, i2, s2, i3, s3, i4, i5⟩ := h3
      obtain ⟨rfl, -, -⟩ := storeFit_inv i2
      obtain ⟨rfl, -, -⟩ := storeFit_inv i3
      obtain ⟨rfl, -, -⟩ := storeFit_inv i4
      subst i5
      rfl
    obtain ⟨p1, p2⟩ := wsiloNext_passed _ _ _ _ _ hn
    have hkeep : ∀ k, Taken w k → Taken w' k := by
      intro k hk
      rw [hw]
      rcases hk with hk | hk
      · exact .inl hk
      · right
        unfold Commit.upd
        simp only
        split
        · rfl
        · exact hk
    have hf : (Cache.readCache w'.cacheFile w'.cache).firstNon = (Cache.readCache w.cacheFile w.cache).firstNon := by
      rw [hw]
      simp only
      rw [readCache_idem]
    refine ⟨?_, ?_⟩
    · rw [List.pairwise_append]
      refine ⟨hr.1, by simp, ?_⟩
      intro a ha b hb
      rw [List.mem_singleton] at hb
      subst hb
      by_cases hlt : a < sl2.no
      · exact hlt
      · exfalso
        rcases hr.2 a ha sl2.no (by rw [hno]; exact p1) (by omega) with h | h
        · exact h h1
        · rw [h2] at h; cases h
    · intro m hm k hk1 hk2
      rw [hf] at hk1
      rcases List.mem_append.1 hm with hm | hm
      · exact hkeep k (hr.2 m hm k hk1 hk2)
      · rw [List.mem_singleton] at hm
        subst hm
        by_cases hk : k = sl2.no
        · right
          rw [hw, hk]
          simp [Commit.upd]
        · apply hkeep
          rcases p2 k hk1 (by omega) with h | h
          · left
            intro h0
            rw [h0] at h
            cases h
          · exact .inr h

theorem wsiloNextW_inv {env : Env} {fuel : Nat} {w w' : World} {sl : Sl} (h : wsiloNextW env fuel w = .ok (w', sl)) :
    w' = { w with cache := Cache.readCache w.cacheFile w.cache, holds := Commit.upd w.holds sl.no true } ∧ w.silos sl.no = none ∧
    w.holds sl.no = false ∧ sl.no + 1 < 2 ^ 32 ∧
    ∃ ih info, InfoRec env sl.no ih info ∧ sl = { no := sl.no, idx := 0, hold := info, hd := ⟨[], []⟩, hdStart := 0, hdLen := 0, infoId := ih.id } := by
  unfold wsiloNextW at h
  simp only at h
  cases hn : Cache.wsiloNext (fun n => (w.silos n).isSome) w.holds fuel (Cache.readCache w.cacheFile w.cache).firstNon with
  | none => rw [hn] at h; cases h
  | some n =>
    rw [hn] at h
    simp only [Res.bind_eq_ok, Res.check_eq_ok, exists_const, Res.pure_eq, Res.ok.injEq, Prod.mk.injEq] at h
    obtain ⟨h1, sl2, h2, rfl, rfl⟩ := h
    obtain ⟨f1, f2⟩ := wsiloNext_free _ _ _ _ _ hn
    unfold warcinfoNew at h2
    simp only [Res.bind_eq_ok, Res.pure_eq, Res.ok.injEq] at h2
    obtain ⟨ih, i1, s1, i2, s2, i3, s3, i4, i5⟩ := h2
    obtain ⟨rfl, -, -⟩ := storeFit_inv i2
    obtain ⟨rfl, -, -⟩ := storeFit_inv i3
    obtain ⟨rfl, -, -⟩ := storeFit_inv i4
    subst i5
    refine ⟨rfl, by simpa using f1, f2, of_decide_eq_true h1, ih, _, ⟨i1, rfl⟩, ?_⟩
    simp

theorem seg0Pad_pos (env : Env) (n before : Nat) : 0 < seg0Pad env n before := by
  unfold seg0Pad headerLen
  split <;> omega

theorem newseg_inv {σ : Type} {env : Env} {fuel : Nat} {D : Deflater σ} {w w' : World} {sj : Job σ} {c : Cur σ}
    (h : newseg env fuel D w sj = .ok (w', c)) :
    c.seg.segno = sj.segs.length + 1 ∧ SegCur env D sj.hdr sj.size c ∧ c.seg.content = [] ∧ c.availIn = [] ∧ c.flag = .none ∧
    c.seg.silo.hold.length = c.seg.silo.hdStart + c.seg.silo.hdLen ∧ c.seg.silo.no + 1 < 2 ^ 32 ∧
    w' = { w with cache := Cache.readCache w.cacheFile w.cache, holds := Commit.upd w.holds c.seg.silo.no true } ∧
    w.silos c.seg.silo.no = none ∧ w.holds c.seg.silo.no = false ∧ ∀ l, Rising w l → Rising w' (l ++ [c.seg.silo.no]) := by
  unfold newseg at h
  simp only [Res.bind_eq_ok, Res.pure_eq, Res.ok.injEq, Prod.mk.injEq] at h
  obtain ⟨h0, e0, r, e1, sl, e2, rfl, rfl⟩ := h
  obtain ⟨rw', rsl⟩ := r
  obtain ⟨w1, w2, w3, w4, ih, info, w5, w6⟩ := wsiloNextW_inv e1
  obtain ⟨rfl, -, -⟩ := wsiloHeader_inv e2 (seg0Pad_pos env _ _)
  have hi : rsl.hold = info := by rw [w6]
  refine ⟨rfl, ⟨h0, [], [], ⟨e0, rfl, ⟨ih, info, env.pack0 (headerSerialize env.pfx h0) ++ List.replicate (seg0Pad env (sj.segs.length + 1) sj.size + 6) 95, w5, by rw [w6], ?_, ?_, ?_⟩, rfl, ?_, w4⟩, rfl, .start, rfl⟩, rfl, rfl, rfl, ?_, w4, w1, w2, w3, fun l hl => wsiloNextW_rising e1 hl w1 w2 w3⟩
  · simp only [hi]
  · rw [List.length_append, List.length_replicate]
  · simp only [hi, List.append_assoc, List.append_nil]
  · simp only; rw [w6]; simp
  · simp only [List.length_append, List.length_replicate]; omega

/-! ### Feeding -/

def nos {σ : Type} (sj : Job σ) : List Nat := sj.segs.map (·.silo.no) ++ curNo sj.cur

/-- Only hold files of the job have changed. -/
structure SameArchive (w w' : World) (mine : List Nat) : Prop where
  silos : w'.silos = w.silos
  dir : w'.dir = w.dir
  cacheFile : w'.cacheFile = w.cacheFile
  holds : ∀ n, n ∉ mine → w'.holds n = w.holds n
  cache : w'.cache = w.cache ∨ w'.cache = Cache.readCache w.cacheFile w.cache

theorem SameArchive.refl (w : World) (m : List Nat) : SameArchive w w m := ⟨rfl, rfl, rfl, fun _ _ => rfl, .inl rfl⟩

theorem SameArchive.trans {w w' w'' : World} {m m' : List Nat} (h1 : SameArchive w w' m) (h2 : SameArchive w' w'' m') (hm : ∀ n ∈ m, n ∈ m') : SameArchive w w'' m' := by
  refine ⟨by rw [h2.silos, h1.silos], by rw [h2.dir, h1.dir], by rw [h2.cacheFile, h1.cacheFile], ?_, ?_⟩
  · intro n hn
    rw [h2.holds n hn, h1.holds n (fun h => hn (hm n h))]
  · have a := h1.cache
    have b := h2.cache
    rw [h1.cacheFile] at b
    rcases b with b | b
    · rw [b]; exact a
    · rw [b]
      rcases a with a | a
      · rw [a]; exact .inr rfl
      · rw [a, readCache_idem]; exact .inr rfl

theorem sizes_sum {env : Env} {jh : Hdr} {ident : Option Bytes} (ss : List Seg) : ∀ {n before : Nat}, SegsDone env jh ident n before ss →
    (ss.map (·.size)).sum = (ss.flatMap (·.content)).length := by
  induction ss with
  | nil => intro _ _ _; rfl
  | cons s ss ih =>
    intro n before h
    obtain ⟨-, h2, h3⟩ := h
    obtain ⟨h0, gz, hb, -⟩ := h2.state
    rw [List.map_cons, List.sum_cons, List.flatMap_cons, List.length_append, ih h3, hb.size]

/-- The current segment after `curSeg`. -/
theorem curSeg_inv {σ : Type} {env : Env} {fuel : Nat} {D : Deflater σ} {w w' : World} {sj : Job σ} {c : Cur σ} (hi : JobInv env D w sj)
    (h : curSeg env fuel D w sj = .ok (w', c)) :
    c.seg.segno = sj.segs.length + 1 ∧ SegCur env D sj.hdr (sj.segs.map (·.size)).sum c ∧ c.flag ≠ .finish ∧
    (c.seg.content = [] → sj.cur = none ∧ c.seg.silo.hold.length = c.seg.silo.hdStart + c.seg.silo.hdLen) ∧
    sj.payload = sj.segs.flatMap (·.content) ++ c.seg.content ∧ (sj.segs.map (·.silo.no) ++ [c.seg.silo.no]).Nodup ∧
    (∀ n ∈ sj.segs.map (·.silo.no) ++ [c.seg.silo.no], Owned w' n) ∧
    SameArchive w w' (sj.segs.map (·.silo.no) ++ [c.seg.silo.no]) ∧ (∀ n ∈ nos sj, n ∈ sj.segs.map (·.silo.no) ++ [c.seg.silo.no]) ∧
    Rising w' (sj.segs.map (·.silo.no) ++ [c.seg.silo.no]) := by
  obtain ⟨i1, i2, i3, i4, i5, i6, i7⟩ := hi
  unfold curSeg at h
  cases hc : sj.cur with
  | some c1 =>
    rw [hc] at h i4 i5 i6 i7
    simp only [Res.ok.injEq, Prod.mk.injEq] at h
    obtain ⟨rfl, rfl⟩ := h
    obtain ⟨j1, j2, j3, j4⟩ := i2 c1 hc
    exact ⟨j1, j2, j4, fun h => absurd h j3, i4, i5, i6, .refl _ _, by unfold nos; rw [hc]; exact fun n hn => hn, i7⟩
  | none =>
    rw [hc] at h i4 i5 i6 i7
    simp only [curContent, Option.map_none, Option.getD_none, List.append_nil] at i4
    simp only [curNo, Option.map_none, Option.toList_none, List.append_nil] at i5 i6 i7
    obtain ⟨j1, j2, j3, j4, j5, j6, -, j7, j8, j9, j10⟩ := newseg_inv h
    have hs : sj.size = (sj.segs.map (·.size)).sum := by rw [i3, i4, sizes_sum _ i1]
    rw [hs] at j2
    refine ⟨j1, j2, by rw [j5]; decide, fun _ => ⟨rfl, j6⟩, by rw [j3, List.append_nil]; exact i4, ?_, ?_, ?_, ?_, j10 _ i7⟩
    · rw [List.nodup_append]
      refine ⟨i5, by simp, ?_⟩
      intro a ha b hb
      simp only [List.mem_singleton] at hb
      subst hb
      rintro rfl
      have := (i6 _ ha).2
      rw [j9] at this
      cases this
    · intro n hn
      rw [j7]
      unfold Owned Commit.upd
      simp only
      rcases List.mem_append.1 hn with hn | hn
      · refine ⟨(i6 _ hn).1, ?_⟩
        split
        · rfl
        · exact (i6 _ hn).2
      · simp only [List.mem_singleton] at hn
        subst hn
        exact ⟨j8, by simp⟩
    · rw [j7]
      refine ⟨rfl, rfl, rfl, ?_, .inr rfl⟩
      intro n hn
      unfold Commit.upd
      simp only
      rw [if_neg (by rintro rfl; exact hn (by simp))]
    · intro n hn
      unfold nos at hn
      rw [hc] at hn
      simp only [curNo, Option.map_none, Option.toList_none, List.append_nil] at hn
      exact List.mem_append_left _ hn

theorem moreInput_inv {σ : Type} {env : Env} {D : Deflater σ} {jh : Hdr} {before : Nat} {sj : Job σ} {c : Cur σ} {ip : Bytes} {space : Nat}
    {m : Job σ × Cur σ × Bytes} (hc : SegCur env D jh before c) (h : moreInput sj c ip space = .ok m) :
    ∃ d, ip = d ++ m.2.2 ∧ (c.availIn = [] → d ≠ []) ∧ m.1 = { sj with size := sj.size + d.length, payload := sj.payload ++ d } ∧
      SegCur env D jh before m.2.1 ∧ m.2.1.seg.content = c.seg.content ++ d ∧ m.2.1.flag = c.flag ∧ m.2.1.seg.segno = c.seg.segno ∧
      m.2.1.seg.silo = c.seg.silo := by
  unfold moreInput at h
  by_cases ha : c.availIn = []
  · rw [if_pos ha] at h
    simp only [Res.bind_eq_ok, Res.check_eq_ok, exists_const, Res.pure_eq, Res.ok.injEq] at h
    obtain ⟨h1, rfl⟩ := h
    have h1 := of_decide_eq_true h1
    have hl : (ip.take (min (space / 2) ip.length)).length = min (space / 2) ip.length := by
      rw [List.length_take]; omega
    refine ⟨ip.take (min (space / 2) ip.length), (List.take_append_drop _ _).symm, ?_, by rw [hl], ?_, rfl, rfl, rfl, rfl⟩
    · intro _ h0
      rw [h0] at hl
      simp at hl
      omega
    · obtain ⟨h0, inp, out, hb, e1, e2, e3⟩ := hc.state
      rw [ha, List.append_nil] at e3
      obtain ⟨a1, a2, a3, a4, a5, a6⟩ := hb
      exact ⟨h0, inp, out, ⟨a1, by simp only [List.length_append, hl, a2], a3, a4, a5, a6⟩, e1, e2, by simp only [e3]⟩
  · rw [if_neg ha] at h
    simp only [Res.pure_eq, Res.ok.injEq] at h
    subst h
    exact ⟨[], rfl, fun h => absurd h ha, by simp, hc, by simp, rfl, rfl, rfl⟩

/-- `SegJob_Feed` loses nothing. -/
theorem feedLoop_inv {σ : Type} {env : Env} {D : Deflater σ} (hz : Zlib D) (hmax : env.max < 2 ^ 63) (fuel : Nat) :
    ∀ {w w' : World} {sj sj' : Job σ} {ip : Bytes}, JobInv env D w sj → (ip = [] → sj.cur ≠ none) → feedLoop env D fuel w sj ip = .ok (w', sj') →
    JobInv env D w' sj' ∧ sj'.payload = sj.payload ++ ip ∧ sj'.hdr = sj.hdr ∧ sj'.ident = sj.ident ∧ SameArchive w w' (nos sj') ∧
    (∀ n ∈ nos sj, n ∈ nos sj') ∧ (ip ≠ [] → sj'.cur ≠ none) ∧ (ip = [] → sj'.cur = none) := by
  induction fuel with
  | zero => intro w w' sj sj' ip _ _ h; cases h
  | succ fuel ih =>
    intro w w' sj sj' ip hi hip h
    rw [feedLoop] at h
    simp only [Res.bind_eq_ok] at h
    obtain ⟨r, h1, space, h2, h3⟩ := h
    obtain ⟨rw', c⟩ := r
    obtain ⟨c1, c2, c3, c4, c5, c6, c7, c8, c9, c10⟩ := curSeg_inv hi h1
    simp only at h2 h3
    by_cases he : space < 52 ∨ ip = []
    · rw [if_pos he] at h3
      simp only [Res.bind_eq_ok] at h3
      obtain ⟨s, h4, h5⟩ := h3
      have hne : c.seg.content ≠ [] ∨ env.max < c.seg.silo.hdStart + c.seg.silo.hdLen + 76 := by
        by_cases hc0 : c.seg.content = []
        · right
          obtain ⟨k1, k2⟩ := c4 hc0
          have hs : space < 52 := he.resolve_right (fun h => hip h k1)
          have h2 := outbuf_inv h2
          unfold getSpace at h2
          split at h2 <;> omega
        · exact .inl hc0
      obtain ⟨d1, d2, d3, d4, d5⟩ := endSeg_done hz hmax c2 h2 h4 hne
      have hi' : JobInv env D rw' { sj with segs := sj.segs ++ [s], cur := none } := by
        refine ⟨?_, ?_, hi.size, ?_, ?_, ?_, ?_⟩
        · exact segsDone_snoc _ hi.segs (by rw [d2, c1]; omega) (by rw [Nat.zero_add]; exact d1)
        · intro c h; cases h
        · simp only [curContent, Option.map_none, Option.getD_none, List.append_nil, List.flatMap_append, List.flatMap_cons, List.flatMap_nil, d3]
          exact c5
        · simpa only [curNo, Option.map_none, Option.toList_none, List.append_nil, List.map_append, List.map_cons, List.map_nil, d5] using c6
        · simpa only [curNo, Option.map_none, Option.toList_none, List.append_nil, List.map_append, List.map_cons, List.map_nil, d5] using c7
        · simpa only [curNo, Option.map_none, Option.toList_none, List.append_nil, List.map_append, List.map_cons, List.map_nil, d5] using c10
      have hn : nos { sj with segs := sj.segs ++ [s], cur := (none : Option (Cur σ)) } = sj.segs.map (·.silo.no) ++ [c.seg.silo.no] := by
        simp [nos, curNo, d5]
      by_cases hip0 : ip = []
      · rw [if_pos hip0] at h5
        simp only [Res.pure_eq, Res.ok.injEq, Prod.mk.injEq] at h5
        obtain ⟨rfl, rfl⟩ := h5
        exact ⟨hi', by simp [hip0], rfl, rfl, by rw [hn]; exact c8, by rw [hn]; exact c9, fun h => absurd hip0 h, fun _ => rfl⟩
      · rw [if_neg hip0] at h5
        obtain ⟨g1, g2, g3, g4, g5, g6, g7, g8⟩ := ih hi' (fun h => absurd h hip0) h5
        rw [hn] at g6
        exact ⟨g1, g2, g3, g4, c8.trans g5 g6, fun n h => g6 n (c9 n h), g7, g8⟩
    · rw [if_neg he] at h3
      simp only [Res.bind_eq_ok] at h3
      obtain ⟨m, h4, z, h5, h6⟩ := h3
      obtain ⟨d, m1, m2, m3, m4, m5, m6, m7, m8⟩ := moreInput_inv c2 h4
      have hfl : (if space < 128 * 1024 then Flush.partialFlush else m.2.1.flag) ≠ .finish := by
        split
        · decide
        · rw [m6]; exact c3
      obtain ⟨z1, z2, z3⟩ := runDeflate_inv h5
      have z2 : z.2.ret = .ok := z2.resolve_right (fun h => hfl h.1)
      have hcur := segCur_step hz m4 h5 z2
      have hcont : z.1.seg.content = c.seg.content ++ d := by rw [z3]; exact m5
      have hne : z.1.seg.content ≠ [] := by
        rw [hcont]
        intro h0
        obtain ⟨ha, hb⟩ := List.append_eq_nil_iff.1 h0
        obtain ⟨_, inp, _, _, _, _, e3⟩ := c2.state
        rw [ha] at e3
        have := (List.append_eq_nil_iff.1 e3.symm).2
        exact m2 this hb
      have hno : z.1.seg.silo.no = c.seg.silo.no := by rw [z3]; simp only [m8]
      have hi' : JobInv env D rw' { m.1 with cur := some z.1 } := by
        rw [m3]
        refine ⟨hi.segs, ?_, ?_, ?_, ?_, ?_, ?_⟩
        · intro c' hc'
          simp only [Option.some.injEq] at hc'
          subst hc'
          refine ⟨?_, hcur, hne, ?_⟩
          · rw [z3]; simp only [m7]; exact c1
          · rw [z3]; exact hfl
        · simp only [List.length_append, hi.size]
        · simp only [curContent, Option.map_some, Option.getD_some, hcont]
          rw [c5, List.append_assoc]
        · simpa only [curNo, Option.map_some, Option.toList_some, hno] using c6
        · simpa only [curNo, Option.map_some, Option.toList_some, hno] using c7
        · simpa only [curNo, Option.map_some, Option.toList_some, hno] using c10
      have hn : nos { m.1 with cur := some z.1 } = sj.segs.map (·.silo.no) ++ [c.seg.silo.no] := by
        rw [m3]; simp [nos, curNo, hno]
      by_cases hg : z.1.availIn ≠ [] ∨ m.2.2 ≠ []
      · rw [if_pos hg] at h6
        obtain ⟨g1, g2, g3, g4, g5, g6, g7, g8⟩ := ih hi' (fun _ h => by cases h) h6
        rw [hn] at g6
        have hsame : SameArchive w w' (nos sj') := c8.trans g5 g6
        have hip0 : ip ≠ [] := fun h => he (.inr h)
        refine ⟨g1, ?_, ?_, ?_, hsame, fun n h => g6 n (c9 n h), ?_, fun h => absurd h hip0⟩
        · rw [g2, m3, List.append_assoc, ← m1]
        · rw [g3, m3]
        · rw [g4, m3]
        · intro _
          by_cases hm : m.2.2 = []
          · exfalso
            -- with no input left and some not taken the next round fails
            rw [hm] at h6
            obtain ⟨k, rfl⟩ : ∃ k, fuel = k + 1 := by
              cases fuel with
              | zero => cases h6
              | succ k => exact ⟨k, rfl⟩
            rw [feedLoop] at h6
            simp only [Res.bind_eq_ok, curSeg, Res.ok.injEq, exists_eq_left', or_true, if_true] at h6
            obtain ⟨sp, -, s, h7, -⟩ := h6
            unfold endSeg at h7
            simp only [Res.bind_eq_ok, Res.check_eq_ok, exists_const] at h7
            have := of_decide_eq_true h7.1
            rcases hg with hg | hg
            · exact hg this
            · exact hg hm
          · exact g7 hm
      · rw [if_neg hg] at h6
        simp only [Res.pure_eq, Res.ok.injEq, Prod.mk.injEq] at h6
        obtain ⟨rfl, rfl⟩ := h6
        have hip0 : ip ≠ [] := fun h => he (.inr h)
        have hm : m.2.2 = [] := by
          by_cases hm : m.2.2 = []
          · exact hm
          · exact absurd (.inr hm) hg
        refine ⟨hi', ?_, by rw [m3], by rw [m3], by rw [hn]; exact c8, by rw [hn]; exact c9, fun _ h => (by cases h), fun h => absurd h hip0⟩
        rw [m3]
        simp only
        rw [hm, List.append_nil] at m1
        rw [m1]

theorem feedAll_inv {σ : Type} {env : Env} {D : Deflater σ} (hz : Zlib D) (hmax : env.max < 2 ^ 63) {fuel : Nat} (cs : List Bytes) :
    ∀ {w w' : World} {sj sj' : Job σ}, JobInv env D w sj → (∀ c ∈ cs, c ≠ []) → feedAll env D fuel cs w sj = .ok (w', sj') →
    JobInv env D w' sj' ∧ sj'.payload = sj.payload ++ cs.flatten ∧ sj'.hdr = sj.hdr ∧ sj'.ident = sj.ident ∧ SameArchive w w' (nos sj') ∧
    (∀ n ∈ nos sj, n ∈ nos sj') ∧ (sj.cur ≠ none ∨ cs ≠ [] → sj'.cur ≠ none) := by
  induction cs with
  | nil =>
    intro w w' sj sj' hi _ h
    simp only [feedAll, Res.ok.injEq, Prod.mk.injEq] at h
    obtain ⟨rfl, rfl⟩ := h
    exact ⟨hi, by simp, rfl, rfl, .refl _ _, fun _ h => h, fun h => h.resolve_right (fun h => h rfl)⟩
  | cons c cs ih =>
    intro w w' sj sj' hi hc h
    rw [feedAll] at h
    simp only [Res.bind_eq_ok] at h
    obtain ⟨r, h1, h2⟩ := h
    obtain ⟨rw', rj⟩ := r
    have hcne := hc c (by simp)
    obtain ⟨a1, a2, a3, a4, a5, a6, a7, -⟩ := feedLoop_inv hz hmax fuel hi (fun h => absurd h hcne) h1
    obtain ⟨b1, b2, b3, b4, b5, b6, b7⟩ := ih a1 (fun c h => hc c (by simp [h])) h2
    exact ⟨b1, by rw [b2, a2, List.flatten_cons, List.append_assoc], by rw [b3, a3], by rw [b4, a4], a5.trans b5 b6, fun n h => b6 n (a6 n h), fun _ => b7 (.inl (a7 hcne))⟩

end Verif.Segjob
