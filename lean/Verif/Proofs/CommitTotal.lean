/-
Committing the segments of a store job comes to its end.
-/
import Verif.Proofs.FeedTotal
import Verif.Props.Wsilo

namespace Verif.Props
open Verif Header Gzip Ident Index Wsilo Segjob Getjob Spec Inflate
open _root_.Verif.Commit (upd Silo)

/-! ### Feeding -/

/-- Any number of calls of `SegJob_Feed` come to their end. -/
theorem feedAll_total {σ : Type} {env : Env} (he : EnvOk env) (hm : RoomEnv env) {D : Deflater σ} {need : σ → Nat} (hz : Zlib D) (hL : Live D need) {fuel : Nat}
    (cs : List Bytes) : ∀ {w : World} {sj : Job σ} {N : Nat}, JobInv env D w sj → Storable env sj.hdr sj.ident → (∀ c, sj.cur = some c → CurOk env D need c) → FreeFrom w N →
    (Cache.readCache w.cacheFile w.cache).firstNon ≤ N → (∀ c ∈ cs, c ≠ []) → 4 * cs.flatten.length + N + 4 ≤ fuel → N + cs.flatten.length + 1 < 2 ^ 32 →
    sj.segs.length + (curNo sj.cur).length + cs.flatten.length < 2 ^ 62 → sj.size + cs.flatten.length + env.max < 2 ^ 63 →
    ∃ w' sj' N', feedAll env D fuel cs w sj = .ok (w', sj') ∧ (∀ c, sj'.cur = some c → CurOk env D need c) ∧ FreeFrom w' N' ∧
      (Cache.readCache w'.cacheFile w'.cache).firstNon ≤ N' ∧ N' ≤ N + cs.flatten.length ∧
      sj'.segs.length + (curNo sj'.cur).length ≤ sj.segs.length + (curNo sj.cur).length + cs.flatten.length := by
  induction cs with
  | nil => intro w sj N hi hj hc hf hN _ _ _ _ _; exact ⟨w, sj, N, rfl, hc, hf, hN, by omega, by omega⟩
  | cons c cs ih =>
    intro w sj N hi hj hc hf hN hcs hfuel hN2 hsg hsz
    simp only [List.flatten_cons, List.length_append] at hfuel hN2 hsg hsz ⊢
    have hc0 := hcs c (by simp)
    have hl : 1 ≤ c.length := List.length_pos_iff.2 hc0
    have hcn : (curNo sj.cur).length ≤ 1 := by cases sj.cur <;> simp [curNo]
    obtain ⟨w1, sj1, N1, e1, f2, f3, f4, f5, f6⟩ := feedLoop_total he hm hz hL fuel (ip := c) hi hj hc hf hN (fun h => absurd h hc0) (by omega) (by omega) (by omega) (by omega)
    obtain ⟨i1, i2, i3, i4, -⟩ := feedLoop_inv hz he.max fuel hi (fun h => absurd h hc0) e1
    have hs1 : sj1.size = sj.size + c.length := by rw [i1.size, i2, List.length_append, hi.size]
    obtain ⟨w2, sj2, N2, e2, g2, g3, g4, g5, g6⟩ := ih i1 (by rw [i3, i4]; exact hj) f2 f3 f4 (fun d hd => hcs d (by simp [hd])) (by omega) (by omega) (by omega) (by omega)
    exact ⟨w2, sj2, N2, by rw [feedAll, e1]; exact e2, g2, g3, g4, by omega, by omega⟩

/-- The fields a header must have when a store job is begun (segjob.c:60-79). -/
def Begun (h : Hdr) : Prop := present h b!"Content-Type" = true ∧ present h b!"WARC-Date" = true

theorem segjobNew_total {σ : Type} {env : Env} (he : EnvOk env) {h : Hdr} {ident : Option Bytes} (hj : Storable env h ident) (hb : Begun h) :
    ∃ sj : Job σ, segjobNew env h ident = .ok sj := by
  have ht : present h b!"WARC-Type" = true := by
    unfold present
    rcases hj.canId.1 with h | h | ⟨h, -⟩ <;> rw [h] <;> rfl
  have ha : (absent h b!"WARC-Segment-Number" && absent h b!"WARC-Payload-Digest" && absent h b!"WARC-Segment-Origin-ID" && absent h b!"WARC-Segment-Total-Length") = true := by
    unfold absent
    rw [hj.job.segno, hj.job.payload, hj.job.origin, hj.job.total]
    rfl
  unfold segjobNew
  rw [hb.1, hb.2, ht, ha]
  cases ident with
  | none => exact ⟨_, rfl⟩
  | some i =>
    obtain ⟨p, hp⟩ := he.slash
    have hi := hj.canId.2 i rfl
    simp only [validId, valid_bare env.pfx env.idSize i (by rw [hp]; simp) hi.2 hi.1]
    exact ⟨_, rfl⟩

/-! ### One silo -/

theorem commitFlags_lt {sl : Sl} {segd : Bool} {rid : Option Bytes} {fl : Nat} (hf : sl.idx = 0 ∨ sl.idx = F_METADATA ∨ sl.idx = F_RESOURCE)
    (e : commitFlags sl segd rid = .ok fl) : fl < 2 ^ 32 := by
  have hx : sl.idx < 16 := by
    rcases hf with h | h | h <;> rw [h] <;> decide
  unfold commitFlags at e
  split at e
  · cases e; exact Nat.lt_trans hx (by decide)
  · split at e
    · cases e
    · cases e
      have g1 : sl.idx ||| F_SEGMENTED < 2 ^ 32 := Nat.or_lt_two_pow (Nat.lt_trans hx (by decide)) (by decide)
      refine Nat.or_lt_two_pow (Nat.or_lt_two_pow g1 ?_) ?_
      · split <;> decide
      · split <;> decide

theorem install_total {env : Env} (he : EnvOk env) {w : World} {sl : Sl} {content : Bytes} (hr : Ready env sl content) {segd : Bool} {rid : Option Bytes}
    (hrid : ∀ k, rid = some k → ∀ c ∈ k, isHex c = true) (hfin : ∃ f, finalHold env sl = .ok f) (hfl : ∃ fl, commitFlags sl segd rid = .ok fl)
    (hno : w.silos sl.no = none) : ∃ w', install env w sl segd sl.hd.id rid = .ok w' := by
  obtain ⟨f, hf⟩ := hfin
  obtain ⟨fl, hfl⟩ := hfl
  obtain ⟨ih, info, res, gz, i1, i2, i3, i4, i5, -⟩ := hr.hold
  have hmax := he.max
  have hrmax := hr.max
  have hlen : sl.hold.length = sl.hdStart + sl.hdLen + (gz ++ crnlcrnl).length := by
    rw [i5, List.length_append, List.length_append, i3, i4]
  obtain ⟨d1, h1⟩ := idxInsert_total w.dir (i := { id := sl.hd.id, flags := fl, silo := sl.no, off := sl.hdStart, cont := rid })
    ⟨hr.id, commitFlags_lt hr.flags hfl, hr.no, (by simp only; omega), hrid⟩
  obtain ⟨d2, h2⟩ := idxInsert_total d1 (i := { id := ih.id, flags := F_WARCINFO, silo := sl.no, off := 0, cont := none })
    ⟨(infoHdr_ok he i1.1).2.1, (by show (2 : Nat) < 2 ^ 32; decide), hr.no, (by show (0 : Nat) < 2 ^ 63; decide), fun k hk => by cases hk⟩
  unfold install
  rw [hf, Res.ok_bind, hfl, Res.ok_bind, h1, Res.ok_bind, i2, h2, Res.ok_bind, decide_eq_true hno]
  exact ⟨_, rfl⟩

/-- All silos have something in them. -/
def Filled (w : World) : Prop := ∀ n f, w.silos n = some f → f.data ≠ []

theorem attemptAppend_total {env : Env} (he : EnvOk env) {w : World} (hw : Filled w) {sl : Sl} {sn : Nat} (hsn : sn < 2 ^ 32) {hz id : Bytes} (hid : ∀ c ∈ id, isHex c = true)
    (hfl : sl.idx < 2 ^ 32) : ∃ r, attemptAppend env w sl sn hz id = .ok r := by
  have hmax := he.max
  unfold attemptAppend
  cases hs : w.silos sn with
  | none => exact ⟨_, rfl⟩
  | some f =>
    simp only
    split
    · exact ⟨_, rfl⟩
    · split
      · exact ⟨_, rfl⟩
      · rename_i hle
        unfold appendTo
        split
        · exact ⟨_, rfl⟩
        · obtain ⟨d, hd⟩ := idxInsert_total (putCache (putCache w (Cache.bumpNon sn w.cache)) (Cache.bumpSpace env.max f.data.length sn (putCache w (Cache.bumpNon sn w.cache)).cache)).dir
            (i := { id := id, flags := sl.idx, silo := sn, off := f.data.length, cont := none })
            ⟨hid, hfl, hsn, (by simp only; omega), fun k hk => by cases hk⟩
          rw [decide_eq_true (List.length_pos_iff.2 (hw sn f hs)), Res.check_true, Res.ok_bind]
          simp only at hd
          rw [hd]
          exact ⟨_, rfl⟩

theorem appendLoop_total {env : Env} (he : EnvOk env) {sl : Sl} {hz id : Bytes} (hid : ∀ c ∈ id, isHex c = true) (hfl : sl.idx < 2 ^ 32) (hno : sl.no < 2 ^ 32) (k : Nat) :
    ∀ {sn : Nat} {w : World}, Filled w → sn + k ≤ sl.no → ∃ r, appendLoop env sl hz id k sn w = .ok r := by
  induction k with
  | zero => intro sn w _ _; exact ⟨_, rfl⟩
  | succ k ih =>
    intro sn w hw hsn
    obtain ⟨⟨w1, r⟩, e⟩ := attemptAppend_total he hw (sl := sl) (sn := sn) (hz := hz) (by omega) hid hfl
    rw [appendLoop, e, Res.ok_bind]
    simp only
    split
    · exact ⟨_, rfl⟩
    · split
      · exact ⟨_, rfl⟩
      · rename_i h1 h2
        rcases attemptAppend_inv (by omega) e with ⟨h, -⟩ | ⟨-, h, -⟩
        · exact absurd h h1
        · exact ih (fun n f hf => hw n f (by rw [← h]; exact hf)) (by omega)

theorem wsiloCommit_total {env : Env} (he : EnvOk env) {w : World} (hw : Filled w) {sl : Sl} {content : Bytes} (hr : Ready env sl content) {segd : Bool} {rid : Option Bytes}
    (hrid : ∀ k, rid = some k → ∀ c ∈ k, isHex c = true) (hfin : ∃ f, finalHold env sl = .ok f) (hfl : ∃ fl, commitFlags sl segd rid = .ok fl)
    (hno : w.silos sl.no = none) : ∃ w', wsiloCommit env w sl segd sl.hd.id rid = .ok w' := by
  unfold wsiloCommit
  split
  · by_cases hk : sl.no - w.cache.firstSpace = 0
    · rw [hk]
      simp only [appendLoop, Res.ok_bind]
      rw [if_neg (by simp)]
      exact install_total he hr hrid hfin hfl hno
    · obtain ⟨⟨w1, r⟩, e⟩ := appendLoop_total he (sl := sl) (hz := env.pack9 (headerSerialize env.pfx sl.hd)) hr.id
        (by rcases hr.flags with h | h | h <;> rw [h] <;> decide) hr.no (sl.no - w.cache.firstSpace) (sn := w.cache.firstSpace) hw (by omega)
      simp only [e, Res.ok_bind]
      cases r with
      | true => exact ⟨_, rfl⟩
      | false =>
        rw [if_neg (by simp)]
        refine install_total he hr hrid hfin hfl ?_
        rcases appendLoop_inv _ (by omega) e with ⟨h, -⟩ | ⟨-, h, -⟩
        · cases h
        · rw [h]; exact hno
  · exact install_total he hr hrid hfin hfl hno

/-! ### The headers of segments -/

theorem dec_times {m n : Nat} (h : m ≤ 10 * n) : (dec m).length ≤ (dec n).length + 1 := by
  have h1 : n < 10 ^ (dec n).length := by
    rcases Nat.lt_or_ge n (10 ^ (dec n).length) with h1 | h1
    · exact h1
    · have := dec_length_ge n _ h1
      omega
  exact dec_length m (dec n).length (by rw [Nat.pow_succ]; omega)

theorem done_short {env : Env} (he : EnvOk env) {jh : Hdr} (hn : Neat jh) (hsh : Short env jh) {n : Nat} {h0 : Hdr} (hlt : n < 2 ^ 63) (e : seg0Hdr env jh n = .ok h0) :
    (headerSerialize env.pfx h0).length + 200 < 2 ^ 15 := by
  have h1 := seg0_len he hn hlt e
  have h2 := he.ps
  unfold Short at hsh
  have h15 : (2 : Nat) ^ 15 = 32768 := by decide
  omega

theorem level0_of {env : Env} (he : EnvOk env) : Level0 env := fun t h1 h2 => (he.pack0 t (List.ne_nil_of_length_pos h1) h2).2

/-- The header of an object of one segment fits. -/
theorem single_fits {env : Env} (he : EnvOk env) {jh : Hdr} (hj : JobHdr env.idSize jh) (hn : Neat jh) (hsh : Short env jh) {ident : Option Bytes} {s : Seg}
    (hd : SegDone env jh ident 0 s) (h1 : s.segno = 1) (hsz : s.size < 2 ^ 63) : ∃ f, finalHold env s.silo = .ok f := by
  obtain ⟨h0, gz, hb, -, -, hf⟩ := hd.state
  have e0 := hb.hdr0
  have hl := hb.hdLen
  rw [h1] at e0 hl
  exact C28_unsegmented (level0_of he) (fun d => (he.sha d).1) hj e0 (he.sha s.content).1 hsz hf hd.hd hl (done_short he hn hsh (by decide) e0)

/-- The header of the first of several segments fits. -/
theorem first_fits {env : Env} (he : EnvOk env) {jh : Hdr} (hj : JobHdr env.idSize jh) (hn : Neat jh) (hsh : Short env jh) {ident : Option Bytes} {s : Seg}
    (hd : SegDone env jh ident 0 s) (h1 : s.segno = 1) (hsz : s.size ≤ 10 * env.max) (hsz2 : s.size < 2 ^ 63) {pd : Bytes} (hpd : pd.length = 64) {h2 h3 h4 : Hdr}
    (e2 : headerSet s.hdr b!"WARC-Payload-Digest" (b!"sha256:" ++ pd) = .ok h2) (e3 : identSet env.sha env.pfx env.idSize h2 pd ident = .ok h3)
    (e4 : headerSet h3 b!"WARC-Segment-Number" b!"1" = .ok h4) : ∃ f, finalHold env { s.silo with hd := h4 } = .ok f := by
  obtain ⟨h0, gz, hb, -, -, hf⟩ := hd.state
  have e0 := hb.hdr0
  have hl := hb.hdLen
  rw [h1] at e0 hl
  rw [if_pos h1] at hf
  refine (C28_first_partial (sl := { s.silo with hd := h4 }) (level0_of he) (fun d => (he.sha d).1) hj e0 (he.sha s.content).1 hpd hsz2 hf e2 e3 e4 rfl hl
    (done_short he hn hsh (by decide) e0)).2 (.inl ?_)
  have := dec_times hsz
  omega

/-- The header of a continuation segment that is not the last one fits. -/
theorem middle_fits {env : Env} (he : EnvOk env) {jh : Hdr} (hj : JobHdr env.idSize jh) (hn : Neat jh) (hsh : Short env jh) {ident : Option Bytes} {before : Nat} {s : Seg}
    (hd : SegDone env jh ident before s) (h1 : s.segno ≠ 1) (hlt : s.segno < 2 ^ 63) (hsz : s.size < 2 ^ 63) (hb : before + env.max < 2 ^ 63) {fid : Bytes} {h2 : Hdr}
    (e2 : headerSetRef env.pfx env.idSize s.hdr b!"WARC-Segment-Origin-ID" fid = .ok h2) : ∃ f, finalHold env { s.silo with hd := h2 } = .ok f := by
  obtain ⟨h0, gz, hbs, -, -, hf⟩ := hd.state
  exact C28_middle (sl := { s.silo with hd := h2 }) (level0_of he) (fun d => (he.sha d).1) hj h1 hbs.hdr0 (he.sha s.content).1 hsz hb hf e2 rfl hbs.hdLen
    (done_short he hn hsh hlt hbs.hdr0)

/-- The header of the last segment fits. -/
theorem last_fits {env : Env} (he : EnvOk env) {jh : Hdr} (hj : JobHdr env.idSize jh) (hn : Neat jh) (hsh : Short env jh) {ident : Option Bytes} {before : Nat} {s : Seg}
    (hd : SegDone env jh ident before s) (h1 : s.segno ≠ 1) (hlt : s.segno < 2 ^ 63) (hsz : s.size ≤ 10 * env.max) (hsz2 : before + s.size < 2 ^ 63)
    (hb : before + env.max < 2 ^ 63) {fid : Bytes} {h2 h3 : Hdr} (e2 : headerSetRef env.pfx env.idSize s.hdr b!"WARC-Segment-Origin-ID" fid = .ok h2)
    (e3 : headerSet h2 b!"WARC-Segment-Total-Length" (dec (before + s.size)) = .ok h3) : ∃ f, finalHold env { s.silo with hd := h3 } = .ok f := by
  obtain ⟨h0, gz, hbs, -, -, hf⟩ := hd.state
  refine (C28_last_partial (sl := { s.silo with hd := h3 }) (level0_of he) (fun d => (he.sha d).1) hj h1 hbs.hdr0 (he.sha s.content).1 hsz2 hb hf e2 e3 rfl hbs.hdLen
    (done_short he hn hsh hlt hbs.hdr0)).2 (.inl ?_)
  have d1 := dec_times hsz
  have d2 := dec_times (m := before + s.size) (n := before + env.max) (by omega)
  omega

/-! ### Several segments -/

theorem headerSetRef_total {env : Env} {h : Hdr} (hs : SortedF h.fields) {fid : Bytes} (hfl : fid.length = env.idSize) :
    ∃ h', headerSetRef env.pfx env.idSize h b!"WARC-Segment-Origin-ID" fid = .ok h' := by
  obtain ⟨h', e, -⟩ := headerSet_spec h b!"WARC-Segment-Origin-ID" (b!"<" ++ env.pfx ++ fid.take env.idSize ++ b!">") hs (by decide)
  refine ⟨h', ?_⟩
  unfold headerSetRef
  rw [decide_eq_true (by omega)]
  exact e

theorem install_silos {env : Env} {w w' : World} {sl : Sl} {id : Bytes} {rid : Option Bytes} (h : wsiloCommit env w sl true id rid = .ok w') :
    ∃ f, w'.silos = upd w.silos sl.no (some f) ∧ f.data.length = (sl.hold.take sl.hdStart).length + sl.hdLen + (sl.hold.drop (sl.hdStart + sl.hdLen)).length := by
  unfold wsiloCommit at h
  rw [if_neg (by simp)] at h
  unfold install at h
  simp only [Res.bind_eq_ok, Res.check_eq_ok, exists_const, Res.pure_eq, Res.ok.injEq] at h
  obtain ⟨file, h1, fl, -, d, -, d', -, -, rfl⟩ := h
  obtain ⟨h', -, h2, h3⟩ := finalHold_inv h1
  refine ⟨⟨file, true⟩, ?_, ?_⟩
  · unfold abandon putCache
    simp only
    split <;> rfl
  · rw [h3]
    simp only [List.length_append, h2]

/-- The world after a segment has been committed. -/
theorem commit_next {env : Env} {w w' : World} (hw : Filled w) {sl : Sl} {content : Bytes} (hr : Ready env sl content) {id : Bytes} {rid : Option Bytes}
    (h : wsiloCommit env w sl true id rid = .ok w') : Filled w' ∧ ∀ n, n ≠ sl.no → w'.silos n = w.silos n := by
  obtain ⟨f, h1, h2⟩ := install_silos h
  obtain ⟨ih, info, res, gz, i1, i2, i3, i4, i5, -⟩ := hr.hold
  refine ⟨?_, fun n hn => by rw [h1]; unfold upd; rw [if_neg hn]⟩
  intro n g hg
  rw [h1] at hg
  unfold upd at hg
  split at hg
  · cases hg
    intro h0
    rw [h0, List.length_nil, List.length_drop, i5, List.length_append, List.length_append, List.length_append, i3, i4] at h2
    have : crnlcrnl.length = 24 := rfl
    omega
  · exact hw n g hg

/-- Committing the continuation segments comes to its end. -/
theorem commitTail_total {env : Env} (he : EnvOk env) {jh : Hdr} (hj : JobHdr env.idSize jh) (hn : Neat jh) (hsh : Short env jh) {ident : Option Bytes} {fid : Bytes}
    (hfx : ∀ c ∈ fid, isHex c = true) (hfl : fid.length = env.idSize) (ss : List Seg) : ∀ {n before : Nat} {w : World}, SegsDone env jh ident n before ss → SegsR env n ss →
    2 ≤ n → n + ss.length < 2 ^ 63 → Filled w → (∀ s ∈ ss, w.silos s.silo.no = none) → (ss.map (·.silo.no)).Nodup → (∀ s ∈ ss, s.size ≤ 10 * env.max) →
    before + (ss.map (·.size)).sum + env.max < 2 ^ 63 → ∃ w', commitSegs env fid (before + (ss.map (·.size)).sum) ss w = .ok w' := by
  induction ss with
  | nil => intro n before w _ _ _ _ _ _ _ _ _; exact ⟨w, rfl⟩
  | cons s ss ih =>
    intro n before w hd hr hn2 hlt hw hfree hnd hsz hb
    obtain ⟨hd1, hd2, hd3⟩ := hd
    obtain ⟨hr1, hr2⟩ := hr
    simp only [List.length_cons, List.map_cons, List.sum_cons, List.nodup_cons] at hlt hnd hb ⊢
    have hne : s.segno ≠ 1 := by omega
    obtain ⟨h1, e1⟩ := headerSetRef_total (env := env) hr1.neat.1 hfl
    obtain ⟨-, e1'⟩ := headerSetRef_inv e1
    have i1 := headerSet_inv hr1.neat.1 e1'
    have n1 : Neat h1 := by
      rw [List.take_of_length_le (by omega)] at e1'
      exact neat_set hr1.neat e1' (by decide) (clean_ref he (clean_hex hfx))
    have hid1 : h1.id = s.hdr.id := i1.2.1
    have hnum1 : headerGet h1 b!"WARC-Segment-Number" = some (dec n) := by
      rw [i1.2.2.2.1, if_neg (by decide)]
      exact hr1.number (by omega)
    rw [commitSegs, if_neg hne, e1, Res.ok_bind]
    have key : ∀ h : Hdr, Neat h → h.id = s.hdr.id → headerGet h b!"WARC-Segment-Number" = some (dec n) → (∃ f, finalHold env { s.silo with hd := h } = .ok f) →
        ∃ w', (do
          let w ← wsiloCommit env w { s.silo with hd := h } true h.id (ss.head?.map (·.hdr.id))
          commitSegs env fid (before + (s.size + (ss.map (·.size)).sum)) ss w) = Res.ok w' := by
      intro h k1 k2 k3 k4
      have hrd := hr1.ready h k1 (by rw [k2]; exact hr1.id)
      obtain ⟨w1, e3⟩ := wsiloCommit_total he hw hrd (segd := true) (rid := ss.head?.map (·.hdr.id)) (by
        intro k hk
        cases ss with
        | nil => cases hk
        | cons t ss =>
          simp only [List.head?_cons, Option.map_some, Option.some.injEq] at hk
          rw [← hk]
          exact hr2.1.id) k4 (by
        unfold commitFlags
        rw [if_neg (by simp)]
        simp only [k3]
        exact ⟨_, rfl⟩) (hfree s (by simp))
      simp only at e3
      rw [e3, Res.ok_bind]
      obtain ⟨c1, c2⟩ := commit_next hw hrd e3
      rw [← Nat.add_assoc]
      refine ih hd3 hr2 (by omega) (by omega) c1 ?_ hnd.2 (fun t ht => hsz t (by simp [ht])) (by omega)
      intro t ht
      rw [c2]
      · exact hfree t (by simp [ht])
      · intro h
        exact hnd.1 (List.mem_map.2 ⟨t, ht, h⟩)
    by_cases hss : ss = []
    · rw [if_pos hss]
      obtain ⟨h2, e2, i2, s2, g2⟩ := headerSet_spec h1 b!"WARC-Segment-Total-Length" (dec (before + (s.size + (ss.map (·.size)).sum))) n1.1 (by decide)
      rw [e2, Res.ok_bind]
      refine key h2 (neat_set n1 e2 (by decide) (clean_dec _)) (i2.trans hid1) (by rw [g2, if_neg (by decide)]; exact hnum1) ?_
      rw [hss] at e2
      simp only [List.map_nil, List.sum_nil, Nat.add_zero] at e2
      exact last_fits he hj hn hsh hd2 hne (by omega) (hsz s (by simp)) (by omega) (by omega) e1 e2
    · rw [if_neg hss, Res.ok_bind]
      exact key h1 n1 hid1 hnum1 (middle_fits he hj hn hsh hd2 hne (by omega) (by omega) (by omega) e1)

/-! ### The whole job -/

theorem objectId_good {env : Env} (he : EnvOk env) {h : Hdr} {ident : Option Bytes} (hc : CanId env h ident) {payload id : Bytes} (ho : ObjectId env h ident payload id) :
    (∀ c ∈ id, isHex c = true) ∧ id.length = env.idSize := by
  have hl := (identSet_inv ho).2
  refine ⟨?_, hl⟩
  unfold ObjectId at ho
  cases ident with
  | none => exact identSet_hex he ho
  | some i =>
    obtain ⟨p, hp⟩ := he.slash
    have hi := hc.2 i rfl
    rw [C50_bare env.sha env.pfx env.idSize h _ i (by rw [hp]; simp) hi.2 hi.1] at ho
    have := congrArg Hdr.id (Res.ok.inj ho)
    simp only at this
    rw [← this]
    exact hi.2

theorem valid_full {pfx : Bytes} {n : Nat} {id : Bytes} (hx : ∀ c ∈ id, isHex c = true) (hl : id.length = n) : idxValidId pfx n (pfx ++ id) = .ok id :=
  (C11_valid_id _ _ _ _).2 ⟨.inl ⟨pfx, rfl, rfl⟩, hx, hl⟩

theorem digest2Ident_total {pfx : Bytes} {n : Nat} {id : Bytes} (hx : ∀ c ∈ id, isHex c = true) (hl : id.length = n) : digest2Ident pfx n id = .ok (pfx ++ id) := by
  unfold digest2Ident validId
  rw [valid_full hx hl]
  rfl

/-- `SegJob_Commit` comes to its end if looking up the object does, and no segment of several holds more than ten times the size of a silo. -/
theorem commitJob_total {σ : Type} {env : Env} (he : EnvOk env) {fuel : Nat} {w : World} {sj : Job σ} (hj : Storable env sj.hdr sj.ident)
    (hs : SegsDone env sj.hdr sj.ident 1 0 sj.segs) (hp : sj.payload = sj.segs.flatMap (·.content)) (hlen : sj.size = sj.payload.length) (h0 : sj.payload ≠ [])
    (hsize : sj.payload.length + env.max < 2 ^ 63) (hnd : (sj.segs.map (·.silo.no)).Nodup) (hown : ∀ s ∈ sj.segs, w.silos s.silo.no = none) (hw : Filled w)
    (hlook : ∀ id, ObjectId env sj.hdr sj.ident sj.payload id → ∃ g, getjobNew env.ps env.pfx env.idSize fuel w id = .ok g)
    (hten : sj.segs.length ≤ 1 ∨ ∀ s ∈ sj.segs, s.content.length ≤ 10 * env.max) : ∃ r, commitJob env fuel w sj = .ok r := by
  have hcnt := nodup_length (2 ^ 32 - 1) _ hnd (fun n hm => by
    obtain ⟨s, hs1, rfl⟩ := List.mem_map.1 hm
    obtain ⟨b, hd⟩ := segsDone_mem _ hs s hs1
    obtain ⟨_, _, hb, -⟩ := hd.state
    have := hb.no
    omega)
  rw [List.length_map] at hcnt
  have hpos : 0 < sj.size := by rw [hlen]; exact List.length_pos_iff.2 h0
  unfold commitJob
  rw [decide_eq_true hpos, Res.check_true, Res.ok_bind]
  cases hseg : sj.segs with
  | nil =>
    rw [hseg] at hp
    exact absurd hp h0
  | cons s ss =>
    have hsum := sizes_sum _ hs
    rw [hseg] at hs hp hcnt hnd hown hten hsum
    rw [← hp, ← hlen, List.map_cons, List.sum_cons] at hsum
    obtain ⟨h1, hd, hrest⟩ := hs
    obtain ⟨f1, f2, f3⟩ := first_objectId hj.neat hd h1
    have hds := hd.state
    obtain ⟨_, _, hb, -⟩ := hds
    rw [List.length_cons] at hcnt
    have hn1 := (done_neat he hj.neat hd).1
    simp only
    by_cases hss : ss = []
    · rw [if_pos hss, Res.ok_bind]
      rw [hss, List.flatMap_cons, List.flatMap_nil, List.append_nil] at hp
      rw [← hp] at f1
      obtain ⟨g1, g2⟩ := objectId_good he hj.canId f1
      obtain ⟨g, hg⟩ := hlook _ f1
      rw [digest2Ident_total g1 g2, Res.ok_bind, hg, Res.ok_bind]
      cases g with
      | job gj => exact ⟨_, rfl⟩
      | error er =>
        simp only
        rw [if_pos hss]
        have hr := done_ready he hj.neat hj.short hd (by omega) (by omega) hn1 g1
        rw [← hd.hd] at hr
        obtain ⟨w', e⟩ := wsiloCommit_total he hw (sl := s.silo) (segd := false) (rid := none) hr (fun k hk => by cases hk)
          (single_fits he hj.job hj.neat hj.short hd h1 (by omega)) ⟨_, rfl⟩ (hown s (by simp))
        rw [hd.hd] at e
        rw [e]
        exact ⟨_, rfl⟩
    · rw [if_neg hss]
      have hten := hten.resolve_left (fun h => by
        have := List.length_pos_iff.2 hss
        rw [List.length_cons] at h
        omega)
      obtain ⟨sl, sx⟩ := he.sha sj.payload
      obtain ⟨h2, e2, i2, s2, t2⟩ := headerSet_spec s.hdr b!"WARC-Payload-Digest" (b!"sha256:" ++ env.sha sj.payload) hn1.1 (by decide)
      have n2 := neat_set hn1 e2 (by decide) (clean_sha he _)
      have ht2 : headerGet h2 b!"WARC-Type" = headerGet sj.hdr b!"WARC-Type" := by rw [t2, if_neg (by decide), f2]
      have hr2 : headerGet h2 b!"WARC-Refers-To" = headerGet sj.hdr b!"WARC-Refers-To" := by rw [t2, if_neg (by decide), f3]
      have hc2 : CanId env h2 sj.ident := by
        have := hj.canId
        unfold CanId at this ⊢
        rw [ht2, hr2]
        exact this
      obtain ⟨h3, e3⟩ := identSet_total he hc2 sl sx
      obtain ⟨f4, -⟩ := identSet_inv e3
      have ho : ObjectId env sj.hdr sj.ident sj.payload h3.id := identSet_transfer e3 ht2.symm hr2.symm
      obtain ⟨g1, g2⟩ := objectId_good he hj.canId ho
      obtain ⟨g, hg⟩ := hlook _ ho
      have e4 : firstId env sj.ident sj.payload s = .ok { s with hdr := h3, silo := { s.silo with hd := h3 } } := by
        unfold firstId
        simp only [e2, Res.ok_bind, e3]
        rfl
      rw [e4, Res.ok_bind]
      simp only
      rw [digest2Ident_total g1 g2, Res.ok_bind, hg, Res.ok_bind]
      cases g with
      | job gj => exact ⟨_, rfl⟩
      | error er =>
        simp only
        rw [if_neg hss]
        have n3 : Neat h3 := by
          unfold Neat CleanHdr at n2 ⊢
          rw [f4]
          exact n2
        obtain ⟨h4, e5, i5, s5, t5⟩ := headerSet_spec h3 b!"WARC-Segment-Number" b!"1" n3.1 (by decide)
        have n4 := neat_set n3 e5 (by decide) (by decide)
        have hrt := done_segsR he hj.job hj.neat hj.short ss hrest (by omega) (by omega) (by omega) (by omega)
        have hsz : ∀ t ∈ s :: ss, t.size ≤ 10 * env.max := by
          intro t ht
          obtain ⟨b, hdt⟩ := segsDone_mem (s :: ss) (n := 1) (before := 0) ⟨h1, hd, hrest⟩ t ht
          obtain ⟨_, _, hbt, -⟩ := hdt.state
          rw [hbt.size]
          exact hten t ht
        have hr := done_ready he hj.neat hj.short hd (by omega) (by omega) n4 (by rw [i5]; exact g1)
        obtain ⟨w1, e6⟩ := wsiloCommit_total he hw (segd := true) (rid := ss.head?.map (·.hdr.id)) hr (by
          intro k hk
          cases ss with
          | nil => cases hk
          | cons t ss =>
            simp only [List.head?_cons, Option.map_some, Option.some.injEq] at hk
            rw [← hk]
            exact hrt.1.id)
          (first_fits he hj.job hj.neat hj.short hd h1 (hsz s (by simp)) (by omega) sl e2 e3 e5) (by
          unfold commitFlags
          rw [if_neg (by simp)]
          simp only
          rw [t5, if_pos (strcasecmp_refl _)]
          exact ⟨_, rfl⟩) (hown s (by simp))
        obtain ⟨c1, c2⟩ := commit_next hw hr e6
        rw [List.map_cons, List.nodup_cons] at hnd
        obtain ⟨w2, e7⟩ := commitTail_total he hj.job hj.neat hj.short g1 g2 ss (w := w1) hrest hrt (by omega) (by omega) c1 (by
          intro t ht
          rw [c2]
          · exact hown t (by simp [ht])
          · intro h
            exact hnd.1 (List.mem_map.2 ⟨t, ht, h⟩)) hnd.2 (fun t ht => hsz t (by simp [ht])) (by omega)
        have hsum' : sj.size = 0 + s.size + (ss.map (·.size)).sum := by omega
        rw [hsum', commitSegs]
        simp only
        rw [if_pos h1, e5, Res.ok_bind, if_neg hss, Res.ok_bind, e6, Res.ok_bind, e7]
        exact ⟨_, rfl⟩

/-! ### Silos are never empty -/

theorem wsiloCommit_filled {env : Env} (he : EnvOk env) {w w' : World} (hw : Filled w) {sl : Sl} {segd : Bool} {id : Bytes} {rid : Option Bytes}
    (e : wsiloCommit env w sl segd id rid = .ok w') : Filled w' := by
  have inst : ∀ {w1}, Filled w1 → install env w1 sl segd id rid = .ok w' → Filled w' := by
    intro w1 hw1 e
    unfold install at e
    simp only [Res.bind_eq_ok, Res.check_eq_ok, exists_const, Res.pure_eq, Res.ok.injEq] at e
    obtain ⟨file, h1, fl, -, d, -, d', -, -, rfl⟩ := e
    obtain ⟨h', -, h2, h3⟩ := finalHold_inv h1
    have hf : file ≠ [] := by
      intro h0
      rw [h0] at h3
      have := congrArg List.length h3
      have hg := he.grow (headerSerialize env.pfx h')
      have hs := serialize_pos env.pfx h'
      simp only [List.length_nil, List.length_append] at this
      omega
    intro n f hnf
    have hsil : (abandon (putCache { w1 with dir := d', silos := upd w1.silos sl.no (some { data := file, writable := true }) } (Cache.bumpNon sl.no w1.cache)) sl).silos =
        upd w1.silos sl.no (some { data := file, writable := true }) := by
      unfold abandon putCache
      simp only
      split <;> rfl
    rw [hsil] at hnf
    unfold upd at hnf
    split at hnf
    · cases hnf
      exact hf
    · exact hw1 n f hnf
  unfold wsiloCommit at e
  split at e
  · rename_i hs
    simp only [Res.bind_eq_ok] at e
    obtain ⟨⟨w1, r⟩, e1, e2⟩ := e
    simp only at e2
    by_cases hk : sl.no - w.cache.firstSpace = 0
    · rw [hk] at e1
      cases e1
      exact inst hw e2
    rcases appendLoop_inv _ (by omega) e1 with ⟨rfl, sn, f, d, h1, -, -, -, -, h6⟩ | ⟨rfl, h1, -⟩
    · rw [if_pos rfl] at e2
      simp only [Res.pure_eq, Res.ok.injEq] at e2
      rw [← e2]
      intro n g hg
      have hg : w1.silos n = some g := hg
      rw [h6] at hg
      unfold upd at hg
      split at hg
      · cases hg
        intro h0
        exact hw sn f h1 (List.append_eq_nil_iff.1 h0).1
      · exact hw n g hg
    · rw [if_neg (by simp)] at e2
      exact inst (fun n f hf => hw n f (by rw [← h1]; exact hf)) e2
  · exact inst hw e

theorem commitSegs_filled {env : Env} (he : EnvOk env) {fid : Bytes} {size : Nat} (ss : List Seg) : ∀ {w w' : World}, Filled w →
    commitSegs env fid size ss w = .ok w' → Filled w' := by
  induction ss with
  | nil => intro w w' hw e; cases e; exact hw
  | cons s ss ih =>
    intro w w' hw e
    rw [commitSegs] at e
    simp only [Res.bind_eq_ok] at e
    obtain ⟨h1, -, h2, -, w1, e1, e2⟩ := e
    exact ih (wsiloCommit_filled he hw e1) e2

theorem commitJob_filled {σ : Type} {env : Env} (he : EnvOk env) {fuel : Nat} {w w' : World} {sj : Job σ} {uri : Bytes} (hw : Filled w)
    (e : commitJob env fuel w sj = .ok (w', uri)) : Filled w' := by
  unfold commitJob at e
  rw [Res.check_bind_eq_ok] at e
  obtain ⟨-, e⟩ := e
  split at e
  · cases e
  · simp only [Res.bind_eq_ok] at e
    obtain ⟨s', e1, uri', e2, g, e3, e4⟩ := e
    split at e4
    · simp only [Res.pure_eq, Res.ok.injEq, Prod.mk.injEq] at e4
      obtain ⟨rfl, -⟩ := e4
      intro n f hf
      rw [(destroy_same _ w).1] at hf
      exact hw n f hf
    · simp only [Res.bind_eq_ok, Res.pure_eq, Res.ok.injEq, Prod.mk.injEq] at e4
      obtain ⟨w1, e4, rfl, -⟩ := e4
      split at e4
      · exact wsiloCommit_filled he hw e4
      · exact commitSegs_filled he _ hw e4

end Verif.Props
