/-
What stores that are cut off leave in the silos: complete records, of complete objects or of the first segments of an object.
-/
import Verif.Props.Crash
import Verif.Props.ReindexArch

namespace Verif.Props
open Verif Header Gzip Ident Index Wsilo Segjob Getjob Spec Inflate Crash
open _root_.Verif.Commit (upd Silo)

/-- A record that is there, with an index entry for it. -/
def Onsite (env : Env) (s : Nat → Option Silo) (z : Item) : Prop :=
  z.At env.ps env.pfx s ∧ Written env z ∧ ∃ i : Ins, i.Valid ∧ i.entry = z.entry

theorem onsite_grown {env : Env} {s s' : Nat → Option Silo} (hg : Grown s s') {z : Item} (h : Onsite env s z) : Onsite env s' z :=
  ⟨at_grown hg h.1, h.2⟩

theorem onsite_ghosts {env : Env} {G : Nat → Option Silo} {w : World} {ops : List IdxOp} {A : List Item} (ha : ArchInv env (withGhosts G w) ops A) {z : Item} (hz : z ∈ A)
    (h : w.silos z.entry.silo ≠ none) : Onsite env w.silos z := by
  obtain ⟨⟨f, pre, post, k1, k2⟩, k3⟩ := ha.there z hz
  refine ⟨⟨⟨f, pre, post, ?_, k2⟩, k3⟩, ha.text z hz, ?_⟩
  · unfold withGhosts at k1
    simp only at k1
    cases hn : w.silos z.entry.silo with
    | none => exact absurd hn h
    | some g => rw [hn, Option.some_or] at k1; exact k1
  · have h1 : z.entry ∈ (inserts ops).map Ins.entry := by rw [ha.entries]; exact List.mem_map_of_mem hz
    obtain ⟨i, hi, e⟩ := List.mem_map.1 h1
    exact ⟨i, inserts_valid ops ha.valid i hi, e⟩

/-- The whole record is written, or nothing of it. -/
def Untorn (env : Env) : At → Prop
  | .writing _ k => k = 0 ∨ env.max ≤ k
  | _ => True

theorem layStep_same {s s' : Nat → Option Silo} (h : ∀ n, (s' n).map (·.data) = (s n).map (·.data)) : LayStep s s' [] := by
  intro B _ hl
  rw [List.append_nil]
  exact layout_data h hl

theorem appended_lay {env : Env} {G : Nat → Option Silo} {w w1 : World} {sl : Sl} {hz id : Bytes} {sn : Nat} (h : AppendedTo env w w1 sl hz id sn) {x : Item}
    (a4 : ∀ s : Nat → Option Silo, s sn = (withGhosts G w).silos sn → LayStep s (upd s sn ((withGhosts G w1).silos sn)) [x]) : LayStep w.silos w1.silos [x] := by
  obtain ⟨f, d, b1, -, -, -, -, b6⟩ := h
  have hGw : (withGhosts G w).silos sn = w.silos sn := by unfold withGhosts; simp only [b1, Option.some_or]
  have hGw1 : (withGhosts G w1).silos sn = w1.silos sn := by
    unfold withGhosts
    simp only [b6]
    unfold upd
    simp
  have k := a4 w.silos hGw.symm
  rw [hGw1] at k
  rw [b6] at k ⊢
  unfold upd at k ⊢
  simpa using k

/-- What a cut within `Wsilo_Commit` leaves in the silos: nothing, or the record. -/
theorem commitCut_real {env : Env} (he : EnvOk env) {G : Nat → Option Silo} {w w' : World} {ops : List IdxOp} {A : List Item} (ha : ArchInv env (withGhosts G w) ops A)
    {sl : Sl} {content : Bytes} (hr : Ready env sl content) (hG : G sl.no = none) (hno : w.silos sl.no = none)
    {segd : Bool} {rid : Option Bytes} (hrid : ∀ k, rid = some k → ∀ c ∈ k, isHex c) (hseg : segd = false → rid = none)
    (htext : segd = false → (headerSerialize env.pfx sl.hd).length + 84 ≤ env.ps) {a : At} (hu : Untorn env a)
    (e : commitCut env w sl segd sl.hd.id rid a = .ok w') :
    ∃ Y, LayStep w.silos w'.silos Y ∧ (∀ z ∈ Y, Onsite env w'.silos z) ∧
      (Y = [] ∨ ∃ fl x I, Y = x :: I ∧ commitFlags sl segd rid = .ok fl ∧ Made x sl.hd fl rid content ∧ ∀ y ∈ I, InfoItem env y) := by
  have none_left : w'.silos = w.silos → ∃ Y, LayStep w.silos w'.silos Y ∧ (∀ z ∈ Y, Onsite env w'.silos z) ∧
      (Y = [] ∨ ∃ fl x I, Y = x :: I ∧ commitFlags sl segd rid = .ok fl ∧ Made x sl.hd fl rid content ∧ ∀ y ∈ I, InfoItem env y) := by
    intro h
    exact ⟨[], layStep_same (fun n => by rw [h]), fun z hz => (by cases hz), .inl rfl⟩
  have app : ∀ {w1 : World} {sn : Nat}, segd = false → AppendedTo env w w1 sl (env.pack9 (headerSerialize env.pfx sl.hd)) sl.hd.id sn → w'.silos = w1.silos →
      ∃ Y, LayStep w.silos w'.silos Y ∧ (∀ z ∈ Y, Onsite env w'.silos z) ∧
      (Y = [] ∨ ∃ fl x I, Y = x :: I ∧ commitFlags sl segd rid = .ok fl ∧ Made x sl.hd fl rid content ∧ ∀ y ∈ I, InfoItem env y) := by
    intro w1 sn hs hap hw
    obtain ⟨is, x, b1, b2, b3, b4, b5⟩ := appended_adds he ha hr (htext hs) (ghosts_appended (G := G) hap)
    refine ⟨[x], by rw [hw]; exact appended_lay hap b4, ?_, .inr ⟨sl.idx, x, [], rfl, ?_, by rw [hseg hs]; exact b2, fun y hy => (by cases hy)⟩⟩
    · intro z hz
      rw [List.mem_singleton] at hz
      rw [hz, hw]
      refine onsite_ghosts b1 (by simp) ?_
      obtain ⟨f, d, -, -, -, -, -, c6⟩ := hap
      rw [b5, c6]
      unfold upd
      simp
    · unfold commitFlags
      rw [if_pos hs]
  cases a with
  | start =>
    cases e
    exact none_left rfl
  | writing sn k =>
    unfold commitCut at e
    simp only [Res.bind_eq_ok, Res.check_eq_ok, exists_const, Res.pure_eq, Res.ok.injEq] at e
    obtain ⟨e0, r, e1, rfl⟩ := e
    have e0 := of_decide_eq_true e0
    obtain ⟨f1, f2, f3, f4⟩ := writing_inv e1
    rcases hu with rfl | hk
    · refine ⟨[], layStep_same (fun n => ?_), fun z hz => (by cases hz), .inl rfl⟩
      rw [f4]
      unfold upd
      simp only [List.take_zero, List.append_nil]
      split
      · rename_i h
        rw [h, f1]
      · rfl
    · have hfl : sl.idx < 2 ^ 32 := by
        rcases hr.flags with h | h | h <;> rw [h] <;> decide
      have hmax := he.max
      have hnn := hr.no
      obtain ⟨d, hd⟩ := idxInsert_total w.dir (i := { id := sl.hd.id, flags := sl.idx, silo := sn, off := r.1.data.length, cont := none })
        ⟨hr.id, hfl, by simp only; omega, by simp only; omega, fun k hk => by cases hk⟩
      have hap : AppendedTo env w { r.2 with dir := d } sl (env.pack9 (headerSerialize env.pfx sl.hd)) sl.hd.id sn := by
        refine ⟨r.1, d, f1, hd, rfl, f2, f3, ?_⟩
        rw [f4]
        simp only
        rw [List.take_of_length_le (by rw [List.length_append]; omega)]
      exact app e0 hap rfl
  | appended sn =>
    unfold commitCut at e
    simp only [Res.bind_eq_ok, Res.check_eq_ok, exists_const] at e
    obtain ⟨e0, e⟩ := e
    unfold appended at e
    simp only [Res.bind_eq_ok, Res.pure_eq, Res.ok.injEq] at e
    obtain ⟨r, e1, d, e2, rfl⟩ := e
    obtain ⟨f1, f2, f3, f4⟩ := writing_inv e1
    have hap : AppendedTo env w { r.2 with dir := d } sl (env.pack9 (headerSerialize env.pfx sl.hd)) sl.hd.id sn := by
      refine ⟨r.1, d, f1, ?_, rfl, f2, f3, ?_⟩
      · rw [f4] at e2; exact e2
      · rw [f4]
        simp only [List.take_length]
    exact app (of_decide_eq_true e0) hap rfl
  | entry =>
    unfold commitCut entry at e
    simp only [Res.bind_eq_ok, Res.pure_eq, Res.ok.injEq] at e
    obtain ⟨r, ⟨file, e1, fl, e2, d, e3, rfl⟩, rfl⟩ := e
    exact none_left rfl
  | entries =>
    unfold commitCut entries entry at e
    simp only [Res.bind_eq_ok, Res.pure_eq, Res.ok.injEq] at e
    obtain ⟨r, ⟨q, ⟨file, e1, fl, e2, d, e3, rfl⟩, d2, e4, rfl⟩, rfl⟩ := e
    exact none_left rfl
  | linked =>
    unfold commitCut linked entries entry at e
    simp only [Res.bind_eq_ok, Res.check_eq_ok, exists_const, Res.pure_eq, Res.ok.injEq] at e
    obtain ⟨r, ⟨q, ⟨file, e1, fl, e2, d, e3, rfl⟩, d2, e4, rfl⟩, -, rfl⟩ := e
    obtain ⟨w2, i1, i2, i3⟩ := installs hG hno e1 e2 e3 e4
    obtain ⟨fl', is, x, y, k1, k2, k3, -, -, -, -, -, -, ⟨file', k7, k8⟩, k9, k10, k11, -⟩ := install_adds he ha hr hrid i1
    rw [e1] at k7
    cases k7
    have hw2 : ArchInv env (withGhosts G { w with
        dir := d2, silos := upd w.silos sl.no (some { data := file, writable := true }) }) (ops ++ is) (A ++ [x, y]) :=
      archInv_same k2 (by exact i2.symm) (by rw [i3]; exact ghosts_upd)
    refine ⟨[x, y], k8 _ hno, ?_, .inr ⟨fl', x, [y], rfl, k1, k3, ?_⟩⟩
    · intro z hz
      refine onsite_ghosts hw2 (List.mem_append_right _ hz) ?_
      have : z.entry.silo = sl.no := by
        rcases List.mem_cons.1 hz with rfl | hz
        · exact k10
        · rw [List.mem_singleton] at hz
          rw [hz]; exact k11
      rw [this]
      unfold upd
      simp
    · intro z hz
      rw [List.mem_singleton] at hz
      rw [hz]; exact k9

/-! ### Segments -/

/-- The header and index entry of segment `n`; `rid` is the ID of the next one. -/
def SegNode (pfx fid : Bytes) (n : Nat) (last : Bool) (rid : Option Bytes) (x : Item) : Prop :=
  headerGet x.hdr b!"WARC-Segment-Number" = some (dec n) ∧
  (n ≠ 1 → HasOrigin pfx x.hdr fid ∧ headerGet x.hdr b!"WARC-Type" = some b!"continuation") ∧
  (headerGet x.hdr b!"WARC-Segment-Total-Length").isSome = last ∧
  x.entry = Ins.entry
    { id := x.hdr.id, flags := typeFlag x.hdr ||| F_SEGMENTED ||| (if n = 1 then F_FIRSTSEG else 0) ||| (if last then F_LASTSEG else 0),
      silo := x.entry.silo, off := x.entry.off, cont := rid } ∧ (∀ c ∈ x.hdr.id, isHex c = true)

/-- Segments number `n` and so on, none of which is the last one of the object. -/
def SegPre (pfx fid : Bytes) : Nat → List Item → Prop
  | _, [] => True
  | n, x :: l => (∃ rid, SegNode pfx fid n false rid x) ∧ SegPre pfx fid (n + 1) l

theorem segHdrs_cons {pfx fid : Bytes} {n : Nat} {x : Item} {l : List Item} (h : SegNode pfx fid n l.isEmpty (l.head?.map (·.hdr.id)) x) (hl : SegHdrs pfx fid (n + 1) l) :
    SegHdrs pfx fid n (x :: l) := by
  obtain ⟨h1, h2, h3, h4, h5⟩ := h
  exact ⟨h1, h2, h3, h4, h5, hl⟩

/-- The header a segment is committed with. -/
theorem segHdr_fields {env : Env} (he : EnvOk env) {fid : Bytes} (hfid : ∀ c ∈ fid, isHex c = true) (hfl : fid.length = env.idSize) {size n : Nat} {s : Seg} (hs : SegR env n s)
    {last : Prop} [Decidable last]
    {h1 h2 : Hdr} (e1 : (if s.segno = 1 then headerSet s.hdr b!"WARC-Segment-Number" b!"1"
      else headerSetRef env.pfx env.idSize s.hdr b!"WARC-Segment-Origin-ID" fid) = .ok h1)
    (e2 : (if last then headerSet h1 b!"WARC-Segment-Total-Length" (dec size) else Res.ok h1) = .ok h2) :
    headerGet h2 b!"WARC-Segment-Number" = some (dec n) ∧ (n ≠ 1 → HasOrigin env.pfx h2 fid) ∧
    headerGet h2 b!"WARC-Type" = headerGet s.hdr b!"WARC-Type" ∧ (headerGet h2 b!"WARC-Segment-Total-Length").isSome = decide last := by
  have hid1 : Neat h1 ∧ headerGet h1 b!"WARC-Segment-Number" = some (dec n) ∧ (n ≠ 1 → HasOrigin env.pfx h1 fid) ∧
      headerGet h1 b!"WARC-Type" = headerGet s.hdr b!"WARC-Type" ∧ headerGet h1 b!"WARC-Segment-Total-Length" = none := by
    rw [hs.segno] at e1
    split at e1
    · rename_i h
      have i := headerSet_inv hs.neat.1 e1
      refine ⟨neat_set hs.neat e1 (by decide) (by decide), ?_, fun h' => absurd h h', ?_, ?_⟩
      · rw [i.2.2.2.1, if_pos (strcasecmp_refl _), h]
        decide
      · rw [i.2.2.2.1, if_neg (by decide)]
      · rw [i.2.2.2.1, if_neg (by decide)]; exact hs.total
    · rename_i h
      have e1 := (headerSetRef_inv e1).2
      have i := headerSet_inv hs.neat.1 e1
      rw [List.take_of_length_le (by omega)] at e1 i
      refine ⟨neat_set hs.neat e1 (by decide) (clean_ref he (clean_hex hfid)), ?_, fun _ => ?_, ?_, ?_⟩
      · rw [i.2.2.2.1, if_neg (by decide)]
        exact hs.number h
      · unfold HasOrigin
        rw [i.2.2.2.1, if_pos (strcasecmp_refl _)]
      · rw [i.2.2.2.1, if_neg (by decide)]
      · rw [i.2.2.2.1, if_neg (by decide)]; exact hs.total
  obtain ⟨j1, j2, j3, j4, j5⟩ := hid1
  split at e2
  · rename_i hl
    have i := headerSet_inv j1.1 e2
    refine ⟨?_, fun h => ?_, ?_, ?_⟩
    · rw [i.2.2.2.1, if_neg (by decide)]; exact j2
    · have := j3 h
      unfold HasOrigin at this ⊢
      rw [i.2.2.2.1, if_neg (by decide)]; exact this
    · rw [i.2.2.2.1, if_neg (by decide)]; exact j4
    · rw [i.2.2.2.1, if_pos (strcasecmp_refl _)]
      simp [hl]
  · rename_i hl
    cases e2
    refine ⟨j2, j3, j4, ?_⟩
    rw [j5]
    simp [hl]

/-- The record that is made of a segment. -/
theorem seg_node {env : Env} (he : EnvOk env) {fid : Bytes} (hfid : ∀ c ∈ fid, isHex c = true) (hfl : fid.length = env.idSize) {size n : Nat} {s : Seg} (hs : SegR env n s)
    {last : Prop} [Decidable last]
    {h1 h2 : Hdr} (e1 : (if s.segno = 1 then headerSet s.hdr b!"WARC-Segment-Number" b!"1"
      else headerSetRef env.pfx env.idSize s.hdr b!"WARC-Segment-Origin-ID" fid) = .ok h1)
    (e2 : (if last then headerSet h1 b!"WARC-Segment-Total-Length" (dec size) else Res.ok h1) = .ok h2) {rid : Option Bytes} (hrid : rid = none ↔ last) {fl : Nat} {x : Item}
    (c1 : commitFlags { s.silo with hd := h2 } true rid = .ok fl) {content : Bytes} (c3 : Made x h2 fl rid content) :
    SegNode env.pfx fid n (decide last) rid x ∧ x.hdr.id = s.hdr.id ∧ headerGet x.hdr b!"WARC-Type" = headerGet s.hdr b!"WARC-Type" := by
  obtain ⟨n2, i2⟩ := segHdr_neat he hfid hs e1 e2
  obtain ⟨f1, f2, f3, f4⟩ := segHdr_fields he hfid hfl hs e1 e2
  have htype : headerGet x.hdr b!"WARC-Type" = headerGet s.hdr b!"WARC-Type" := by
    rw [c3.get _ (by decide)]
    exact f3
  have hid : x.hdr.id = s.hdr.id := by rw [c3.id]; exact i2
  unfold commitFlags at c1
  rw [if_neg (by simp), show ({ s.silo with hd := h2 } : Sl).hd = h2 from rfl, f1] at c1
  simp only [Res.ok.injEq, dec_one] at c1
  refine ⟨⟨?_, fun h => ⟨?_, ?_⟩, ?_, ?_, ?_⟩, hid, htype⟩
  · rw [c3.get _ (by decide)]; exact f1
  · have := f2 h
    unfold HasOrigin at this ⊢
    rw [c3.get _ (by decide)]
    exact this
  · rw [htype]; exact hs.type h
  · rw [c3.get _ (by decide)]; exact f4
  · rw [typeFlag_congr htype, hs.flag]
    simp only [decide_eq_true_eq]
    rw [if_congr hrid.symm rfl rfl, c1]
    exact made_entry c3
  · rw [hid]; exact hs.id

/-- What is left when some segments have been committed and the next one may have been. -/
theorem segsCut_real {env : Env} (he : EnvOk env) {G : Nat → Option Silo} {fid : Bytes} (hfid : ∀ c ∈ fid, isHex c = true) (hfl : fid.length = env.idSize) {size : Nat} {a : At}
    (hu : Untorn env a) (ss : List Seg) : ∀ {n k : Nat} {w w' : World} {ops : List IdxOp} {A : List Item}, ArchInv env (withGhosts G w) ops A → Haunted w G → SegsR env n ss →
    (∀ t ∈ ss, G t.silo.no = none ∧ w.silos t.silo.no = none ∧ w.holds t.silo.no = true) → (ss.map (·.silo.no)).Pairwise (· < ·) →
    segsCut env fid size a k ss w = .ok w' →
    ∃ Y l I, LayStep w.silos w'.silos Y ∧ (∀ z ∈ Y, Onsite env w'.silos z) ∧ Y.Perm (l ++ I) ∧ (∀ y ∈ I, InfoItem env y) ∧
      (∀ x s, l.head? = some x → ss.head? = some s → x.hdr.id = s.hdr.id ∧ headerGet x.hdr b!"WARC-Type" = headerGet s.hdr b!"WARC-Type") ∧
      (SegPre env.pfx fid n l ∨ l.length = ss.length ∧ SegHdrs env.pfx fid n l) := by
  induction ss with
  | nil => intro n k w w' ops A _ _ _ _ _ e; unfold segsCut at e; cases e
  | cons s ss ih =>
    intro n k w w' ops A ha hw hs hown hnd e
    have hs0 := hs
    obtain ⟨hs, hss⟩ := hs
    obtain ⟨o1, o2, o3⟩ := hown s (by simp)
    have hrid : ∀ k, ss.head?.map (·.hdr.id) = some k → ∀ c ∈ k, isHex c := by
      intro k hk
      cases ss with
      | nil => cases hk
      | cons t ss =>
        cases hk
        exact hss.1.id
    have hlast : ss.head?.map (·.hdr.id) = none ↔ ss = [] := by
      cases ss <;> simp
    unfold segsCut at e
    rw [Res.bind_eq_ok] at e
    obtain ⟨h1, e1, e⟩ := e
    rw [Res.bind_eq_ok] at e
    obtain ⟨h2, e2, e⟩ := e
    obtain ⟨n2, i2⟩ := segHdr_neat he hfid hs e1 e2
    have hr := hs.ready h2 n2 (by rw [i2]; exact hs.id)
    cases k with
    | zero =>
      obtain ⟨Y, y1, y2, y3⟩ := commitCut_real he ha hr o1 o2 hrid (fun h => by cases h) (fun h => by cases h) hu e
      rcases y3 with rfl | ⟨fl, x, I, rfl, y3, y4, y5⟩
      · exact ⟨[], [], [], y1, y2, .refl _, fun y hy => (by cases hy), fun x s hx => (by cases hx), .inl trivial⟩
      · obtain ⟨q1, q2, q3⟩ := seg_node he hfid hfl hs e1 e2 hlast y3 y4
        refine ⟨x :: I, [x], I, y1, y2, .refl _, y5, ?_, ?_⟩
        · intro x' s' hx hs'
          cases hx
          cases hs'
          exact ⟨q2, q3⟩
        · by_cases hn : ss = []
          · subst hn
            exact .inr ⟨rfl, segHdrs_cons (by simpa using q1) trivial⟩
          · exact .inl ⟨⟨_, by simpa [hn] using q1⟩, trivial⟩
    | succ k =>
      simp only [Res.bind_eq_ok] at e
      obtain ⟨w1, e3, e4⟩ := e
      obtain ⟨fl, is, x, X, c1, c2, c3, c4, c5, c6, c7, -, c9⟩ := wsiloCommit_ghosts he ha hr o1 hrid (fun h => by cases h) (fun h => by cases h) e3
      have hap := (wsiloCommit_apart e3 :)
      rw [List.map_cons, List.pairwise_cons] at hnd
      have hw1 : Haunted w1 G := haunted_apart hw hap (by
        intro m hm
        rw [List.mem_singleton] at hm
        rw [hm]; exact o1)
      have hown1 : ∀ t ∈ ss, G t.silo.no = none ∧ w1.silos t.silo.no = none ∧ w1.holds t.silo.no = true := by
        intro t ht
        obtain ⟨p1, p2, p3⟩ := hown t (List.mem_cons_of_mem _ ht)
        have hne : t.silo.no ∉ [s.silo.no] := by
          intro h
          rw [List.mem_singleton] at h
          have := hnd.1 _ (List.mem_map_of_mem ht)
          omega
        obtain ⟨q1, q2⟩ := hap.2 _ hne
        exact ⟨p1, q2 p2, by rw [q1]; exact p3⟩
      obtain ⟨G', _, _, -, -, -, l4, l5⟩ := segsCut_left he hfid ss c2 hw1 hss hown1 hnd.2 e4
      have hg := grown_of_ghosts l4 l5
      obtain ⟨Y, l, I, y1, y2, y3, y4, y5, y6⟩ := ih c2 hw1 hss hown1 hnd.2 e4
      obtain ⟨q1, q2, q3⟩ := seg_node he hfid hfl hs e1 e2 hlast c1 c3
      refine ⟨x :: X ++ Y, x :: l, X ++ I, layStep_trans hap.1 c9 c6 y1, ?_, ?_, ?_, ?_, ?_⟩
      · intro z hz
        rcases List.mem_append.1 hz with hz | hz
        · exact onsite_grown hg (onsite_ghosts c2 (List.mem_append_right _ hz) (c9 z hz))
        · exact y2 z hz
      · refine List.Perm.cons _ ((List.Perm.append_left X y3).trans ?_)
        exact List.perm_append_comm_assoc X l I
      · intro z hz
        rcases List.mem_append.1 hz with hz | hz
        · exact c7 z hz
        · exact y4 z hz
      · intro x' s' hx hs'
        cases hx
        cases hs'
        exact ⟨q2, q3⟩
      · cases ss with
        | nil =>
          unfold segsCut at e4
          cases e4
        | cons t ss =>
          rcases y6 with y6 | ⟨y6, y7⟩
          · exact .inl ⟨⟨_, by simpa using q1⟩, y6⟩
          · refine .inr ⟨by simp [y6], segHdrs_cons ?_ y7⟩
            cases l with
            | nil => cases y6
            | cons y l =>
              have := (y5 y t rfl rfl).1
              simpa [this] using q1

/-- What is left of an object: nothing, all of it, or some of its segments. -/
def Stump (env : Env) (jh : Hdr) (Z : List Item) : Prop :=
  Z = [] ∨ ∃ x ys, Z = x :: ys ∧ headerGet x.hdr b!"WARC-Type" = headerGet jh b!"WARC-Type" ∧ x.hdr.id.length = env.idSize ∧
    (ys = [] ∧ PlainHdr x ∨ ys ≠ [] ∧ SegHdrs env.pfx x.hdr.id 1 (x :: ys) ∨ SegPre env.pfx x.hdr.id 1 (x :: ys))

theorem jobCut_real {σ : Type} {env : Env} (he : EnvOk env) {G : Nat → Option Silo} {fuel : Nat} {w w' : World} {sj : Job σ} {ops : List IdxOp} {A : List Item}
    (hj : JobHdr env.idSize sj.hdr) (hn : Neat sj.hdr) (hsh : Short env sj.hdr)
    (hs : SegsDone env sj.hdr sj.ident 1 0 sj.segs) (hp : sj.payload = sj.segs.flatMap (·.content)) (hsize : sj.payload.length + env.max < 2 ^ 63)
    (hnd : (sj.segs.map (·.silo.no)).Pairwise (· < ·)) (hown : ∀ s ∈ sj.segs, G s.silo.no = none ∧ w.silos s.silo.no = none ∧ w.holds s.silo.no = true)
    (ha : ArchInv env (withGhosts G w) ops A) (hw : Haunted w G) {k : Nat} {a : At} (hu : Untorn env a) (e : jobCut env fuel w sj k a = .ok w') :
    ∃ Y Z I, LayStep w.silos w'.silos Y ∧ (∀ z ∈ Y, Onsite env w'.silos z) ∧ Y.Perm (Z ++ I) ∧ (∀ y ∈ I, InfoItem env y) ∧ Stump env sj.hdr Z := by
  unfold jobCut at e
  rw [Res.check_bind_eq_ok] at e
  obtain ⟨-, e⟩ := e
  have hcnt := nodup_length (2 ^ 32 - 1) _ (hnd.imp Nat.ne_of_lt) (fun n hm => by
    obtain ⟨s, hs1, rfl⟩ := List.mem_map.1 hm
    obtain ⟨b, hd⟩ := segsDone_mem _ hs s hs1
    obtain ⟨_, _, hb, -⟩ := hd.state
    have := hb.no
    omega)
  rw [List.length_map] at hcnt
  split at e
  · cases e
  · rename_i s ss hseg
    rw [hseg] at hs hp hcnt hnd hown
    obtain ⟨h1, hd, hrest⟩ := hs
    have hsz := sizes_sum _ hrest
    obtain ⟨_, _, hb, -⟩ := hd.state
    rw [hp, List.flatMap_cons, List.length_append] at hsize
    rw [List.length_cons] at hcnt
    simp only [Res.bind_eq_ok] at e
    obtain ⟨s', e1, uri', e2, g, e3, e4⟩ := e
    obtain ⟨-, -, u3, u4⟩ := digest2Ident_inv e2
    obtain ⟨-, f2, -⟩ := first_objectId hn hd h1
    split at e4
    · cases e4
    by_cases hss : ss = []
    · subst hss
      rw [if_pos rfl] at e1 e4
      cases e1
      obtain ⟨o1, o2, o3⟩ := hown s (by simp)
      have hr := (done_segR he hj hn hsh hd (by omega) (by omega) u3).ready s.hdr (done_neat he hn hd).1 u3
      rw [← hd.hd] at hr
      have htext : (headerSerialize env.pfx s.silo.hd).length + 84 ≤ env.ps := by
        obtain ⟨h0, gz, hb0, -, -, ff⟩ := hd.state
        have e0 := hb0.hdr0
        have hl0 := seg0_len he hn (by omega) e0
        rw [h1] at e0
        obtain ⟨s0, i0, g1, g2, g3⟩ := seg0_first hj.sorted e0
        obtain ⟨-, -, l1, -⟩ := finishHdr_inv s0 g1 g2 (by rw [(he.sha _).1, (he.sha _).1]) (by rw [i0, hj.id]) ff
        have hz2 := hb.size
        have := dec_length s.size 18 (by omega)
        unfold Short at hsh
        rw [hd.hd]
        omega
      have hid : s.silo.hd.id = s.hdr.id := by rw [hd.hd]
      rw [← hid] at e4
      obtain ⟨Y, y1, y2, y3⟩ := commitCut_real he ha hr o1 o2 (fun k hk => by cases hk) (fun _ => rfl) (fun _ => htext) hu e4
      rcases y3 with rfl | ⟨fl, x, I, rfl, y3, c3, y5⟩
      · exact ⟨[], [], [], y1, y2, .refl _, fun y hy => (by cases hy), .inl rfl⟩
      · have hget : ∀ m, strcasecmp m b!"z" ≠ .eq → headerGet x.hdr m = headerGet s.hdr m := by
          intro m hm
          rw [c3.get m hm, hd.hd]
        obtain ⟨k1, -, k2, -⟩ := done_fields (fun d => (he.sha d).1) hj hd
        unfold commitFlags at y3
        rw [if_pos rfl] at y3
        cases y3
        refine ⟨x :: I, [x], I, y1, y2, .refl _, y5, .inr ⟨x, [], rfl, (hget _ (by decide)).trans f2, ?_, .inl ⟨rfl, ?_, ?_, ?_⟩⟩⟩
        · rw [c3.id, hid]; exact u4
        · rw [hget _ (by decide)]; exact k2 h1
        · rw [typeFlag_congr (hget _ (by decide)), k1]
          exact made_entry c3
        · rw [c3.id, hid]; exact u3
    · rw [if_neg hss] at e1 e4
      unfold firstId at e1
      simp only [Res.bind_eq_ok, Res.pure_eq, Res.ok.injEq] at e1
      obtain ⟨g1, k1, g2, k2, rfl⟩ := e1
      have nd := (done_neat he hn hd).1
      have i1 := headerSet_inv nd.1 k1
      have n1 := neat_set nd k1 (by decide) (clean_sha he _)
      have n2 := neat_fields n1 (identSet_inv k2).1
      have hg2 : ∀ m, strcasecmp m b!"WARC-Payload-Digest" ≠ .eq → headerGet g2 m = headerGet s.hdr m := by
        intro m hm
        rw [get_of_fields (identSet_inv k2).1, i1.2.2.2.1, if_neg hm]
      have hsr : SegsR env 1 ({ s with hdr := g2, silo := { s.silo with hd := g2 } } :: ss) := by
        refine ⟨⟨h1, fun h a b => done_ready he hn hsh hd (by omega) (by omega) a b, n2, u3, u4, fun h => absurd rfl h, ?_, ?_, fun h => absurd rfl h, ?_, ?_,
          fun h => absurd rfl h⟩, ?_⟩
        · obtain ⟨q1, -⟩ := done_fields (fun d => (he.sha d).1) hj hd
          rw [← q1]
          exact typeFlag_congr (hg2 _ (by decide))
        · obtain ⟨-, q2, -⟩ := done_fields (fun d => (he.sha d).1) hj hd
          rw [← q2]
          exact hg2 _ (by decide)
        · obtain ⟨-, -, -, t2, -⟩ := segDone_hdr (fun d => (he.sha d).1) hj hd
          rw [← t2]; exact hg2 _ (by decide)
        · obtain ⟨-, -, t1, -⟩ := segDone_hdr (fun d => (he.sha d).1) hj hd
          rw [← t1]; exact hg2 _ (by decide)
        refine done_segsR he hj hn hsh ss hrest (by omega) (by omega) (by omega) ?_
        rw [hsz, hb.size]
        omega
      obtain ⟨Y, l, I, y1, y2, y3, y4, y5, y6⟩ := segsCut_real he u3 u4 hu _ ha hw hsr (by
        intro t ht
        rcases List.mem_cons.1 ht with rfl | ht
        · exact hown s (by simp)
        · exact hown t (List.mem_cons_of_mem _ ht)) hnd e4
      refine ⟨Y, l, I, y1, y2, y3, y4, ?_⟩
      cases l with
      | nil => exact .inl rfl
      | cons x ys =>
        obtain ⟨q1, q2⟩ := y5 x _ rfl rfl
        have q1 : x.hdr.id = g2.id := q1
        refine .inr ⟨x, ys, rfl, ?_, by rw [q1]; exact u4, ?_⟩
        · rw [q2, ← f2]
          exact hg2 _ (by decide)
        · rw [q1]
          rcases y6 with y6 | ⟨y6, y7⟩
          · exact .inr (.inr y6)
          · refine .inr (.inl ⟨fun h0 => ?_, y7⟩)
            rw [h0] at y6
            simp only [List.length_cons, List.length_nil] at y6
            exact hss (List.length_eq_zero_iff.1 (by omega))

/-- What a store that is cut off leaves in the silos. -/
theorem storeCut_real {σ : Type} {env : Env} {D : Deflater σ} (hz : Zlib D) (he : EnvOk env) {G : Nat → Option Silo} {fuel : Nat} {w w' : World} {h : Hdr} (hj : GoodJob env h)
    {ident : Option Bytes} {cs : List Bytes} (hc : GoodInput env cs) {ops : List IdxOp} {A : List Item} (ha : ArchInv env (withGhosts G w) ops A)
    (hw : Haunted w G) {k : Nat} {a : At} (hu : Untorn env a) (e : storeCut env D fuel w h ident cs k a = .ok w') :
    ∃ Y Z I, LayStep w.silos w'.silos Y ∧ (∀ z ∈ Y, Onsite env w'.silos z) ∧ Y.Perm (Z ++ I) ∧ (∀ y ∈ I, InfoItem env y) ∧ Stump env h Z := by
  unfold storeCut at e
  simp only [Res.bind_eq_ok] at e
  obtain ⟨sj, e0, ⟨w1, sj1⟩, e1, ⟨w2, sj2⟩, e2, e3⟩ := e
  simp only at e2 e3
  obtain ⟨a1, a2, a3, a4, a5, a6⟩ := fed_inv hz he.max hc.1 hc.2.1 e0 e1 e2
  obtain ⟨f1, f2⟩ := fed_fresh e0 e1 e2
  have hp := a1.payload
  rw [a5] at hp
  simp only [curContent, Option.map_none, Option.getD_none, List.append_nil] at hp
  have hnd := a1.rising.1
  have hown := a1.owned
  rw [a5] at hnd hown
  simp only [curNo, Option.map_none, Option.toList_none, List.append_nil] at hnd hown
  have hn : nos sj2 = sj2.segs.map (·.silo.no) := by unfold nos; rw [a5]; simp [curNo]
  rw [hn] at a6 f2
  have hw2 : Haunted w2 G := fun n h => ⟨by rw [a6.silos]; exact (hw n h).1, f1 n (hw n h).2⟩
  have hG : ∀ n ∈ sj2.segs.map (·.silo.no), G n = none := by
    intro n hm
    cases hg : G n with
    | none => rfl
    | some f =>
      have := (hw n (by rw [hg]; simp)).2
      rw [f2 n hm] at this
      cases this
  have ha2 := archInv_same (w' := withGhosts G w2) ha (by exact a6.dir) (ghosts_congr a6.silos)
  have h := jobCut_real he (by rw [a3]; exact hj.1) (by rw [a3]; exact hj.2.1) (by rw [a3]; exact hj.2.2) a1.segs hp
    (by rw [a2]; exact hc.2.2) hnd (fun s hs => ⟨hG _ (List.mem_map_of_mem hs), hown _ (List.mem_map_of_mem hs)⟩) ha2 hw2 hu e3
  rw [a6.silos, a3] at h
  exact h

/-! ### What is there -/

/-- The records consist of objects in one record, objects in several records, first segments of objects, and warcinfo records. -/
structure Pieces (env : Env) (R P : List Item) (objs brk : List (Item × List Item)) (I : List Item) : Prop where
  perm : R.Perm (P ++ (objs.flatMap (fun o => o.1 :: o.2) ++ (brk.flatMap (fun o => o.1 :: o.2) ++ I)))
  plain : ∀ x ∈ P, PlainHdr x ∧ Typed x.hdr
  several : ∀ o ∈ objs, o.2 ≠ [] ∧ SegHdrs env.pfx o.1.hdr.id 1 (o.1 :: o.2) ∧ Typed o.1.hdr ∧ o.1.hdr.id.length = env.idSize
  broken : ∀ o ∈ brk, SegPre env.pfx o.1.hdr.id 1 (o.1 :: o.2) ∧ Typed o.1.hdr ∧ o.1.hdr.id.length = env.idSize
  info : ∀ y ∈ I, InfoItem env y

/-- One of the objects. -/
def Among (P : List Item) (objs : List (Item × List Item)) (x : Item) (ys : List Item) : Prop := ys = [] ∧ x ∈ P ∨ (x, ys) ∈ objs

theorem perm_third {α : Type} {A X a b c d e f : List α} (h1 : A.Perm (a ++ (b ++ (c ++ d)))) (h2 : X.Perm (e ++ f)) :
    (A ++ X).Perm (a ++ (b ++ ((e ++ c) ++ (d ++ f)))) := by
  rw [← List.append_assoc] at h1
  have := perm_second h1 h2
  rwa [List.append_assoc] at this

theorem pieces_info {env : Env} {R P : List Item} {objs brk : List (Item × List Item)} {I Y : List Item} (h : Pieces env R P objs brk I) (hY : ∀ y ∈ Y, InfoItem env y) :
    Pieces env (R ++ Y) P objs brk (I ++ Y) := by
  refine ⟨?_, h.plain, h.several, h.broken, ?_⟩
  · have := perm_third h.perm (e := []) (f := Y) (.refl _)
    simpa using this
  · intro z hz
    exact (List.mem_append.1 hz).elim (h.info z) (hY z)

theorem pieces_object {env : Env} {R P : List Item} {objs brk : List (Item × List Item)} {I : List Item} (h : Pieces env R P objs brk I) {X I2 : List Item} {x : Item} {ys : List Item}
    (hX : X.Perm (x :: ys ++ I2)) (hI : ∀ y ∈ I2, InfoItem env y) (ht : Typed x.hdr) (hl : x.hdr.id.length = env.idSize)
    (ho : ys = [] ∧ PlainHdr x ∨ ys ≠ [] ∧ SegHdrs env.pfx x.hdr.id 1 (x :: ys)) :
    ∃ P' objs', Pieces env (R ++ X) P' objs' brk (I ++ I2) ∧ Among P' objs' x ys ∧ ∀ u us, Among P objs u us → Among P' objs' u us := by
  rcases ho with ⟨rfl, ho⟩ | ⟨hne, ho⟩
  · refine ⟨x :: P, objs, ⟨?_, ?_, h.several, h.broken, ?_⟩, .inl ⟨rfl, by simp⟩, ?_⟩
    · have hp := h.perm
      rw [← List.append_assoc (objs.flatMap _)] at hp
      have := perm_first hp hX
      rwa [List.append_assoc (objs.flatMap _)] at this
    · intro z hz
      rcases List.mem_cons.1 hz with rfl | hz
      · exact ⟨ho, ht⟩
      · exact h.plain z hz
    · intro z hz
      exact (List.mem_append.1 hz).elim (h.info z) (hI z)
    · rintro u us (⟨a, b⟩ | a)
      · exact .inl ⟨a, by simp [b]⟩
      · exact .inr a
  · refine ⟨P, (x, ys) :: objs, ⟨?_, h.plain, ?_, h.broken, ?_⟩, .inr (by simp), ?_⟩
    · have := perm_second h.perm hX
      rwa [List.append_assoc (brk.flatMap _)] at this
    · intro z hz
      rcases List.mem_cons.1 hz with rfl | hz
      · exact ⟨hne, ho, ht, hl⟩
      · exact h.several z hz
    · intro z hz
      exact (List.mem_append.1 hz).elim (h.info z) (hI z)
    · rintro u us (a | a)
      · exact .inl a
      · exact .inr (by simp [a])

theorem pieces_stump {env : Env} {R P : List Item} {objs brk : List (Item × List Item)} {I : List Item} (h : Pieces env R P objs brk I) {Y Z J : List Item} {jh : Hdr}
    (hY : Y.Perm (Z ++ J)) (hJ : ∀ y ∈ J, InfoItem env y) (hs : Stump env jh Z) (ht : Typed jh) :
    ∃ P' objs' brk' I', Pieces env (R ++ Y) P' objs' brk' I' ∧ ∀ u us, Among P objs u us → Among P' objs' u us := by
  rcases hs with rfl | ⟨x, ys, rfl, h1, h2, h3⟩
  · refine ⟨P, objs, brk, I ++ Y, pieces_info h (fun y hy => hJ y (by simpa using hY.mem_iff.1 hy)), fun _ _ h => h⟩
  · have hty : Typed x.hdr := by unfold Typed at ht ⊢; rw [h1]; exact ht
    have close : (ys = [] ∧ PlainHdr x ∨ ys ≠ [] ∧ SegHdrs env.pfx x.hdr.id 1 (x :: ys)) →
        ∃ P' objs' brk' I', Pieces env (R ++ Y) P' objs' brk' I' ∧ ∀ u us, Among P objs u us → Among P' objs' u us := by
      intro ho
      obtain ⟨P', objs', a, -, b⟩ := pieces_object h hY hJ hty h2 ho
      exact ⟨P', objs', brk, _, a, b⟩
    rcases h3 with h3 | h3 | h3
    · exact close (.inl h3)
    · exact close (.inr h3)
    · refine ⟨P, objs, (x, ys) :: brk, I ++ J, ⟨?_, h.plain, h.several, ?_, ?_⟩, fun _ _ h => h⟩
      · exact perm_third h.perm hY
      · intro z hz
        rcases List.mem_cons.1 hz with rfl | hz
        · exact ⟨h3, hty, h2⟩
        · exact h.broken z hz
      · intro z hz
        exact (List.mem_append.1 hz).elim (h.info z) (hJ z)

end Verif.Props
