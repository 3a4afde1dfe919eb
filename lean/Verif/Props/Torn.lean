/-
Property C74: silos that were cut short.
-/
import Verif.Props.AuditArch
import Verif.Props.MainGet

namespace Verif.Props
open Verif Gzip Header Inflate Rsilo Audit
open _root_.Verif.Getjob (GSeg GJ getjobIterate iterPlain)

/-! ### Where a silo is cut -/

/-- A cut that is not at the start of a record is in the middle of one. -/
theorem torn_at (l : List Rec) : ∀ (off k : Nat), k < (siloBytes l).length → off + k ∉ offsets off l →
    ∃ l1 r l2 j, l = l1 ++ r :: l2 ∧ 0 < j ∧ j < r.bytes.length ∧ (siloBytes l).take k = siloBytes l1 ++ r.bytes.take j := by
  induction l with
  | nil => intro off k hk; simp [siloBytes] at hk
  | cons r l ih =>
    intro off k hk hn
    simp only [offsets, List.mem_cons, not_or] at hn
    have hs : siloBytes (r :: l) = r.bytes ++ siloBytes l := by simp [siloBytes]
    rw [hs] at hk ⊢
    rw [List.length_append] at hk
    by_cases h : k < r.bytes.length
    · refine ⟨[], r, l, k, rfl, by omega, h, ?_⟩
      rw [List.take_append_of_le_length (by omega)]
      simp [siloBytes]
    · obtain ⟨l1, r1, l2, j, e1, e2, e3, e4⟩ := ih (off + r.bytes.length) (k - r.bytes.length) (by omega)
        (by rw [show off + r.bytes.length + (k - r.bytes.length) = off + k by omega]; exact hn.2)
      refine ⟨r :: l1, r1, l2, j, by rw [e1]; rfl, e2, e3, ?_⟩
      rw [take_append_le _ _ _ (by omega), e4]
      simp [siloBytes]

/-- What is left of a gzip member that was cut short is none. -/
theorem member_torn {gz data : Bytes} (h : Member gz data) {n : Nat} (hn : n < gz.length) : gunzip1 (gz.take n) = none := by
  cases e : gunzip1 (gz.take n) with
  | none => rfl
  | some p =>
    obtain ⟨out, rest⟩ := p
    obtain ⟨c, h1, -, h2⟩ := gunzip1_local e
    have h3 := h2 (rest ++ gz.drop n)
    rw [← List.append_assoc, ← h1, List.take_append_drop] at h3
    have h4 := member_gunzip1 h []
    rw [List.append_nil, h3] at h4
    simp only [Option.some.injEq, Prod.mk.injEq] at h4
    have := congrArg List.length h4.2
    rw [List.length_append, List.length_drop, List.length_nil] at this
    omega

theorem readAa_short {t : Bytes} (h : t.length < 24) : ∀ x, readAa t t.length ≠ .ok x := by
  intro x e
  unfold readAa Res.access at e
  simp only [Res.bind_eq_ok] at e
  obtain ⟨g, -, _, -, _, -, _, e, -⟩ := e
  rw [decide_eq_false (by omega)] at e
  cases e

theorem drop_torn (pre t : Bytes) : (pre ++ t).drop pre.length = t := List.drop_left' rfl

/-- The header of a record of which less than the header and the start of the body are left can not be read. -/
theorem readHeader_torn {ps : Nat} {pfx pre : Bytes} {r : Rec} {h : Hdr} (hc : r.Complete pfx h) (hf : r.Fits ps) (bl : Int) {j : Nat} (h0 : 0 < j)
    (hj : j < r.hgz.length + 24) : ∀ x, readHeader ps pfx { file := pre ++ r.bytes.take j, pos := pre.length, bodylen := bl, whr := .head } ≠ .ok x := by
  intro x e
  have hpk := hf.packed
  have hb := member_length hc.body
  have hlen : j < r.bytes.length := by simp only [Rec.bytes, List.length_append]; omega
  have hread : Rsilo.read { file := pre ++ r.bytes.take j, pos := pre.length, bodylen := bl, whr := .head } ps = r.bytes.take j := by
    unfold Rsilo.read
    simp only
    rw [drop_torn, List.take_of_length_le (by rw [List.length_take]; omega)]
  unfold readHeader at e
  simp only [decide_true, Res.check_true, Res.ok_bind, hread] at e
  rw [if_neg (by intro h; have := congrArg List.length h; rw [List.length_take, List.length_nil] at this; omega)] at e
  by_cases hlt : j < r.hgz.length
  · rw [Rec.bytes, List.append_assoc, List.take_append_of_le_length (by omega), member_torn hc.head hlt] at e
    cases e
  · rw [Rec.bytes, List.append_assoc, take_append_le _ _ _ (by omega), member_gunzip1 hc.head] at e
    simp only [Res.bind_eq_ok] at e
    obtain ⟨-, -, b, e, -⟩ := e
    exact readAa_short (by rw [List.length_take]; omega) b e

/-- The header of a record of which more is left is read as if all were there. -/
theorem readHeader_part {ps : Nat} {pfx pre : Bytes} {r : Rec} {h : Hdr} (hc : r.Complete pfx h) (hf : r.Fits ps) (bl : Int) {j : Nat}
    (hj : r.hgz.length + 24 ≤ j) :
    readHeader ps pfx { file := pre ++ r.bytes.take j, pos := pre.length, bodylen := bl, whr := .head } =
      .ok (some h, atBody (pre ++ r.bytes.take j) pre.length r) := by
  obtain ⟨rs, hrs⟩ : ∃ rs : Rs, rs = { file := pre ++ r.bytes.take j, pos := pre.length, bodylen := bl, whr := .head } := ⟨_, rfl⟩
  have hpk := hf.packed
  obtain ⟨m, hm, hm24⟩ : ∃ m, m = min (ps - r.hgz.length) (j - r.hgz.length) ∧ 24 ≤ m := ⟨_, rfl, by omega⟩
  have hread : Rsilo.read rs ps = r.hgz ++ (r.bgz ++ separator).take m := by
    unfold Rsilo.read
    rw [hrs]
    simp only
    rw [drop_torn, Rec.bytes, List.append_assoc, take_append_le _ _ _ (by omega), take_append_le _ _ _ (by omega), List.take_take, hm]
  have hb := member_length hc.body
  have hbl : readAa ((r.bgz ++ separator).take m) ((r.bgz ++ separator).take m).length = .ok (r.bgz.length : Int) := by
    by_cases hle : m ≤ r.bgz.length
    · have := member_readAa hc.body (r.bgz.take m) (by rw [List.length_take]; omega) (r.bgz.drop m) (List.take_append_drop _ _) []
      rw [List.append_nil] at this
      rw [List.take_append_of_le_length hle]
      exact this
    · have := member_readAa hc.body r.bgz (by omega) [] (by simp) (separator.take (m - r.bgz.length))
      rw [take_append_le _ _ _ (by omega)]
      exact this
  have hparse : headerParse pfx (cstr r.text) = .ok h := by rw [cstr_eq hc.nonul]; exact hc.parse
  rw [← hrs]
  rw [readHeader_page (by rw [hrs]) (by rw [hread]; exact member_gunzip1 hc.head _) hf.plain hbl hparse]
  rw [hread, List.length_append, Nat.add_sub_cancel, hrs]
  rfl

/-- What is read of the body of such a record. -/
theorem body_torn {pre : Bytes} {r : Rec} {j : Nat} (hj : r.hgz.length ≤ j) :
    (atBody (pre ++ r.bytes.take j) pre.length r).file.drop (atBody (pre ++ r.bytes.take j) pre.length r).pos = (r.bgz ++ separator).take (j - r.hgz.length) := by
  unfold atBody
  simp only
  rw [Rec.bytes, List.append_assoc, take_append_le _ _ _ hj, ← List.append_assoc, List.drop_left' (by simp only [List.length_append])]

theorem readChunk_torn {σ : Type} {pfx pre : Bytes} {r : Rec} {h : Hdr} (hc : r.Complete pfx h) (cut : Bytes → List Bytes) (func : ByteIter σ) (s : σ) {j : Nat}
    (h1 : r.hgz.length ≤ j) (h2 : j < r.hgz.length + r.bgz.length) : readChunk cut func (atBody (pre ++ r.bytes.take j) pre.length r) s = .fail := by
  unfold readChunk
  rw [body_torn h1, List.take_append_of_le_length (by omega), member_torn hc.body (by omega)]
  rfl

/-- A record of which some bytes are missing at the end stops the audit. -/
theorem auditLoop_torn {ps : Nat} {pfx : Bytes} {cut : Bytes → List Bytes} {sha : Bytes → Bytes} {idSize : Nat} {ign : Bool} {silo : Nat} {pre : Bytes} {r : Rec} {h : Hdr}
    (hc : r.Complete pfx h) (hf : r.Fits ps) (bl : Int) {j : Nat} (h0 : 0 < j) (hj : j < r.bytes.length) (fuel : Nat) :
    ∀ res, auditLoop ps pfx cut sha idSize ign silo fuel { file := pre ++ r.bytes.take j, pos := pre.length, bodylen := bl, whr := .head } ≠ .ok res := by
  intro res e
  cases fuel with
  | zero => cases e
  | succ fuel =>
    rw [auditLoop] at e
    by_cases h24 : j < r.hgz.length + 24
    · rw [Res.bind_eq_ok] at e
      obtain ⟨x, e, -⟩ := e
      exact readHeader_torn hc hf bl h0 h24 x e
    · rw [readHeader_part hc hf bl (by omega)] at e
      simp only [Res.ok_bind, Res.bind_eq_ok] at e
      obtain ⟨-, -, b, eb, rs2, es, -⟩ := e
      by_cases hb : j < r.hgz.length + r.bgz.length
      · rw [readChunk_torn hc cut auditIter [] (by omega) hb] at eb
        cases eb
      · have hbytes : r.bytes.length = r.hgz.length + r.bgz.length + 24 := by simp only [Rec.bytes, List.length_append]; rfl
        unfold readChunk at eb
        rw [body_torn (by omega), take_append_le _ _ _ (by omega), member_gunzip1 hc.body] at eb
        simp only [Res.bind_eq_ok, Res.pure_eq, Res.ok.injEq] at eb
        obtain ⟨-, -, d, -, rfl⟩ := eb
        unfold skipCRNL at es
        simp only [Res.bind_eq_ok, Res.check_eq_ok, exists_const] at es
        obtain ⟨-, es, -⟩ := es
        have es := of_decide_eq_true es
        unfold Rsilo.read atBody at es
        simp only [List.length_take, List.length_drop, List.length_append] at es
        have hsep : separator.length = 24 := rfl
        rw [show crnlcrnl.length = 24 from rfl, hsep] at es
        omega

/-- C74: the audit of a silo that was cut short in the middle of a record does not come to its end: an assertion fails. -/
theorem C74_audit_partial {ps : Nat} {pfx : Bytes} {cut : Bytes → List Bytes} (hcut : ∀ b, (cut b).flatten = b) {sha : Bytes → Bytes} {idSize : Nat} {ign : Bool} {silo fuel : Nat}
    (l : List (Rec × Hdr)) (hl : ∀ x ∈ l, x.1.Complete pfx x.2 ∧ x.1.Fits ps) {k : Nat} (hk : k < (siloBytes (l.map (·.1))).length)
    (hn : k ∉ offsets 0 (l.map (·.1))) :
    ∀ res, auditSilo ps pfx cut sha idSize ign silo fuel ((siloBytes (l.map (·.1))).take k) ≠ .ok res := by
  obtain ⟨l1, r, l2, j, e1, e2, e3, e4⟩ := torn_at (l.map (·.1)) 0 k hk (by rw [Nat.zero_add]; exact hn)
  rw [e4]
  obtain ⟨m1, m2, rfl, rfl, e5⟩ := List.map_eq_append_iff.1 e1
  obtain ⟨x, m3, rfl, rfl, rfl⟩ := List.map_eq_cons_iff.1 e5
  obtain ⟨hc, hf⟩ := hl x (by simp)
  -- the records in front of it
  have key : ∀ (m : List (Rec × Hdr)) (pre : Bytes) (fuel : Nat) (bl : Int), (∀ y ∈ m, y.1.Complete pfx y.2 ∧ y.1.Fits ps) → ∀ res,
      auditLoop ps pfx cut sha idSize ign silo fuel
        { file := pre ++ (siloBytes (m.map (·.1)) ++ x.1.bytes.take j), pos := pre.length, bodylen := bl, whr := .head } ≠ .ok res := by
    intro m
    induction m with
    | nil =>
      intro pre fuel bl _ res
      simpa [siloBytes] using auditLoop_torn hc hf bl e2 e3 fuel res
    | cons y m ih =>
      intro pre fuel bl hm res e
      cases fuel with
      | zero => cases e
      | succ fuel =>
        obtain ⟨hc1, hf1⟩ := hm y (by simp)
        have hfile : pre ++ (siloBytes ((y :: m).map (·.1)) ++ x.1.bytes.take j) = pre ++ y.1.bytes ++ (siloBytes (m.map (·.1)) ++ x.1.bytes.take j) := by
          simp [siloBytes]
        have hdel : Rsilo.deliver auditIter (cut y.1.data) [] = .ok (y.1.data, true) := by
          have := deliver_collectIter (cut y.1.data) []
          rw [hcut] at this
          exact this
        rw [hfile, auditLoop, readHeader_rec hc1 hf1 bl] at e
        simp only [Res.ok_bind] at e
        rw [readChunk_rec hc1, hdel] at e
        simp only [Res.ok_bind, Res.pure_eq, skipCRNL_rec, Res.bind_eq_ok] at e
        obtain ⟨-, -, -, -, l2, e, -⟩ := e
        exact ih (pre ++ y.1.bytes) fuel _ (fun z hz => hm z (by simp [hz])) l2 e
  intro res e
  unfold auditSilo rsOpen at e
  exact key m1 [] fuel 0 (fun y hy => hl y (by simp [hy])) res (by simpa using e)

/-- C74 does not hold for a cut between two records: the audit of what is left comes to its end and has nothing to say. -/
theorem C74_counterexample_between {ps : Nat} {pfx : Bytes} {cut : Bytes → List Bytes} (hcut : ∀ b, (cut b).flatten = b) {sha : Bytes → Bytes} {idSize : Nat} {ign : Bool}
    {silo fuel : Nat} (l1 l2 : List (Rec × Hdr)) (hl : ∀ x ∈ l1 ++ l2, x.1.Complete pfx x.2 ∧ x.1.Fits ps ∧ Intact sha idSize ign x.2 x.1.data) (hfuel : l1.length < fuel) :
    ∃ k res, k = (siloBytes (l1.map (·.1))).length ∧ auditSilo ps pfx cut sha idSize ign silo fuel ((siloBytes ((l1 ++ l2).map (·.1))).take k) = .ok res ∧
      (∀ x ∈ res, x.2.1 = []) ∧ res.map (·.1.hdr) = l1.map (·.2) := by
  refine ⟨_, (apsOf silo 0 l1).map fun a => (a, [], segOfHdr a.hdr), rfl, ?_, ?_, ?_⟩
  · have := auditLoop_intact (ps := ps) (pfx := pfx) hcut (sha := sha) (idSize := idSize) (ign := ign) (silo := silo) l1 [] fuel 0
      (fun x hx => hl x (by simp [hx])) hfuel
    unfold auditSilo rsOpen
    rw [List.map_append, show siloBytes (l1.map (·.1) ++ l2.map (·.1)) = siloBytes (l1.map (·.1)) ++ siloBytes (l2.map (·.1)) by simp [siloBytes],
      List.take_left' rfl]
    simpa using this
  · intro x hx
    obtain ⟨a, -, rfl⟩ := List.mem_map.1 hx
    rfl
  · rw [List.map_map, ← apsOf_hdr silo l1 0]
    rfl

/-! ### Reindexing -/

/-- C74 does not hold for reindexing: the headers that it reads from a silo whose last record was cut short are those of the
whole one, if the header and 24 bytes of the body are left. -/
theorem C74_counterexample_reindex {ps : Nat} {pfx : Bytes} (l : List (Rec × Hdr)) {r : Rec} {h : Hdr} (hl : ∀ x ∈ l ++ [(r, h)], x.1.Complete pfx x.2 ∧ x.1.Fits ps)
    {j : Nat} (hj : r.hgz.length + 24 ≤ j) {fuel : Nat} (hfuel : l.length + 1 < fuel) :
    scanHeaders ps pfx fuel (rsOpen (siloBytes (l.map (·.1)) ++ r.bytes.take j) 0) =
      scanHeaders ps pfx fuel (rsOpen (siloBytes ((l ++ [(r, h)]).map (·.1))) 0) := by
  rw [C23_enumerate_headers ps pfx (l ++ [(r, h)]) hl fuel (by simpa using hfuel)]
  obtain ⟨hc, hf⟩ := hl (r, h) (by simp)
  have key : ∀ (m : List (Rec × Hdr)) (pre : Bytes) (fuel : Nat) (bl : Int), (∀ y ∈ m, y.1.Complete pfx y.2 ∧ y.1.Fits ps) → m.length + 1 < fuel →
      scanHeaders ps pfx fuel { file := pre ++ (siloBytes (m.map (·.1)) ++ r.bytes.take j), pos := pre.length, bodylen := bl, whr := .head } =
        .ok ((offsets pre.length ((m ++ [(r, h)]).map (·.1))).zip ((m ++ [(r, h)]).map fun x => (x.2, (x.1.bgz.length : Int)))) := by
    intro m
    induction m with
    | nil =>
      intro pre fuel bl _ hf2
      obtain ⟨f, rfl⟩ : ∃ f, fuel = f + 2 := ⟨fuel - 2, by simp at hf2; omega⟩
      simp only [List.map_nil, siloBytes, List.flatten_nil, List.nil_append, List.map_cons, offsets, List.zip_cons_cons, List.zip_nil_left]
      rw [scanHeaders, readHeader_part hc hf bl hj]
      simp only [Res.ok_bind]
      rw [show bodyLen (atBody (pre ++ r.bytes.take j) pre.length r) = .ok (r.bgz.length : Int) from rfl]
      have hnext : nextHeader (atBody (pre ++ r.bytes.take j) pre.length r) =
          .ok { file := pre ++ r.bytes.take j, pos := (pre ++ r.bytes).length, bodylen := r.bgz.length, whr := .head } := by
        unfold nextHeader atBody
        simp only [decide_true, Res.check_true, Res.ok_bind]
        rw [show crnlcrnl.length = 24 from rfl, decide_eq_true (by omega)]
        simp only [Res.check_true, Res.ok_bind]
        congr 1
        simp only [Rs.mk.injEq, true_and, and_true]
        simp only [Rec.bytes, List.length_append, show separator.length = 24 from rfl]
        omega
      simp only [Res.ok_bind, hnext]
      rw [scanHeaders, readHeader_eof rfl (by simp only [List.length_append, List.length_take]; omega)]
      rfl
    | cons y m ih =>
      intro pre fuel bl hm hf2
      obtain ⟨f, rfl⟩ : ∃ f, fuel = f + 1 := ⟨fuel - 1, by omega⟩
      obtain ⟨hc1, hf1⟩ := hm y (by simp)
      have hfile : pre ++ (siloBytes ((y :: m).map (·.1)) ++ r.bytes.take j) = pre ++ y.1.bytes ++ (siloBytes (m.map (·.1)) ++ r.bytes.take j) := by
        simp [siloBytes]
      rw [hfile, scanHeaders, readHeader_rec hc1 hf1]
      simp only [Res.ok_bind]
      rw [show bodyLen (atBody (pre ++ y.1.bytes ++ (siloBytes (m.map (·.1)) ++ r.bytes.take j)) pre.length y.1) = .ok (y.1.bgz.length : Int) from rfl]
      simp only [Res.ok_bind]
      rw [nextHeader_rec]
      simp only [Res.ok_bind]
      rw [ih (pre ++ y.1.bytes) f _ (fun z hz => hm z (by simp [hz])) (by simp only [List.length_cons] at hf2; omega)]
      simp only [Res.ok_bind, Res.pure_eq, List.cons_append, List.map_cons, offsets, List.zip_cons_cons, List.length_append]
  have := key l [] fuel 0 (fun y hy => hl y (by simp [hy])) hfuel
  simpa [rsOpen] using this

/-! ### Getting an object -/

/-- A segment whose record was cut short in the body. -/
def TornSeg (pfx : Bytes) (r : Rec) (j : Nat) (g : GSeg) : Prop :=
  ∃ pre h, r.Complete pfx h ∧ r.hgz.length ≤ j ∧ j < r.hgz.length + r.bgz.length ∧ g.rs = atBody (pre ++ r.bytes.take j) pre.length r

theorem deliver_content {σ : Type} {func : σ → Bytes → σ × Int} (hfun : ∀ s d, (func s d).2 = 0) (cs : List Bytes) : ∀ s,
    ∃ s', Rsilo.deliver (fun s d => .ok (func s d)) cs s = .ok (s', true) := by
  induction cs with
  | nil => intro s; exact ⟨s, rfl⟩
  | cons c cs ih =>
    intro s
    unfold Rsilo.deliver
    simp only [Res.ok_bind, hfun, ne_eq, not_true_eq_false, if_false]
    exact ih _

theorem readChunk_pos {cut : Bytes → List Bytes} {σ : Type} {func : σ → Bytes → σ × Int} (hfun : ∀ s d, (func s d).2 = 0) {rs : Rs} {s : σ} {q : σ × Rs × Nat}
    (e : readChunk cut (fun s d => .ok (func s d)) rs s = .ok q) : q.2.2 ≠ 0 := by
  unfold readChunk at e
  simp only [Res.bind_eq_ok, Res.check_eq_ok, exists_const] at e
  obtain ⟨-, e⟩ := e
  split at e
  · cases e
  · rename_i out rest hg
    obtain ⟨c, h1, h2, -⟩ := gunzip1_local hg
    obtain ⟨s', hd⟩ := deliver_content hfun (cut out) s
    rw [hd] at e
    simp only [Res.ok_bind, Res.pure_eq, Res.ok.injEq, if_true] at e
    rw [← e]
    simp only
    rw [h1, List.length_append]
    have := List.length_pos_iff.mpr h2
    omega

/-- C74: `get` without `-z` never succeeds for an object one of whose records was cut short in the body: an assertion fails.
(The function that takes the contents is content with everything, as that of `get` is.) -/
theorem C74_get {ps : Nat} {pfx : Bytes} {cut : Bytes → List Bytes} {σ : Type} (func : σ → Bytes → σ × Int) (hfun : ∀ s d, (func s d).2 = 0) {gj : GJ} {r : Rec} {j : Nat}
    {g : GSeg} (hg : g ∈ gj.segs) (ht : TornSeg pfx r j g) (s : σ) :
    ∀ x, getjobIterate ps cut gj func s false ≠ .ok x := by
  unfold getjobIterate
  rw [if_pos rfl]
  generalize gj.segs = gs at hg
  induction gs generalizing s with
  | nil => cases hg
  | cons a gs ih =>
    intro x e
    unfold iterPlain at e
    rw [Res.bind_eq_ok] at e
    obtain ⟨q, e1, e2⟩ := e
    rcases List.mem_cons.1 hg with rfl | hg
    · obtain ⟨pre, h, hc, h1, h2, h3⟩ := ht
      rw [h3, readChunk_torn hc cut _ s h1 h2] at e1
      cases e1
    · rw [if_neg (readChunk_pos hfun e1)] at e2
      exact ih q.1 hg x e2

theorem gzLoop_short {ps : Nat} (hps : 0 < ps) (fuel : Nat) : ∀ (pre t : Bytes) (n : Nat) (s : Bytes) (ll : Nat), t.length < n → t.length < fuel →
    ∃ rs, gzLoop ps (fun s d => .ok (collect s d)) fuel { file := pre ++ t, pos := pre.length, bodylen := n, whr := .body } s ll = .ok (s ++ t, rs, 0) := by
  induction fuel with
  | zero => intro pre t n s ll _ h; omega
  | succ fuel ih =>
    intro pre t n s ll hn hf
    unfold gzLoop
    have hread : Rsilo.read { file := pre ++ t, pos := pre.length, bodylen := n, whr := .body } (min (32 * ps) ((n : Int).toNat)) = t.take (32 * ps) := by
      unfold Rsilo.read
      simp only
      rw [drop_torn, Int.toNat_natCast]
      by_cases h : 32 * ps ≤ n
      · rw [Nat.min_eq_left h]
      · rw [Nat.min_eq_right (by omega), List.take_of_length_le (by omega), List.take_of_length_le (by omega)]
    simp only [hread]
    by_cases ht : t = []
    · subst ht
      rw [if_pos (by simp)]
      rw [List.append_nil, List.append_nil]
      exact ⟨_, rfl⟩
    · have hlen := List.length_pos_iff.mpr ht
      have hl : (t.take (32 * ps)).length = min (32 * ps) t.length := List.length_take
      rw [if_neg (by intro h; have := congrArg List.length h; rw [hl, List.length_nil] at this; omega)]
      unfold collect
      simp only [Res.ok_bind, ne_eq, not_true_eq_false, if_false]
      rw [if_pos (by rw [hl]; omega)]
      obtain ⟨rs, h⟩ := ih (pre ++ t.take (32 * ps)) (t.drop (32 * ps)) (n - (t.take (32 * ps)).length) (s ++ t.take (32 * ps)) (ll + (t.take (32 * ps)).length)
        (by rw [List.length_drop, hl]; omega) (by rw [List.length_drop]; omega)
      refine ⟨rs, ?_⟩
      have hnat : ((n - (t.take (32 * ps)).length : Nat) : Int) = (n : Int) - ((t.take (32 * ps)).length : Nat) := by rw [hl]; omega
      rw [List.append_assoc, List.take_append_drop, List.append_assoc, List.take_append_drop, List.length_append, hnat] at h
      exact h

/-- C74 does not hold for `get -z`: of an object in one record that was cut short in the body it delivers what is left of the
gzip member, which is none, and exits with success. -/
theorem C74_counterexample_zip {ps : Nat} (hps : 0 < ps) {pfx : Bytes} {cut : Bytes → List Bytes} {gj : GJ} {r : Rec} {j : Nat} {g : GSeg} (hg : gj.segs = [g])
    (ht : TornSeg pfx r j g) : getjobIterate ps cut gj collect [] true = .ok (r.bgz.take (j - r.hgz.length)) ∧ gunzip1 (r.bgz.take (j - r.hgz.length)) = none := by
  obtain ⟨pre, h, hc, h1, h2, h3⟩ := ht
  refine ⟨?_, member_torn hc.body (by omega)⟩
  obtain ⟨rs, e⟩ := gzLoop_short hps (r.bgz.length + 1) (pre ++ r.hgz) (r.bgz.take (j - r.hgz.length)) r.bgz.length [] 0
    (by rw [List.length_take]; omega) (by rw [List.length_take]; omega)
  have hfile : pre ++ r.bytes.take j = pre ++ r.hgz ++ r.bgz.take (j - r.hgz.length) := by
    rw [Rec.bytes, List.append_assoc, take_append_le _ _ _ h1, List.take_append_of_le_length (by omega), List.append_assoc]
  unfold getjobIterate
  rw [if_neg (by simp), hg]
  simp only
  unfold readGZChunk
  rw [h3, show (atBody (pre ++ r.bytes.take j) pre.length r).whr = .body from rfl, show (atBody (pre ++ r.bytes.take j) pre.length r).bodylen.toNat = r.bgz.length from rfl]
  unfold atBody
  rw [hfile]
  rw [List.length_append] at e
  simp only [decide_true, Res.check_true, Res.ok_bind, e]
  rfl

end Verif.Props
