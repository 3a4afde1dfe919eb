/-
Properties C37 and C38: what the audit tells, and when it ends.
-/
import Verif.Model.Audit
import Verif.Props.Rsilo

namespace Verif.Props
open Verif Header Rsilo Ident Audit
open _root_.Verif.Commit (Silo)

/-! ### Specification -/

/-- The header has the ID that goes with its type and the contents; `sha` is SHA256 in hex. -/
def HasIdentity (sha : Bytes → Bytes) (idSize : Nat) (h : Hdr) (data : Bytes) : Prop :=
  (headerGet h b!"WARC-Type" = some b!"resource" ∨ headerGet h b!"WARC-Type" = some b!"continuation" ∨ headerGet h b!"WARC-Type" = some b!"warcinfo") ∧
    h.id = (sha data).take idSize ∨
  headerGet h b!"WARC-Type" = some b!"metadata" ∧
    ∃ ref, headerGet h b!"WARC-Refers-To" = some ref ∧ h.id = (sha (ref ++ b!"\n" ++ sha data ++ b!"\n")).take idSize

/-- The header tells the truth about the contents.  The first segment of an object has the ID of the whole object, and
`ign` says that the IDs of metadata records do not matter. -/
structure Intact (sha : Bytes → Bytes) (idSize : Nat) (ign : Bool) (h : Hdr) (data : Bytes) : Prop where
  digest : headerGet h b!"WARC-Block-Digest" = some (b!"sha256:" ++ sha data)
  length : headerGet h b!"Content-Length" = some (dec data.length)
  ident : headerGet h b!"WARC-Segment-Number" ≠ some b!"1" → ¬ (headerGet h b!"WARC-Type" = some b!"metadata" ∧ ign = true) →
    HasIdentity sha idSize h data
  number : ∀ t, headerGet h b!"WARC-Segment-Number" = some t → ∃ v, strtoul0 t = some (v, [])

/-- Element `b` is number `a.segment + 1` of the object `oid`. -/
def Follows (pfx oid : Bytes) (a b : Ap) : Prop :=
  b.segment = a.segment + 1 ∧ ∃ t, headerGet b.hdr b!"WARC-Segment-Origin-ID" = some (b!"<" ++ pfx ++ oid ++ b!">" ++ t)

/-- Consecutive segments of the object `oid`. -/
def Chained (pfx oid : Bytes) : Ap → List Ap → Prop
  | _, [] => True
  | a, b :: bs => Follows pfx oid a b ∧ Chained pfx oid b bs

/-- The contents of segments, one after the other. -/
def contents (as : List Ap) : Bytes := (as.map (·.content)).flatten

/-- A complete object in segments `a`, `bs`, `z`, with the right length, digest and ID. -/
structure Whole (sha : Bytes → Bytes) (idSize : Nat) (pfx : Bytes) (a : Ap) (bs : List Ap) (z : Ap) : Prop where
  first : a.segment = 1
  chain : Chained pfx a.hdr.id a (bs ++ [z])
  total : headerGet z.hdr b!"WARC-Segment-Total-Length" = some (dec (contents (a :: bs ++ [z])).length)
  notlast : ∀ b ∈ bs, headerGet b.hdr b!"WARC-Segment-Total-Length" = none
  digest : headerGet a.hdr b!"WARC-Payload-Digest" = some (b!"sha256:" ++ sha (contents (a :: bs ++ [z])))
  ident : HasIdentity sha idSize a.hdr (contents (a :: bs ++ [z]))

/-- The element describes a complete record in the silos. -/
def Good (ps : Nat) (pfx : Bytes) (silos : Nat → Option Silo) (a : Ap) : Prop :=
  ∃ f pre post r, silos a.silo = some f ∧ f.data = pre ++ Rec.bytes r ++ post ∧ pre.length = a.o0 ∧ r.Complete pfx a.hdr ∧ r.Fits ps ∧
    a.o2 = pre.length + r.hgz.length + r.bgz.length ∧ r.data = a.content

/-! ### The checks -/

theorem checkHeader_nil (h : Hdr) (n e : Bytes) : checkHeader h n e = [] ↔ headerGet h n = some e := by
  unfold checkHeader
  cases headerGet h n with
  | none => simp
  | some is =>
    simp only [Option.some.injEq]
    split
    · rename_i h; simp [h]
    · rename_i h; simp [Ne.symm h]

theorem checkDigest_nil {h : Hdr} {n e : Bytes} {m : List Msg} (hm : checkDigest h n e = .ok m) : m = [] ↔ headerGet h n = some (b!"sha256:" ++ e) := by
  unfold checkDigest at hm
  cases hg : headerGet h n with
  | none => rw [hg] at hm; cases hm; simp
  | some is =>
    rw [hg] at hm
    simp only [Res.bind_eq_ok, Res.access_eq_ok, exists_const, Res.pure_eq] at hm
    obtain ⟨-, hm⟩ := hm
    have hsplit : is = is.take 7 ++ is.drop 7 := (List.take_append_drop 7 is).symm
    split at hm
    · rename_i h1
      cases hm
      simp only [reduceCtorEq, Option.some.injEq, false_iff]
      rintro rfl
      exact h1 (by simp)
    · rename_i h1
      have h1 : is.take 7 = b!"sha256:" := by simpa using h1
      split at hm
      · rename_i h2
        cases hm
        simp only [Option.some.injEq, true_iff]
        rw [hsplit, h1, h2]
      · rename_i h2
        cases hm
        simp only [reduceCtorEq, Option.some.injEq, false_iff]
        rintro rfl
        exact h2 (by simp)

theorem identCreate_iff (sha : Bytes → Bytes) (idSize : Nat) (h : Hdr) (data : Bytes) :
    identCreate sha idSize h (sha data) = .ok h.id ↔ HasIdentity sha idSize h data := by
  unfold identCreate HasIdentity
  cases headerGet h b!"WARC-Type" with
  | none =>
    constructor
    · intro h; cases h
    · rintro (⟨h | h | h, -⟩ | ⟨h, -⟩) <;> cases h
  | some typ =>
    have n1 : b!"continuation" ≠ b!"resource" := by decide
    have n2 : b!"warcinfo" ≠ b!"resource" := by decide
    have n3 : b!"warcinfo" ≠ b!"continuation" := by decide
    have n4 : b!"metadata" ≠ b!"resource" := by decide
    have n5 : b!"metadata" ≠ b!"continuation" := by decide
    have n6 : b!"metadata" ≠ b!"warcinfo" := by decide
    have plain : Res.ok ((sha data).take idSize) = Res.ok h.id ↔ h.id = (sha data).take idSize := by
      rw [Res.ok.injEq, eq_comm]
    constructor
    · intro e
      simp only at e
      split at e
      · rename_i h1; exact .inl ⟨.inl (by rw [h1]), plain.1 e⟩
      · split at e
        · rename_i h1; exact .inl ⟨.inr (.inl (by rw [h1])), plain.1 e⟩
        · split at e
          · rename_i h1; exact .inl ⟨.inr (.inr (by rw [h1])), plain.1 e⟩
          · split at e
            · rename_i h1
              cases hr : headerGet h b!"WARC-Refers-To" with
              | none => rw [hr] at e; cases e
              | some ref =>
                rw [hr] at e
                simp only [Res.ok.injEq, metaInput] at e
                exact .inr ⟨by rw [h1], ref, rfl, e.symm⟩
            · cases e
    · rintro (⟨e | e | e, h1⟩ | ⟨e, ref, h1, h2⟩)
      · cases e; simp only; rw [if_true]; exact plain.2 h1
      · cases e; simp only; rw [if_neg n1, if_true]; exact plain.2 h1
      · cases e; simp only; rw [if_neg n2, if_neg n3, if_true]; exact plain.2 h1
      · cases e; simp only; rw [if_neg n4, if_neg n5, if_neg n6, if_true, h1]
        simp only [metaInput]
        rw [h2]

theorem checkIdent_nil {sha : Bytes → Bytes} {idSize : Nat} {ign : Bool} {h : Hdr} {data : Bytes} {m : List Msg}
    (hm : checkIdent sha idSize ign h (sha data) = .ok m) :
    m = [] ↔ (¬ (headerGet h b!"WARC-Type" = some b!"metadata" ∧ ign = true) → HasIdentity sha idSize h data) := by
  unfold checkIdent at hm
  cases hg : headerGet h b!"WARC-Type" with
  | none => rw [hg] at hm; cases hm
  | some typ =>
    rw [hg] at hm
    simp only at hm
    split at hm
    · rename_i h1
      cases hm
      simp only [h1, and_self, not_true_eq_false, false_implies]
    · rename_i h1
      simp only [Option.some.injEq, h1, not_false_eq_true, true_implies]
      simp only [Res.bind_eq_ok, Res.pure_eq] at hm
      obtain ⟨id, e1, e2⟩ := hm
      rw [← identCreate_iff, e1]
      split at e2
      · rename_i h2
        cases e2
        simp [h2]
      · rename_i h2
        cases e2
        simp [Ne.symm h2]

theorem segNumber_nil (t : Bytes) : (segNumber t).2 = [] ↔ ∃ v, strtoul0 t = some (v, []) := by
  unfold segNumber
  cases strtoul0 t with
  | none => simp
  | some p =>
    obtain ⟨v, r⟩ := p
    simp only [Option.some.injEq, Prod.mk.injEq, exists_eq_left']
    split
    · rename_i h; simp [h]
    · rename_i h; simp [h]

/-- C37 for one record: the audit has nothing to say exactly if the header tells the truth and the length of the gzip'ed
body is right. -/
theorem C37_record {sha : Bytes → Bytes} {idSize : Nat} {ign : Bool} {ap : Ap} {m : List Msg} {s : Option Int}
    (h : auditOne sha idSize ign ap = .ok (m, s)) :
    m = [] ↔ Intact sha idSize ign ap.hdr ap.content ∧ ap.bodylen = (ap.o2 : Int) - ap.o1 := by
  unfold auditOne at h
  simp only [Res.bind_eq_ok] at h
  obtain ⟨m1, h1, h2⟩ := h
  have k1 := checkDigest_nil h1
  have k2 := checkHeader_nil ap.hdr b!"Content-Length" (dec ap.content.length)
  have k3 : (if ap.bodylen ≠ (ap.o2 : Int) - ap.o1 then [Msg.gzLength] else []) = [] ↔ ap.bodylen = (ap.o2 : Int) - ap.o1 := by
    split <;> simp_all
  cases hg : headerGet ap.hdr b!"WARC-Segment-Number" with
  | none =>
    rw [hg] at h2
    simp only [Res.bind_eq_ok, Res.pure_eq, Res.ok.injEq, Prod.mk.injEq] at h2
    obtain ⟨m5, h5, rfl, -⟩ := h2
    have k5 := checkIdent_nil h5
    simp only [List.append_eq_nil_iff, k1, k2, k3, k5]
    constructor
    · rintro ⟨⟨⟨a, b⟩, c⟩, d⟩
      exact ⟨⟨a, b, fun _ => d, fun t ht => by rw [hg] at ht; cases ht⟩, c⟩
    · rintro ⟨⟨a, b, c, d⟩, e⟩
      exact ⟨⟨⟨a, b⟩, e⟩, c (by rw [hg]; simp)⟩
  | some is =>
    rw [hg] at h2
    simp only [Res.bind_eq_ok, Res.pure_eq, Res.ok.injEq, Prod.mk.injEq] at h2
    obtain ⟨m5, h5, rfl, -⟩ := h2
    have k5 : m5 = [] ↔ (is ≠ b!"1" → ¬ (headerGet ap.hdr b!"WARC-Type" = some b!"metadata" ∧ ign = true) → HasIdentity sha idSize ap.hdr ap.content) := by
      split at h5
      · rename_i h
        cases h5
        simp [h]
      · rename_i h
        rw [checkIdent_nil h5]
        simp [h]
    simp only [List.append_eq_nil_iff, k1, k2, k3, k5, segNumber_nil]
    constructor
    · rintro ⟨⟨⟨⟨a, b⟩, c⟩, n⟩, d⟩
      refine ⟨⟨a, b, fun hh => d (fun h => hh (by rw [hg, h])), fun t ht => ?_⟩, c⟩
      rw [hg] at ht
      cases ht
      exact n
    · rintro ⟨⟨a, b, c, d⟩, e⟩
      exact ⟨⟨⟨⟨a, b⟩, e⟩, d is hg⟩, fun h => c (by rw [hg]; simpa using h)⟩

/-! ### A silo -/

theorem auditLoop_recs {ps : Nat} {pfx : Bytes} {cut : Bytes → List Bytes} (hcut : ∀ b, (cut b).flatten = b) {sha : Bytes → Bytes} {idSize : Nat} {ign : Bool}
    {silo : Nat} (l : List (Rec × Hdr)) : ∀ (pre : Bytes) (fuel : Nat) (bl : Int) {res : List (Ap × List Msg × Option Int)},
    (∀ x ∈ l, x.1.Complete pfx x.2 ∧ x.1.Fits ps) →
    auditLoop ps pfx cut sha idSize ign silo fuel { file := pre ++ siloBytes (l.map (·.1)), pos := pre.length, bodylen := bl, whr := .head } = .ok res →
    res.map (fun x => (x.1.hdr, x.1.content)) = l.map (fun x => (x.2, x.1.data)) ∧
    (∀ x ∈ res, (x.2.1 = [] ↔ Intact sha idSize ign x.1.hdr x.1.content) ∧ x.1.silo = silo ∧
      ∀ silos : Nat → Option Silo, ∀ f, silos silo = some f → f.data = pre ++ siloBytes (l.map (·.1)) → Good ps pfx silos x.1) := by
  induction l with
  | nil =>
    intro pre fuel bl res hl h
    cases fuel with
    | zero => cases h
    | succ fuel =>
      rw [auditLoop] at h
      have hr : readHeader ps pfx { file := pre ++ siloBytes (([] : List (Rec × Hdr)).map (·.1)), pos := pre.length, bodylen := bl, whr := .head } =
          .ok (none, { file := pre ++ siloBytes (([] : List (Rec × Hdr)).map (·.1)), pos := pre.length, bodylen := bl, whr := .head }) := by
        unfold readHeader Rsilo.read
        simp [siloBytes]
      rw [hr] at h
      simp only [Res.ok_bind] at h
      cases h
      exact ⟨rfl, fun x hx => (by cases hx)⟩
  | cons x l ih =>
    intro pre fuel bl res hl h
    cases fuel with
    | zero => cases h
    | succ fuel =>
      obtain ⟨r, hd⟩ := x
      obtain ⟨hc, hf⟩ := hl _ (List.mem_cons_self ..)
      have hfile : pre ++ siloBytes (((r, hd) :: l).map (·.1)) = pre ++ r.bytes ++ siloBytes (l.map (·.1)) := by
        simp [siloBytes, List.append_assoc]
      rw [hfile, auditLoop, readHeader_rec hc hf bl] at h
      simp only [Res.ok_bind] at h
      have hb : bodyLen (atBody (pre ++ r.bytes ++ siloBytes (l.map (·.1))) pre.length r) = .ok (r.bgz.length : Int) := by
        unfold bodyLen atBody
        simp
      have hdel : Rsilo.deliver auditIter (cut r.data) [] = .ok (r.data, true) := by
        have := deliver_collectIter (cut r.data) []
        rw [hcut] at this
        exact this
      rw [hb, readChunk_rec hc, hdel] at h
      simp only [Res.ok_bind, Res.pure_eq, skipCRNL_rec, Res.bind_eq_ok, Res.ok.injEq] at h
      obtain ⟨⟨m, s⟩, h1, l2, h2, rfl⟩ := h
      obtain ⟨i1, i2⟩ := ih (pre ++ r.bytes) fuel _ (fun x hx => hl x (by simp [hx])) h2
      refine ⟨by simp only [List.map_cons, i1], ?_⟩
      intro y hy
      rcases List.mem_cons.1 hy with rfl | hy
      · refine ⟨?_, rfl, ?_⟩
        · have := C37_record h1
          simp only at this ⊢
          rw [this]
          simp only [atBody, atCrlf, and_iff_left_iff_imp]
          intro _
          omega
        · intro silos f e1 e2
          refine ⟨f, pre, siloBytes (l.map (·.1)), r, e1, ?_, rfl, hc, hf, rfl, rfl⟩
          rw [e2, hfile]
      · obtain ⟨j1, j2, j3⟩ := i2 y hy
        refine ⟨j1, j2, fun silos f e1 e2 => j3 silos f e1 ?_⟩
        rw [e2, hfile]

/-- C37 for a silo: the audit sees every record with its contents, and has nothing to say about any of them exactly if
all headers tell the truth. -/
theorem C37_silo {ps : Nat} {pfx : Bytes} {cut : Bytes → List Bytes} (hcut : ∀ b, (cut b).flatten = b) {sha : Bytes → Bytes} {idSize : Nat} {ign : Bool}
    {silo fuel : Nat} (l : List (Rec × Hdr)) (hl : ∀ x ∈ l, x.1.Complete pfx x.2 ∧ x.1.Fits ps) {res : List (Ap × List Msg × Option Int)}
    (h : auditSilo ps pfx cut sha idSize ign silo fuel (siloBytes (l.map (·.1))) = .ok res) :
    res.map (fun x => (x.1.hdr, x.1.content)) = l.map (fun x => (x.2, x.1.data)) ∧
    ((∀ x ∈ res, x.2.1 = []) ↔ ∀ x ∈ l, Intact sha idSize ign x.2 x.1.data) ∧
    ∀ silos : Nat → Option Silo, ∀ f, silos silo = some f → f.data = siloBytes (l.map (·.1)) → ∀ a ∈ pendingOf res, Good ps pfx silos a := by
  obtain ⟨h1, h2⟩ := auditLoop_recs hcut l [] fuel 0 hl (by simpa [auditSilo, rsOpen] using h)
  refine ⟨h1, ?_, ?_⟩
  · have e1 : (∀ x ∈ res, x.2.1 = []) ↔ ∀ p ∈ res.map (fun x => (x.1.hdr, x.1.content)), Intact sha idSize ign p.1 p.2 := by
      simp only [List.mem_map, forall_exists_index, and_imp, forall_apply_eq_imp_iff₂]
      exact ⟨fun h x hx => (h2 x hx).1.1 (h x hx), fun h x hx => (h2 x hx).1.2 (h x hx)⟩
    rw [e1, h1]
    simp only [List.mem_map, forall_exists_index, and_imp, forall_apply_eq_imp_iff₂]
  · intro silos f e1 e2 a ha
    unfold pendingOf at ha
    obtain ⟨x, hx, rfl⟩ := List.mem_map.1 ha
    exact (h2 x (List.mem_filter.1 hx).1).2.2 silos f e1 (by simpa using e2)

/-! ### Segmented objects -/

theorem addSegment_good {ps : Nat} {pfx : Bytes} {cut : Bytes → List Bytes} (hcut : ∀ b, (cut b).flatten = b) {silos : Nat → Option Silo} {a : Ap}
    (hg : Good ps pfx silos a) (acc : Bytes) : addSegment ps pfx cut silos acc a = .ok (acc ++ a.content) := by
  obtain ⟨f, pre, post, r, h1, h2, h3, h4, h5, h6, h7⟩ := hg
  unfold addSegment
  rw [h1]
  simp only
  have h8 := readHeader_rec (pre := pre) (post := post) h4 h5 0
  rw [h3] at h8
  have h9 : rsOpen f.data a.o0 = { file := pre ++ r.bytes ++ post, pos := a.o0, bodylen := 0, whr := .head } := by
    unfold rsOpen; rw [h2]
  rw [h9, h8]
  simp only [Res.ok_bind]
  have hdel : Rsilo.deliver auditIter (cut r.data) acc = .ok (acc ++ r.data, true) := by
    have := deliver_collectIter (cut r.data) acc
    rw [hcut] at this
    exact this
  rw [← h3, readChunk_rec h4, hdel]
  simp only [Res.ok_bind, Res.pure_eq, atCrlf]
  rw [h6]
  simp [h7]

theorem isNext_true {pfx oid : Bytes} {a b : Ap} (h : isNext pfx oid a.segment b = .ok true) : Follows pfx oid a b := by
  unfold isNext at h
  split at h
  · cases h
  · rename_i h1
    split at h
    · cases h
    · cases h
    · rename_i c o hg
      split at h
      · cases h
      · rename_i hc
        simp only [Res.bind_eq_ok, Res.access_eq_ok, exists_const, Res.pure_eq, Res.ok.injEq, decide_eq_true_eq] at h
        obtain ⟨-, e1, e2, e3⟩ := h
        have hc : c = 60 := by simpa using hc
        refine ⟨by simpa using h1, ((o.drop pfx.length).drop oid.length).tail, ?_⟩
        rw [hg, hc]
        congr 1
        have s1 : o = pfx ++ o.drop pfx.length := by
          have := (List.take_append_drop pfx.length o).symm
          rw [e1] at this
          exact this
        have s2 : o.drop pfx.length = oid ++ (o.drop pfx.length).drop oid.length := by
          have := (List.take_append_drop oid.length (o.drop pfx.length)).symm
          rw [e2] at this
          exact this
        cases h4 : (o.drop pfx.length).drop oid.length with
        | nil => rw [h4] at e3; cases e3
        | cons x t =>
          rw [h4] at e3 s2
          cases e3
          rw [s1, s2]
          simp

theorem chained_snoc {pfx oid : Bytes} {z : Ap} (bs : List Ap) : ∀ a, Chained pfx oid a bs → Follows pfx oid ((a :: bs).getLast (by simp)) z →
    Chained pfx oid a (bs ++ [z]) := by
  induction bs with
  | nil => intro a _ h; exact ⟨h, trivial⟩
  | cons b bs ih => intro a h hz; exact ⟨h.1, ih b h.2 (by simpa using hz)⟩

/-- What one pass finds. -/
theorem pass_finds {ps : Nat} {pfx : Bytes} {cut : Bytes → List Bytes} (hcut : ∀ b, (cut b).flatten = b) {silos : Nat → Option Silo} {oid : Bytes}
    (todo : List Ap) : ∀ {kept : List Ap} {ap : Ap} {acc : Bytes} {found : Bool} {p : Pass}, (∀ a ∈ todo, Good ps pfx silos a) →
    pass ps pfx cut silos oid todo kept ap acc found = .ok p →
    ∃ as, (kept ++ todo).Perm (as ++ p.rest) ∧ Chained pfx oid ap as ∧ p.acc = acc ++ contents as ∧
      (p.fin = false → p.found = (found || !as.isEmpty) ∧ p.last = (ap :: as).getLast (by simp) ∧
        ∀ b ∈ as, headerGet b.hdr b!"WARC-Segment-Total-Length" = none) ∧
      (p.fin = true → ∃ bs, as = bs ++ [p.last] ∧ (headerGet p.last.hdr b!"WARC-Segment-Total-Length").isSome ∧
        ∀ b ∈ bs, headerGet b.hdr b!"WARC-Segment-Total-Length" = none) := by
  induction todo with
  | nil =>
    intro kept ap acc found p _ h
    cases h
    exact ⟨[], by simp, trivial, by simp [contents], fun _ => ⟨by simp, rfl, fun b hb => (by cases hb)⟩, fun h => (by cases h)⟩
  | cons x todo ih =>
    intro kept ap acc found p hg h
    rw [pass, Res.bind_eq_ok] at h
    obtain ⟨m, h1, h2⟩ := h
    cases m with
    | false =>
      simp only [if_true] at h2
      obtain ⟨as, a1, a2⟩ := ih (fun a ha => hg a (by simp [ha])) h2
      exact ⟨as, by simpa using a1, a2⟩
    | true =>
      simp only [Bool.true_eq_false, if_false] at h2
      rw [addSegment_good hcut (hg x (by simp))] at h2
      simp only [Res.ok_bind] at h2
      have hf := isNext_true h1
      split at h2
      · rename_i ht
        cases h2
        refine ⟨[x], ?_, ⟨hf, trivial⟩, by simp [contents], fun h => (by cases h), fun _ => ⟨[], rfl, ht, fun b hb => (by cases hb)⟩⟩
        simp only [List.singleton_append]
        exact List.perm_middle
      · rename_i ht
        have ht : headerGet x.hdr b!"WARC-Segment-Total-Length" = none := by simpa using ht
        obtain ⟨as, a1, a2, a3, a4, a5⟩ := ih (fun a ha => hg a (by simp [ha])) h2
        refine ⟨x :: as, ?_, ⟨hf, a2⟩, by rw [a3]; simp [contents], ?_, ?_⟩
        · rw [List.cons_append]
          exact List.perm_middle.trans (a1.cons x)
        · intro h
          obtain ⟨b1, b2, b3⟩ := a4 h
          refine ⟨by rw [b1]; simp, by rw [b2]; simp, ?_⟩
          intro b hb
          rcases List.mem_cons.1 hb with rfl | hb
          · exact ht
          · exact b3 b hb
        · intro h
          obtain ⟨bs, b1, b2, b3⟩ := a5 h
          refine ⟨x :: bs, by rw [b1]; rfl, b2, ?_⟩
          intro b hb
          rcases List.mem_cons.1 hb with rfl | hb
          · exact ht
          · exact b3 b hb

theorem takeFirst_perm (l : List Ap) : ∀ {a : Ap} {rest : List Ap}, takeFirst l = some (a, rest) → l.Perm (a :: rest) ∧ a.segment = 1 := by
  induction l with
  | nil => intro a rest h; cases h
  | cons x l ih =>
    intro a rest h
    rw [takeFirst] at h
    split at h
    · rename_i h1
      cases h
      exact ⟨.refl _, h1⟩
    · simp only [Option.map_eq_some_iff] at h
      obtain ⟨⟨b, r⟩, h1, h2⟩ := h
      cases h2
      obtain ⟨i1, i2⟩ := ih h1
      exact ⟨(i1.cons x).trans (List.Perm.swap _ _ _), i2⟩

theorem finalMsgs_nil {sha : Bytes → Bytes} {idSize : Nat} {a z : Ap} {payload : Bytes} {m : List Msg} (h : finalMsgs sha idSize a z payload = .ok m) :
    m = [] ↔ headerGet z.hdr b!"WARC-Segment-Total-Length" = some (dec payload.length) ∧
      headerGet a.hdr b!"WARC-Payload-Digest" = some (b!"sha256:" ++ sha payload) ∧ HasIdentity sha idSize a.hdr payload := by
  unfold finalMsgs at h
  simp only [Res.bind_eq_ok, Res.pure_eq, Res.ok.injEq] at h
  obtain ⟨m2, h1, id, h2, rfl⟩ := h
  rw [List.append_eq_nil_iff, List.append_eq_nil_iff, checkHeader_nil, checkDigest_nil h1, ← identCreate_iff, h2]
  have : (if id = a.hdr.id then [] else [Msg.ident]) = [] ↔ id = a.hdr.id := by split <;> simp_all
  rw [this]
  simp [and_assoc]

/-- What `passes` comes to: the first pass decides. -/
theorem passes_finds {ps : Nat} {pfx : Bytes} {cut : Bytes → List Bytes} (hcut : ∀ b, (cut b).flatten = b) {sha : Bytes → Bytes} {idSize : Nat}
    {silos : Nat → Option Silo} {ap0 : Ap} (fuel : Nat) : ∀ {l : List Ap} {acc : Bytes} {o : Pend}, (∀ a ∈ l, Good ps pfx silos a) →
    passes ps pfx cut sha idSize silos ap0 fuel l ap0 acc = .ok (some o) →
    (∃ bs z rest m, l.Perm (bs ++ [z] ++ rest) ∧ Chained pfx ap0.hdr.id ap0 (bs ++ [z]) ∧ (∀ b ∈ bs, headerGet b.hdr b!"WARC-Segment-Total-Length" = none) ∧
      finalMsgs sha idSize ap0 z (acc ++ contents (bs ++ [z])) = .ok m ∧ o = .object m rest) ∨
    (∃ as rest, as ≠ [] ∧ l.Perm (as ++ rest) ∧ Chained pfx ap0.hdr.id ap0 as ∧ (∀ b ∈ as, headerGet b.hdr b!"WARC-Segment-Total-Length" = none) ∧
      o = .missing rest) := by
  induction fuel with
  | zero => intro l acc o _ h; cases h
  | succ fuel ih =>
    intro l acc o hg h
    rw [passes, Res.bind_eq_ok] at h
    obtain ⟨p, h1, h2⟩ := h
    obtain ⟨as, a1, a2, a3, a4, a5⟩ := pass_finds hcut l hg h1
    cases hfin : p.fin with
    | true =>
      simp only [hfin, if_true, Res.bind_eq_ok, Res.pure_eq, Res.ok.injEq, Option.some.injEq] at h2
      obtain ⟨m, h3, rfl⟩ := h2
      obtain ⟨bs, rfl, b2, b3⟩ := a5 hfin
      rw [a3] at h3
      exact .inl ⟨bs, p.last, p.rest, m, by simpa using a1, a2, b3, h3, rfl⟩
    | false =>
      obtain ⟨c1, c2, c3⟩ := a4 hfin
      simp only [hfin, Bool.false_eq_true, if_false] at h2
      split at h2
      · rename_i hf
        rw [hf] at c1
        have has : as = [] := by
          cases as with
          | nil => rfl
          | cons a as => simp at c1
        subst has
        simp only [List.getLast_singleton] at c2
        simp only [contents, List.map_nil, List.flatten_nil, List.append_nil] at a3
        simp only [List.nil_append] at a1
        rw [c2, a3] at h2
        rcases ih (fun a ha => hg a (a1.mem_iff.2 ha)) h2 with ⟨bs, z, rest, m, d1, d2⟩ | ⟨bs, rest, d0, d1, d2⟩
        · exact .inl ⟨bs, z, rest, m, a1.trans d1, d2⟩
        · exact .inr ⟨bs, rest, d0, a1.trans d1, d2⟩
      · rename_i hf
        simp only [Res.pure_eq, Res.ok.injEq, Option.some.injEq] at h2
        subst h2
        refine .inr ⟨as, p.rest, ?_, by simpa using a1, a2, c3, rfl⟩
        rintro rfl
        simp at c1
        exact hf c1

/-- C37 for a segmented object: the audit has nothing to say about it only if all its segments are there and length, digest
and ID of the whole agree with its contents. -/
theorem C37_object {ps : Nat} {pfx : Bytes} {cut : Bytes → List Bytes} (hcut : ∀ b, (cut b).flatten = b) {sha : Bytes → Bytes} {idSize : Nat}
    {silos : Nat → Option Silo} {fuel : Nat} {l rest : List Ap} (hg : ∀ a ∈ l, Good ps pfx silos a)
    (h : onePending ps pfx cut sha idSize silos fuel l = .ok (some (.object [] rest))) :
    ∃ a bs z, Whole sha idSize pfx a bs z ∧ l.Perm (a :: bs ++ [z] ++ rest) := by
  unfold onePending at h
  cases ht : takeFirst l with
  | none => rw [ht] at h; cases h
  | some q =>
    obtain ⟨a, r⟩ := q
    obtain ⟨t1, t2⟩ := takeFirst_perm l ht
    rw [ht] at h
    simp only at h
    rw [addSegment_good hcut (hg a (t1.mem_iff.2 (by simp)))] at h
    simp only [Res.ok_bind, List.nil_append] at h
    rcases passes_finds hcut fuel (fun b hb => hg b (t1.mem_iff.2 (by simp [hb]))) h with ⟨bs, z, rest', m, d1, d2, d3, d4, d5⟩ | ⟨_, _, _, _, _, _, d⟩
    · cases d5
      obtain ⟨f1, f2, f3⟩ := (finalMsgs_nil d4).1 rfl
      have hcon : contents (a :: bs ++ [z]) = a.content ++ contents (bs ++ [z]) := by simp [contents]
      refine ⟨a, bs, z, ⟨t2, d2, by rw [hcon]; exact f1, d3, by rw [hcon]; exact f2, by rw [hcon]; exact f3⟩, t1.trans ?_⟩
      simpa using d1.cons a
    · cases d

theorem passes_something {ps : Nat} {pfx : Bytes} {cut : Bytes → List Bytes} {sha : Bytes → Bytes} {idSize : Nat} {silos : Nat → Option Silo} {ap0 : Ap}
    (fuel : Nat) : ∀ {l : List Ap} {ap : Ap} {acc : Bytes}, passes ps pfx cut sha idSize silos ap0 fuel l ap acc ≠ .ok (some .nothing) := by
  induction fuel with
  | zero => intro l ap acc h; cases h
  | succ fuel ih =>
    intro l ap acc h
    rw [passes, Res.bind_eq_ok] at h
    obtain ⟨p, h1, h2⟩ := h
    split at h2
    · simp only [Res.bind_eq_ok, Res.pure_eq, Res.ok.injEq, Option.some.injEq, reduceCtorEq, and_false, exists_false] at h2
    · split at h2
      · exact ih h2
      · cases h2

theorem takeFirst_none (l : List Ap) (h : takeFirst l = none) : ∀ a ∈ l, a.segment ≠ 1 := by
  induction l with
  | nil => intro a ha; cases ha
  | cons x l ih =>
    rw [takeFirst] at h
    split at h
    · cases h
    · rename_i hx
      rw [Option.map_eq_none_iff] at h
      intro a ha
      rcases List.mem_cons.1 ha with rfl | ha
      · exact hx
      · exact ih h a ha

/-- C37 for all segmented objects: if the audit ends with nothing to say about them, then the segments are those of
complete objects, each with the right length, digest and ID, and the ones left over, of which none is a first segment.  The
audit lists those, so if it lists none, the objects are all there is. -/
theorem C37_all {ps : Nat} {pfx : Bytes} {cut : Bytes → List Bytes} (hcut : ∀ b, (cut b).flatten = b) {sha : Bytes → Bytes} {idSize : Nat}
    {silos : Nat → Option Silo} (fuel : Nat) : ∀ {l left : List Ap} {os : List Pend}, (∀ a ∈ l, Good ps pfx silos a) →
    allPending ps pfx cut sha idSize silos fuel l = .ok (some (os, left)) → (∀ o ∈ os, ∃ rest, o = .object [] rest) →
    ∃ objs : List (Ap × List Ap × Ap), (∀ o ∈ objs, Whole sha idSize pfx o.1 o.2.1 o.2.2) ∧
      l.Perm ((objs.map fun o => o.1 :: o.2.1 ++ [o.2.2]).flatten ++ left) ∧ ∀ a ∈ left, a.segment ≠ 1 := by
  induction fuel with
  | zero => intro l left os _ h; cases h
  | succ fuel ih =>
    intro l left os hg h ho
    rw [allPending, Res.bind_eq_ok] at h
    obtain ⟨p, h1, h2⟩ := h
    match p, h1, h2 with
    | none, _, h2 => cases h2
    | some .nothing, h1, h2 =>
      simp only [Res.pure_eq, Res.ok.injEq, Option.some.injEq, Prod.mk.injEq] at h2
      obtain ⟨rfl, rfl⟩ := h2
      refine ⟨[], fun o ho => (by cases ho), .refl _, ?_⟩
      unfold onePending at h1
      cases ht : takeFirst l with
      | none => exact takeFirst_none l ht
      | some q =>
        rw [ht] at h1
        simp only [Res.bind_eq_ok] at h1
        obtain ⟨c, -, h1⟩ := h1
        exact absurd h1 (passes_something _)
    | some (.missing rest), h1, h2 =>
      simp only [Res.pure_eq, Res.ok.injEq, Option.some.injEq, Prod.mk.injEq] at h2
      obtain ⟨rfl, -⟩ := h2
      obtain ⟨_, e⟩ := ho _ (List.mem_cons_self ..)
      cases e
    | some (.object m rest), h1, h2 =>
      simp only [Res.bind_eq_ok, Res.pure_eq, Res.ok.injEq] at h2
      obtain ⟨r, h3, h4⟩ := h2
      cases r with
      | none => cases h4
      | some r =>
        obtain ⟨os', left'⟩ := r
        simp only [Option.map_some, Option.some.injEq, Prod.mk.injEq] at h4
        obtain ⟨rfl, rfl⟩ := h4
        obtain ⟨_, e⟩ := ho _ (List.mem_cons_self ..)
        cases e
        obtain ⟨a, bs, z, w1, w2⟩ := C37_object hcut hg h1
        obtain ⟨objs, o1, o2, o3⟩ := ih (fun b hb => hg b (w2.mem_iff.2 (by simp [hb]))) h3 (fun o h => ho o (by simp [h]))
        refine ⟨(a, bs, z) :: objs, ?_, ?_, o3⟩
        · intro o h
          rcases List.mem_cons.1 h with rfl | h
          · exact w1
          · exact o1 o h
        · simp only [List.map_cons, List.flatten_cons]
          rw [List.append_assoc]
          exact w2.trans (List.Perm.append_left _ o2)

/-- C37 for any file, also one that is no sequence of records: what is audited without a message is intact. -/
theorem C37_any {ps : Nat} {pfx : Bytes} {cut : Bytes → List Bytes} {sha : Bytes → Bytes} {idSize : Nat} {ign : Bool} {silo fuel : Nat} {file : Bytes}
    {res : List (Ap × List Msg × Option Int)} (h : auditSilo ps pfx cut sha idSize ign silo fuel file = .ok res) :
    ∀ x ∈ res, x.2.1 = [] ↔ Intact sha idSize ign x.1.hdr x.1.content ∧ x.1.bodylen = (x.1.o2 : Int) - x.1.o1 := by
  unfold auditSilo at h
  generalize rsOpen file 0 = rs at h
  induction fuel generalizing rs res with
  | zero => cases h
  | succ fuel ih =>
    rw [auditLoop] at h
    simp only [Res.bind_eq_ok] at h
    obtain ⟨r, -, h⟩ := h
    cases hr : r.1 with
    | none =>
      rw [hr] at h
      cases h
      intro x hx
      cases hx
    | some hd =>
      rw [hr] at h
      simp only [Res.bind_eq_ok, Res.pure_eq, Res.ok.injEq] at h
      obtain ⟨bl, -, b, -, rs2, -, q, hq, l, hl, rfl⟩ := h
      intro x hx
      rcases List.mem_cons.1 hx with rfl | hx
      · exact C37_record (s := q.2) hq
      · exact ih _ hl x hx

/-! ### C38 -/

theorem pass_none {ps : Nat} {pfx : Bytes} {cut : Bytes → List Bytes} {silos : Nat → Option Silo} {oid : Bytes} (todo : List Ap) :
    ∀ (kept : List Ap) (ap : Ap) (acc : Bytes) (found : Bool), (∀ b ∈ todo, isNext pfx oid ap.segment b = .ok false) →
    pass ps pfx cut silos oid todo kept ap acc found = .ok { fin := false, found := found, last := ap, acc := acc, rest := kept ++ todo } := by
  induction todo with
  | nil => intro kept ap acc found _; simp [pass]
  | cons x todo ih =>
    intro kept ap acc found h
    rw [pass, h x (by simp)]
    simp only [Res.ok_bind, if_true]
    rw [ih _ _ _ _ (fun b hb => h b (by simp [hb]))]
    simp

/-- C38 is false: if an object's second segment is missing, the audit of that object does not end, however long one waits. -/
theorem C38_counterexample {ps : Nat} {pfx : Bytes} {cut : Bytes → List Bytes} {sha : Bytes → Bytes} {idSize : Nat}
    {silos : Nat → Option Silo} {l rest : List Ap} {a : Ap} {c : Bytes} (ht : takeFirst l = some (a, rest))
    (hc : addSegment ps pfx cut silos [] a = .ok c) (hn : ∀ b ∈ rest, isNext pfx a.hdr.id a.segment b = .ok false) (fuel : Nat) :
    onePending ps pfx cut sha idSize silos fuel l = .ok none := by
  unfold onePending
  rw [ht]
  simp only
  rw [hc]
  simp only [Res.ok_bind]
  induction fuel with
  | zero => rfl
  | succ fuel ih =>
    rw [passes, pass_none rest [] a c false hn]
    simp only [Res.ok_bind, Bool.false_eq_true, if_false, List.nil_append, if_true]
    exact ih

theorem pass_found_mono {ps : Nat} {pfx : Bytes} {cut : Bytes → List Bytes} {silos : Nat → Option Silo} {oid : Bytes} (todo : List Ap) :
    ∀ {kept : List Ap} {ap : Ap} {acc : Bytes} {found : Bool} {p : Pass}, pass ps pfx cut silos oid todo kept ap acc found = .ok p →
    p.found = false → found = false ∧ p.fin = false ∧ (∀ b ∈ todo, isNext pfx oid ap.segment b = .ok false) := by
  induction todo with
  | nil => intro kept ap acc found p h hf; cases h; exact ⟨hf, rfl, fun b hb => (by cases hb)⟩
  | cons x todo ih =>
    intro kept ap acc found p h hf
    rw [pass, Res.bind_eq_ok] at h
    obtain ⟨m, h1, h2⟩ := h
    cases m with
    | false =>
      simp only [if_true] at h2
      obtain ⟨i1, i2, i3⟩ := ih h2 hf
      refine ⟨i1, i2, ?_⟩
      intro b hb
      rcases List.mem_cons.1 hb with rfl | hb
      · exact h1
      · exact i3 b hb
    | true =>
      simp only [Bool.true_eq_false, if_false, Res.bind_eq_ok] at h2
      obtain ⟨acc', -, h3⟩ := h2
      split at h3
      · cases h3; cases hf
      · have := (ih h3 hf).1
        cases this

theorem passes_none {ps : Nat} {pfx : Bytes} {cut : Bytes → List Bytes} {sha : Bytes → Bytes} {idSize : Nat} {silos : Nat → Option Silo} {ap0 : Ap}
    {fuel : Nat} {l : List Ap} {acc : Bytes} (h : passes ps pfx cut sha idSize silos ap0 (fuel + 1) l ap0 acc = .ok none) :
    ∀ b ∈ l, isNext pfx ap0.hdr.id ap0.segment b = .ok false := by
  rw [passes, Res.bind_eq_ok] at h
  obtain ⟨p, h1, h2⟩ := h
  split at h2
  · simp only [Res.bind_eq_ok, Res.pure_eq, Res.ok.injEq, reduceCtorEq, and_false, exists_false] at h2
  · split at h2
    · rename_i hf
      exact (pass_found_mono l h1 hf).2.2
    · cases h2

theorem pass_shrinks {ps : Nat} {pfx : Bytes} {cut : Bytes → List Bytes} {silos : Nat → Option Silo} {oid : Bytes} (todo : List Ap) :
    ∀ {kept : List Ap} {ap : Ap} {acc : Bytes} {found : Bool} {p : Pass}, pass ps pfx cut silos oid todo kept ap acc found = .ok p →
    p.rest.Sublist (kept ++ todo) := by
  induction todo with
  | nil => intro kept ap acc found p h; cases h; simp
  | cons x todo ih =>
    intro kept ap acc found p h
    rw [pass, Res.bind_eq_ok] at h
    obtain ⟨m, h1, h2⟩ := h
    cases m with
    | false =>
      simp only [if_true] at h2
      simpa using ih h2
    | true =>
      simp only [Bool.true_eq_false, if_false, Res.bind_eq_ok] at h2
      obtain ⟨acc', -, h3⟩ := h2
      split at h3
      · cases h3
        exact List.Sublist.append_left (List.sublist_cons_self x todo) kept
      · exact (ih h3).trans (List.Sublist.append_left (List.sublist_cons_self x todo) kept)

theorem passes_shrinks {ps : Nat} {pfx : Bytes} {cut : Bytes → List Bytes} {sha : Bytes → Bytes} {idSize : Nat} {silos : Nat → Option Silo} {ap0 : Ap}
    (fuel : Nat) : ∀ {l : List Ap} {ap : Ap} {acc : Bytes} {m : List Msg} {rest : List Ap},
    passes ps pfx cut sha idSize silos ap0 fuel l ap acc = .ok (some (.object m rest)) → rest.Sublist l := by
  induction fuel with
  | zero => intro l ap acc m rest h; cases h
  | succ fuel ih =>
    intro l ap acc m rest h
    rw [passes, Res.bind_eq_ok] at h
    obtain ⟨p, h1, h2⟩ := h
    have hs := pass_shrinks l h1
    simp only [List.nil_append] at hs
    split at h2
    · simp only [Res.bind_eq_ok, Res.pure_eq, Res.ok.injEq, Option.some.injEq, Pend.object.injEq] at h2
      obtain ⟨_, _, _, rfl⟩ := h2
      exact hs
    · split at h2
      · exact (ih h2).trans hs
      · cases h2

theorem takeFirst_sublist (l : List Ap) : ∀ {a : Ap} {rest : List Ap}, takeFirst l = some (a, rest) → rest.Sublist l ∧ rest.length < l.length := by
  induction l with
  | nil => intro a rest h; cases h
  | cons x l ih =>
    intro a rest h
    rw [takeFirst] at h
    split at h
    · cases h
      exact ⟨List.sublist_cons_self _ _, by simp⟩
    · simp only [Option.map_eq_some_iff] at h
      obtain ⟨⟨b, r⟩, h1, h2⟩ := h
      cases h2
      obtain ⟨i1, i2⟩ := ih h1
      exact ⟨i1.cons_cons x, by simp only [List.length_cons]; omega⟩

/-- C38: a missing second segment is the only way for the audit not to end. -/
theorem C38_ends_partial {ps : Nat} {pfx : Bytes} {cut : Bytes → List Bytes} {sha : Bytes → Bytes} {idSize : Nat} {silos : Nat → Option Silo}
    (fuel : Nat) : ∀ {l : List Ap}, l.length < fuel → allPending ps pfx cut sha idSize silos fuel l = .ok none →
    ∃ l' a rest, l'.Sublist l ∧ takeFirst l' = some (a, rest) ∧ ∀ b ∈ rest, isNext pfx a.hdr.id a.segment b = .ok false := by
  induction fuel with
  | zero => intro l hl; omega
  | succ fuel ih =>
    intro l hl h
    rw [allPending, Res.bind_eq_ok] at h
    obtain ⟨p, h1, h2⟩ := h
    unfold onePending at h1
    cases ht : takeFirst l with
    | none =>
      rw [ht] at h1
      cases h1
      cases h2
    | some q =>
      obtain ⟨a, r⟩ := q
      rw [ht] at h1
      simp only [Res.bind_eq_ok] at h1
      obtain ⟨c, -, h1⟩ := h1
      match p, h1, h2 with
      | none, h1, _ => exact ⟨l, a, r, .refl _, ht, passes_none h1⟩
      | some .nothing, _, h2 => cases h2
      | some (.missing rest), _, h2 => cases h2
      | some (.object m rest), h1, h2 =>
        obtain ⟨t1, t2⟩ := takeFirst_sublist l ht
        have hs := passes_shrinks _ h1
        have hle := hs.length_le
        simp only [Res.bind_eq_ok, Res.pure_eq, Res.ok.injEq] at h2
        obtain ⟨x, h3, h4⟩ := h2
        cases x with
        | some x => cases h4
        | none =>
          obtain ⟨l', a', rest', e1, e2⟩ := ih (by omega) h3
          exact ⟨l', a', rest', e1.trans (hs.trans t1), e2⟩

/-! ### Objects in order, and out of order -/

theorem isNext_of {pfx oid : Bytes} {a b : Ap} (h : Follows pfx oid a b) : isNext pfx oid a.segment b = .ok true := by
  obtain ⟨h1, t, h2⟩ := h
  unfold isNext
  rw [if_neg (by simp [h1]), h2]
  simp only [List.cons_append, List.nil_append, List.append_assoc]
  rw [if_neg (by simp)]
  have : pfx.length ≤ (pfx ++ (oid ++ ([62] ++ t))).length + 1 := by simp only [List.length_append]; omega
  simp only [Res.pure_eq]
  rw [decide_eq_true (by simp only [List.length_cons, List.length_append]; omega)]
  simp

theorem pass_in_order {ps : Nat} {pfx : Bytes} {cut : Bytes → List Bytes} (hcut : ∀ b, (cut b).flatten = b) {silos : Nat → Option Silo} {oid : Bytes} {z : Ap}
    {more : List Ap} (hz : Good ps pfx silos z) (htz : (headerGet z.hdr b!"WARC-Segment-Total-Length").isSome) (bs : List Ap) :
    ∀ {ap : Ap} {acc : Bytes} {found : Bool}, (∀ b ∈ bs, Good ps pfx silos b ∧ headerGet b.hdr b!"WARC-Segment-Total-Length" = none) →
    Chained pfx oid ap (bs ++ [z]) → pass ps pfx cut silos oid (bs ++ z :: more) [] ap acc found =
      .ok { fin := true, found := true, last := z, acc := acc ++ contents (bs ++ [z]), rest := more } := by
  induction bs with
  | nil =>
    intro ap acc found _ hc
    rw [List.nil_append, pass, isNext_of hc.1]
    simp only [Res.ok_bind, Bool.true_eq_false, if_false]
    rw [addSegment_good hcut hz]
    simp only [Res.ok_bind]
    rw [if_pos htz]
    simp [contents]
  | cons b bs ih =>
    intro ap acc found hb hc
    obtain ⟨g, n⟩ := hb b (by simp)
    rw [List.cons_append, pass, isNext_of hc.1]
    simp only [Res.ok_bind, Bool.true_eq_false, if_false]
    rw [addSegment_good hcut g]
    simp only [Res.ok_bind]
    rw [if_neg (by rw [n]; simp), ih (fun c hc => hb c (by simp [hc])) hc.2]
    simp [contents]

/-- C37, the other way: an object whose segments are on the list in order is found complete. -/
theorem C37_in_order {ps : Nat} {pfx : Bytes} {cut : Bytes → List Bytes} (hcut : ∀ b, (cut b).flatten = b) {sha : Bytes → Bytes} {idSize : Nat}
    {silos : Nat → Option Silo} {fuel : Nat} {a z : Ap} {bs more : List Ap} (hg : ∀ b ∈ a :: bs ++ [z], Good ps pfx silos b)
    (hw : Whole sha idSize pfx a bs z) : onePending ps pfx cut sha idSize silos (fuel + 1) (a :: bs ++ z :: more) = .ok (some (.object [] more)) := by
  unfold onePending
  have ht : takeFirst (a :: bs ++ z :: more) = some (a, bs ++ z :: more) := by
    rw [List.cons_append, takeFirst, if_pos hw.first]
  rw [ht]
  simp only
  rw [addSegment_good hcut (hg a (by simp))]
  simp only [Res.ok_bind, List.nil_append]
  rw [passes, pass_in_order hcut (hg z (by simp)) (by rw [hw.total]; rfl) bs (fun b hb => ⟨hg b (by simp [hb]), hw.notlast b hb⟩) hw.chain]
  simp only [Res.ok_bind, if_true]
  have hcon : contents (a :: bs ++ [z]) = a.content ++ contents (bs ++ [z]) := by simp [contents]
  have h1 := hw.total
  have h2 := hw.digest
  have h3 := hw.ident
  rw [hcon] at h1 h2 h3
  obtain ⟨m, hm⟩ : ∃ m, finalMsgs sha idSize a z (a.content ++ contents (bs ++ [z])) = .ok m := by
    unfold finalMsgs
    rw [(identCreate_iff _ _ _ _).2 h3]
    unfold checkDigest
    rw [h2]
    simp only [List.cons_append, List.nil_append, List.length_cons]
    simp
  have := (finalMsgs_nil hm).2 ⟨h1, h2, h3⟩
  subst this
  rw [hm]
  rfl

/-- C37: the audit cries wolf if a complete object of three segments is on the list out of order. -/
theorem C37_counterexample_order {ps : Nat} {pfx : Bytes} {cut : Bytes → List Bytes} (hcut : ∀ b, (cut b).flatten = b) {sha : Bytes → Bytes} {idSize : Nat}
    {silos : Nat → Option Silo} {fuel : Nat} {a b z : Ap} (hg : Good ps pfx silos a ∧ Good ps pfx silos b ∧ Good ps pfx silos z)
    (hw : Whole sha idSize pfx a [b] z) : onePending ps pfx cut sha idSize silos (fuel + 1) [a, z, b] = .ok (some (.missing [z])) := by
  unfold onePending
  have ht : takeFirst [a, z, b] = some (a, [z, b]) := by rw [takeFirst, if_pos hw.first]
  rw [ht]
  simp only
  rw [addSegment_good hcut hg.1]
  simp only [Res.ok_bind, List.nil_append]
  obtain ⟨c1, c2, -⟩ := hw.chain
  have hz : isNext pfx a.hdr.id a.segment z = .ok false := by
    unfold isNext
    rw [if_pos]
    have e1 := c1.1
    have e2 := c2.1
    omega
  rw [passes, pass, hz]
  simp only [Res.ok_bind, if_true, List.nil_append]
  rw [pass, isNext_of c1]
  simp only [Res.ok_bind, Bool.true_eq_false, if_false]
  rw [addSegment_good hcut hg.2.1]
  simp only [Res.ok_bind]
  rw [if_neg (by rw [hw.notlast b (by simp)]; simp), pass]
  simp

end Verif.Props
