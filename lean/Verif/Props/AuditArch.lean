/-
Property C54: what has been stored passes the audit.
-/
import Verif.Props.AuditObjects
import Verif.Props.ReindexArch

namespace Verif.Props
open Verif Header Gzip Ident Index Wsilo Segjob Getjob Spec Inflate Audit
open _root_.Verif.Commit (upd Silo)

/-! ### Numbers -/

theorem dec_head {n : Nat} (hn : 0 < n) : ∃ c cs, dec n = c :: cs ∧ c ≠ 48 := by
  cases h : dec n with
  | nil => exact absurd h (dec_ne_nil n)
  | cons c cs =>
    refine ⟨c, cs, rfl, ?_⟩
    rintro rfl
    have hv := decVal_dec n
    rw [h] at hv
    have hlt : ∀ (l : Bytes), (∀ c ∈ l, isDigit c = true) → ∀ a k, a < 10 ^ k → l.foldl (fun n c => n * 10 + (c.toNat - 48)) a < 10 ^ (k + l.length) := by
      intro l
      induction l with
      | nil => intro _ a k ha; simpa using ha
      | cons c l ih =>
        intro hd a k ha
        rw [List.foldl_cons, List.length_cons, show k + (l.length + 1) = (k + 1) + l.length by omega]
        refine ih (fun c hc => hd c (by simp [hc])) _ _ ?_
        have := hd c (by simp)
        unfold isDigit at this
        simp only [Bool.and_eq_true, decide_eq_true_eq, UInt8.le_iff_toNat_le] at this
        have e : (57 : UInt8).toNat = 57 := rfl
        rw [e] at this
        rw [Nat.pow_succ]
        omega
    have hdig : ∀ c ∈ cs, isDigit c = true := fun c hc => dec_digits n c (by rw [h]; simp [hc])
    have h1 := hlt cs hdig 0 0 (by simp)
    unfold decVal at hv
    rw [List.foldl_cons, show 0 * 10 + ((48 : UInt8).toNat - 48) = 0 from rfl] at hv
    rw [hv, Nat.zero_add] at h1
    cases hcs : cs.length with
    | zero => rw [hcs] at h1; simp at h1; omega
    | succ k =>
      rw [hcs] at h1
      have := dec_length n k h1
      rw [h, List.length_cons, hcs] at this
      omega

theorem ulDigits_dec (l : Bytes) : ∀ v, (∀ c ∈ l, isDigit c = true) →
    ulDigits 10 l v = (l.foldl (fun n c => n * 10 + (c.toNat - 48)) v, []) := by
  induction l with
  | nil => intro v _; rfl
  | cons c l ih =>
    intro v h
    have hc := h c (by simp)
    unfold isDigit at hc
    simp only [Bool.and_eq_true, decide_eq_true_eq] at hc
    have hd : digitVal c = some (c.toNat - 48) := by
      unfold digitVal
      rw [if_pos hc]
    have hlt : c.toNat - 48 < 10 := by
      have := UInt8.le_iff_toNat_le.1 hc.2
      have e : (57 : UInt8).toNat = 57 := rfl
      omega
    rw [ulDigits, hd]
    simp only
    rw [if_pos hlt, ih _ (fun c hc => h c (by simp [hc])), List.foldl_cons]

/-- `strtoul` reads what `%u` has written. -/
theorem strtoul_dec {n : Nat} (hn : 0 < n) (hb : n < 2 ^ 64) : strtoul0 (dec n) = some (n, []) := by
  obtain ⟨c, cs, h, hc⟩ := dec_head hn
  have hdig := dec_digits n
  have hcd := hdig c (by rw [h]; simp)
  have tbl : ∀ k : Fin 256, isDigit (UInt8.ofNat k) = true → isSpace (UInt8.ofNat k) = false ∧ UInt8.ofNat k ≠ 45 ∧ UInt8.ofNat k ≠ 43 := by
    set_option maxRecDepth 20000 in decide
  have t := tbl ⟨c.toNat, c.toNat_lt⟩ (by simpa only [UInt8.ofNat_toNat] using hcd)
  simp only [UInt8.ofNat_toNat] at t
  obtain ⟨t1, t2, t3⟩ := t
  have k1 : skipWs (dec n) = dec n := by rw [h, skipWs, t1]; rfl
  have k2 : sign (dec n) = (false, dec n) := by
    rw [h]
    unfold sign
    split
    · rename_i e; cases e; exact absurd rfl t2
    · rename_i e; cases e; exact absurd rfl t3
    · rfl
  have k3 : ulBase (dec n) = (10, dec n) := by
    rw [h]
    unfold ulBase
    split
    · rename_i e; cases e; exact absurd rfl hc
    · rename_i e; cases e; exact absurd rfl hc
    · rfl
  have k4 : ulDigits 10 (dec n) 0 = (n, []) := by
    rw [ulDigits_dec _ _ hdig]
    exact Prod.ext (decVal_dec n) rfl
  unfold strtoul0
  rw [k1, k2]
  simp only [k3, k4]
  rw [if_neg, if_neg (by omega)]
  · simp
  · simp only [List.length_nil]
    intro h0
    exact dec_ne_nil n (List.length_eq_zero_iff.1 h0.symm)

theorem segNumber_dec {n : Nat} (hn : 0 < n) (hb : n < 2 ^ 31) : segNumber (dec n) = ((n : Int), []) := by
  unfold segNumber
  rw [strtoul_dec hn (by omega)]
  simp only [if_true]
  unfold toInt
  rw [Nat.mod_eq_of_lt (by omega), if_pos hb]

/-! ### The headers of stored records -/

theorem identCreate_setId {sha : Bytes → Bytes} {n : Nat} {h : Hdr} {d id : Bytes} (e : identCreate sha n h d = .ok id) : id.take n = id := by
  unfold identCreate at e
  split at e
  · cases e
  · repeat' split at e
    all_goals first
      | (cases e; done)
      | (cases e; rw [List.take_take, Nat.min_self])

/-- The ID of an object that was not given one. -/
theorem objectId_create {env : Env} {jh x : Hdr} {payload : Bytes} (h : ObjectId env jh none payload x.id)
    (h1 : headerGet x b!"WARC-Type" = headerGet jh b!"WARC-Type") (h2 : headerGet x b!"WARC-Refers-To" = headerGet jh b!"WARC-Refers-To") :
    HasIdentity env.sha env.idSize x payload := by
  unfold ObjectId identSet headerSetId at h
  simp only [Res.bind_eq_ok, Res.check_eq_ok, exists_const, Res.pure_eq, Res.ok.injEq, Hdr.mk.injEq] at h
  obtain ⟨id, e1, -, -, e2, -⟩ := h
  rw [← identCreate_iff, C49_nothing_else _ _ _ _ _ h1 h2, e1, ← e2, identCreate_setId e1]

theorem honest_ident {env : Env} {g : Bool} {x : Item} {ys : List Item} (h : Honest env g x ys) :
    ¬ (headerGet x.hdr b!"WARC-Type" = some b!"metadata" ∧ g = true) → HasIdentity env.sha env.idSize x.hdr ((x :: ys).map (·.record.data)).flatten := by
  intro hn
  obtain ⟨jh, ident, -, ht, hi, hg⟩ := h
  have h1 := ht.kept b!"WARC-Type" (by unfold Kept Free Other; decide)
  have h2 := ht.kept b!"WARC-Refers-To" (by unfold Kept Free Other; decide)
  cases ident with
  | none => exact objectId_create hi h1 h2
  | some i =>
    obtain ⟨a, b⟩ := hg (by simp)
    exact absurd ⟨h1.trans b, a⟩ hn

theorem intact_plain {env : Env} {g : Bool} {x : Item} (h1 : PlainHdr x) (h2 : Honest env g x []) : Intact env.sha env.idSize g x.hdr x.record.data := by
  have h3 := honest_ident h2
  obtain ⟨jh, ident, -, ht, -⟩ := h2
  obtain ⟨t1, t2⟩ := ht.told x (by simp)
  refine ⟨t1, t2, fun _ h => ?_, fun t h => ?_⟩
  · simpa using h3 h
  · rw [h1.1] at h; cases h

theorem intact_info {env : Env} {g : Bool} {x : Item} (h : InfoItem env x) : Intact env.sha env.idSize g x.hdr x.record.data ∧
    headerGet x.hdr b!"WARC-Segment-Number" = none := by
  obtain ⟨-, h1, hd⟩ := h
  unfold infoHdr at h1
  simp only [Res.bind_eq_ok] at h1
  obtain ⟨h1, e1, h2, e2, h3, e3, h4, e4, h5, e5, h6, e6, e7⟩ := h1
  have s0 : SortedF (headerNew env.idSize).fields := (neat_new _).1
  have i1 := headerSet_inv s0 e1
  have i2 := headerSet_inv i1.2.2.1 e2
  have i3 := headerSet_inv i2.2.2.1 e3
  have i4 := headerSet_inv i3.2.2.1 e4
  have i5 := headerSet_inv i4.2.2.1 e5
  have i6 := headerSet_inv i5.2.2.1 e6
  have i7 := (identSet_inv e7).1
  have hnum : headerGet x.hdr b!"WARC-Segment-Number" = none := by
    rw [get_of_fields i7, i6.2.2.2.1, if_neg (by decide), i5.2.2.2.1, if_neg (by decide), i4.2.2.2.1, if_neg (by decide), i3.2.2.2.1,
        if_neg (by decide), i2.2.2.2.1, if_neg (by decide), i1.2.2.2.1, if_neg (by decide)]
    rfl
  have htype : headerGet x.hdr b!"WARC-Type" = some b!"warcinfo" := by
    rw [get_of_fields i7, i6.2.2.2.1, if_neg (by decide), i5.2.2.2.1, if_neg (by decide), i4.2.2.2.1, if_neg (by decide), i3.2.2.2.1,
        if_pos (strcasecmp_refl _)]
  refine ⟨⟨?_, ?_, fun _ _ => ?_, fun t h => ?_⟩, hnum⟩
  · rw [get_of_fields i7, i6.2.2.2.1, if_pos (strcasecmp_refl _), hd]
  · rw [get_of_fields i7, i6.2.2.2.1, if_neg (by decide), i5.2.2.2.1, if_pos (strcasecmp_refl _), hd]
  · unfold identSet headerSetId at e7
    simp only [Res.bind_eq_ok, Res.check_eq_ok, exists_const, Res.pure_eq, Res.ok.injEq] at e7
    obtain ⟨id, q1, -, -, q2⟩ := e7
    rw [← identCreate_iff, hd]
    have := C49_nothing_else env.sha env.idSize x.hdr h6 (env.sha (infoBody env x.entry.silo)) (get_of_fields i7 _) (get_of_fields i7 _)
    rw [this, q1, ← q2]
    show Res.ok id = Res.ok (id.take env.idSize)
    rw [identCreate_setId q1]
  · rw [hnum] at h; cases h

theorem segHdrs_number {pfx fid : Bytes} (l : List Item) : ∀ {n : Nat}, SegHdrs pfx fid n l → ∀ y ∈ l, ∃ k, n ≤ k ∧ k < n + l.length ∧
    headerGet y.hdr b!"WARC-Segment-Number" = some (dec k) ∧ (k ≠ 1 → HasOrigin pfx y.hdr fid ∧ headerGet y.hdr b!"WARC-Type" = some b!"continuation") := by
  induction l with
  | nil => intro n _ y hy; cases hy
  | cons x l ih =>
    intro n h y hy
    obtain ⟨h1, h2, -, -, -, h6⟩ := h
    rcases List.mem_cons.1 hy with rfl | hy
    · exact ⟨n, Nat.le_refl _, by simp, h1, h2⟩
    · obtain ⟨k, a, b, c⟩ := ih h6 y hy
      exact ⟨k, by omega, by simp only [List.length_cons]; omega, c⟩

theorem intact_seg {env : Env} {g : Bool} {x : Item} {ys : List Item} (hs : SegHdrs env.pfx x.hdr.id 1 (x :: ys)) (h : Honest env g x ys)
    (hlen : ys.length < 2 ^ 31 - 1) : ∀ y ∈ x :: ys, Intact env.sha env.idSize g y.hdr y.record.data := by
  obtain ⟨jh, ident, -, ht, -⟩ := h
  intro y hy
  obtain ⟨t1, t2⟩ := ht.told y hy
  have hnum : ∃ k, 0 < k ∧ k < 2 ^ 64 ∧ headerGet y.hdr b!"WARC-Segment-Number" = some (dec k) := by
    obtain ⟨k, a, b, c, -⟩ := segHdrs_number _ hs y hy
    rw [List.length_cons] at b
    exact ⟨k, by omega, by omega, c⟩
  obtain ⟨k0, k1, k2, k3⟩ := hnum
  refine ⟨t1, t2, fun hn _ => ?_, fun t ht' => ?_⟩
  · rcases List.mem_cons.1 hy with rfl | hy
    · exact absurd hs.1 (by rw [show dec 1 = b!"1" from by decide]; exact hn)
    · obtain ⟨k, a, b, c, d⟩ := segHdrs_number _ hs.2.2.2.2.2 y hy
      exact .inl ⟨.inr (.inl (d (by omega)).2), ht.ids y hy⟩
  · rw [k3] at ht'
    cases ht'
    exact ⟨k0, strtoul_dec k1 k2⟩

theorem parts_intact {env : Env} {g : Bool} {A P I : List Item} {objs : List (Item × List Item)} (hp : Parts env g A P objs I) (hfew : A.length < 2 ^ 31) :
    ∀ x ∈ A, Intact env.sha env.idSize g x.hdr x.record.data := by
  intro x hx
  have hlen := hp.perm.length_eq
  simp only [List.length_append] at hlen
  have := hp.perm.mem_iff.1 hx
  simp only [List.mem_append, List.mem_flatMap] at this
  rcases this with h | ⟨o, ho, h⟩ | h
  · exact intact_plain (hp.plain x h).1 (hp.plain x h).2.2
  · obtain ⟨-, s2, -, -, s5⟩ := hp.several o ho
    have hle : (o.1 :: o.2).length ≤ (objs.flatMap (fun o => o.1 :: o.2)).length :=
      List.Sublist.length_le (List.sublist_flatten_of_mem (List.mem_map.2 ⟨o, ho, rfl⟩))
    rw [List.length_cons] at hle
    exact intact_seg s2 s5 (by omega) x h
  · exact (intact_info (hp.info x h)).1

/-! ### Auditing a silo -/

/-- The number of the segment, if it is one. -/
def segOfHdr (h : Hdr) : Option Int := (headerGet h b!"WARC-Segment-Number").map fun t => (segNumber t).1

theorem checkDigest_ok {h : Hdr} {n e : Bytes} (hg : headerGet h n = some (b!"sha256:" ++ e)) : checkDigest h n e = .ok [] := by
  unfold checkDigest
  rw [hg]
  simp

theorem checkIdent_ok {sha : Bytes → Bytes} {idSize : Nat} {ign : Bool} {h : Hdr} {data : Bytes}
    (hi : ¬ (headerGet h b!"WARC-Type" = some b!"metadata" ∧ ign = true) → HasIdentity sha idSize h data) : checkIdent sha idSize ign h (sha data) = .ok [] := by
  by_cases hm : headerGet h b!"WARC-Type" = some b!"metadata" ∧ ign = true
  · unfold checkIdent
    rw [hm.1]
    simp [hm.2]
  · have hid := hi hm
    have ht : ∃ t, headerGet h b!"WARC-Type" = some t := by
      rcases hid with ⟨h | h | h, -⟩ | ⟨h, -⟩ <;> exact ⟨_, h⟩
    obtain ⟨t, ht⟩ := ht
    unfold checkIdent
    rw [ht]
    simp only
    rw [ht, Option.some.injEq] at hm
    rw [if_neg hm, (identCreate_iff _ _ _ _).2 hid]
    simp

/-- The audit has nothing to say about an intact record. -/
theorem auditOne_ok {sha : Bytes → Bytes} {idSize : Nat} {ign : Bool} {ap : Ap} (hi : Intact sha idSize ign ap.hdr ap.content)
    (hb : ap.bodylen = (ap.o2 : Int) - ap.o1) : auditOne sha idSize ign ap = .ok ([], segOfHdr ap.hdr) := by
  unfold auditOne segOfHdr
  simp only [checkDigest_ok hi.digest, (checkHeader_nil _ _ _).2 hi.length, Res.ok_bind]
  rw [if_neg (by simp [hb])]
  cases hn : headerGet ap.hdr b!"WARC-Segment-Number" with
  | none =>
    simp only
    rw [checkIdent_ok (hi.ident (by rw [hn]; simp))]
    rfl
  | some t =>
    simp only
    rw [(segNumber_nil t).2 (hi.number t hn)]
    split
    · rfl
    · rename_i h1
      rw [checkIdent_ok (hi.ident (by rw [hn]; simpa using h1))]
      rfl

/-- The list element for a record that begins at `off`. -/
def apOf (silo off : Nat) (x : Rec × Hdr) : Ap :=
  { silo := silo, o0 := off, o1 := off + x.1.hgz.length, o2 := off + x.1.hgz.length + x.1.bgz.length, bodylen := x.1.bgz.length, hdr := x.2,
    content := x.1.data, segment := (segOfHdr x.2).getD 0 }

/-- The list elements of a silo. -/
def apsOf (silo : Nat) : Nat → List (Rec × Hdr) → List Ap
  | _, [] => []
  | off, x :: l => apOf silo off x :: apsOf silo (off + x.1.bytes.length) l

theorem auditLoop_intact {ps : Nat} {pfx : Bytes} {cut : Bytes → List Bytes} (hcut : ∀ b, (cut b).flatten = b) {sha : Bytes → Bytes} {idSize : Nat} {ign : Bool}
    {silo : Nat} (l : List (Rec × Hdr)) : ∀ (pre : Bytes) (fuel : Nat) (bl : Int),
    (∀ x ∈ l, x.1.Complete pfx x.2 ∧ x.1.Fits ps ∧ Intact sha idSize ign x.2 x.1.data) → l.length < fuel →
    auditLoop ps pfx cut sha idSize ign silo fuel { file := pre ++ siloBytes (l.map (·.1)), pos := pre.length, bodylen := bl, whr := .head } =
      .ok ((apsOf silo pre.length l).map fun a => (a, [], segOfHdr a.hdr)) := by
  induction l with
  | nil =>
    intro pre fuel bl hl hf
    cases fuel with
    | zero => omega
    | succ fuel =>
      rw [auditLoop]
      have hr : Rsilo.readHeader ps pfx { file := pre ++ siloBytes (([] : List (Rec × Hdr)).map (·.1)), pos := pre.length, bodylen := bl, whr := .head } =
          .ok (none, { file := pre ++ siloBytes (([] : List (Rec × Hdr)).map (·.1)), pos := pre.length, bodylen := bl, whr := .head }) := by
        unfold Rsilo.readHeader Rsilo.read
        simp [siloBytes]
      rw [hr]
      rfl
  | cons x l ih =>
    intro pre fuel bl hl hf
    cases fuel with
    | zero => omega
    | succ fuel =>
      obtain ⟨r, hd⟩ := x
      obtain ⟨hc, hf2, hi⟩ := hl _ (List.mem_cons_self ..)
      have hfile : pre ++ siloBytes (((r, hd) :: l).map (·.1)) = pre ++ r.bytes ++ siloBytes (l.map (·.1)) := by
        simp [siloBytes, List.append_assoc]
      rw [hfile, auditLoop, readHeader_rec hc hf2 bl]
      simp only [Res.ok_bind]
      have hb : Rsilo.bodyLen (atBody (pre ++ r.bytes ++ siloBytes (l.map (·.1))) pre.length r) = .ok (r.bgz.length : Int) := by
        unfold Rsilo.bodyLen atBody
        simp
      have hdel : Rsilo.deliver auditIter (cut r.data) [] = .ok (r.data, true) := by
        have := deliver_collectIter (cut r.data) []
        rw [hcut] at this
        exact this
      rw [hb, readChunk_rec hc, hdel]
      simp only [Res.ok_bind, Res.pure_eq, skipCRNL_rec]
      rw [auditOne_ok hi (by simp only [atBody, atCrlf]; omega)]
      simp only [Res.ok_bind]
      rw [ih (pre ++ r.bytes) fuel _ (fun x hx => hl x (by simp [hx])) (by simpa using hf)]
      simp only [Res.ok_bind, apsOf, List.map_cons, List.length_append, apOf, atBody, atCrlf]

/-! ### The archive -/

/-- The list element for a record of the archive. -/
def apItem (x : Item) : Ap := apOf x.entry.silo x.entry.off (x.record, x.hdr)

theorem apsOf_items {n : Nat} (X : List Item) : ∀ {off : Nat}, (∀ x ∈ X, x.entry.silo = n) → X.map (·.entry.off) = offsets off (X.map (·.record)) →
    apsOf n off (X.map fun x => (x.record, x.hdr)) = X.map apItem := by
  induction X with
  | nil => intro off _ _; rfl
  | cons x X ih =>
    intro off h1 h2
    simp only [List.map_cons, offsets, List.cons.injEq] at h2
    simp only [List.map_cons, apsOf]
    rw [ih (fun y hy => h1 y (by simp [hy])) h2.2]
    congr 1
    unfold apItem
    rw [h1 x (by simp), h2.1]

theorem apsOf_hdr (n : Nat) (l : List (Rec × Hdr)) : ∀ off, (apsOf n off l).map (·.hdr) = l.map (·.2) := by
  induction l with
  | nil => intro off; rfl
  | cons x l ih => intro off; simp [apsOf, apOf, ih]

/-- What the audit makes of an intact record. -/
def auditItem (x : Item) : Ap × List Msg × Option Int := (apItem x, [], segOfHdr x.hdr)

theorem auditSilo_items {env : Env} {cut : Bytes → List Bytes} (hcut : ∀ b, (cut b).flatten = b) {ign : Bool} {n : Nat} {X : List Item} {f : Silo}
    {s : Nat → Option Silo} (hX : ∀ x ∈ X, x.entry.silo = n ∧ x.At env.ps env.pfx s ∧ Intact env.sha env.idSize ign x.hdr x.record.data)
    (hd : f.data = siloBytes (X.map (·.record))) (ho : X.map (·.entry.off) = offsets 0 (X.map (·.record))) {fuel : Nat} (hfuel : f.data.length < fuel) :
    auditSilo env.ps env.pfx cut env.sha env.idSize ign n fuel f.data = .ok (X.map auditItem) := by
  have hlen := siloBytes_length (X.map (·.record))
  rw [← hd, List.length_map] at hlen
  unfold auditSilo Rsilo.rsOpen
  have := auditLoop_intact (ps := env.ps) (pfx := env.pfx) hcut (sha := env.sha) (idSize := env.idSize) (ign := ign) (silo := n)
    (X.map fun x => (x.record, x.hdr)) [] fuel 0 (by
      intro y hy
      obtain ⟨x, hx, rfl⟩ := List.mem_map.1 hy
      obtain ⟨-, ⟨-, h1, h2⟩, h3⟩ := hX x hx
      exact ⟨h1, h2, h3⟩) (by rw [List.length_map]; omega)
  simp only [List.map_map, Function.comp_def, List.nil_append, List.length_nil] at this
  rw [hd, this, apsOf_items X (fun x hx => (hX x hx).1) ho, List.map_map]
  rfl

theorem intact_any {sha : Bytes → Bytes} {idSize : Nat} {h : Hdr} {d : Bytes} (hi : Intact sha idSize false h d) (ign : Bool) : Intact sha idSize ign h d :=
  ⟨hi.digest, hi.length, fun a _ => hi.ident a (by simp), hi.number⟩

/-- The silos of the archive, each with its records in order. -/
theorem layout_choice {s : Nat → Option Silo} {A : List Item} (hl : Layout s A) : ∃ Y : Nat → List Item, ∀ n f, s n = some f →
    (Y n).Perm (A.filter fun x => x.entry.silo = n) ∧ f.data = siloBytes ((Y n).map (·.record)) ∧
      (Y n).map (·.entry.off) = offsets 0 ((Y n).map (·.record)) := by
  refine Classical.axiomOfChoice (r := fun n (X : List Item) => ∀ f, s n = some f → X.Perm (A.filter fun x => x.entry.silo = n) ∧
    f.data = siloBytes (X.map (·.record)) ∧ X.map (·.entry.off) = offsets 0 (X.map (·.record))) fun n => ?_
  cases h : s n with
  | none => exact ⟨[], fun f hf => (by cases hf)⟩
  | some f =>
    obtain ⟨X, hX⟩ := hl n f h
    exact ⟨X, fun f' hf => by cases hf; exact hX⟩

/-- C54 for records: whatever has been stored, the audit has nothing to say about any record of any silo. -/
theorem C54_records {σ : Type} {env : Env} {D : Deflater σ} (hz : Zlib D) (he : EnvOk env) {g : Bool} {w0 w : World} (hw0 : w0.dir = {})
    (hs0 : ∀ n, w0.silos n = none) (hl : Stores env D g w0 w) {cut : Bytes → List Bytes} (hcut : ∀ b, (cut b).flatten = b) :
    ∃ ops A, ArchInv env w ops A ∧ (A.length < 2 ^ 31 → ∀ n f fuel, w.silos n = some f → f.data.length < fuel →
      ∃ l, auditSilo env.ps env.pfx cut env.sha env.idSize g n fuel f.data = .ok l ∧ (∀ x ∈ l, x.2.1 = []) ∧
        (l.map fun x => (x.1.hdr, x.1.content)).Perm ((A.filter fun x => x.entry.silo = n).map fun x => (x.hdr, x.record.data))) := by
  obtain ⟨ops, A, P, objs, I, h1, h2, h3⟩ := stores_inv hz he hl hw0 hs0
  refine ⟨ops, A, h1, fun hfew n f fuel hf hfuel => ?_⟩
  obtain ⟨X, x1, x2, x3⟩ := h2 n f hf
  have hi := parts_intact h3 hfew
  refine ⟨_, auditSilo_items (s := w.silos) hcut (fun x hx => ?_) x2 x3 hfuel, ?_, ?_⟩
  · obtain ⟨a, b⟩ := List.mem_filter.1 (x1.mem_iff.1 hx)
    exact ⟨of_decide_eq_true b, h1.there x a, hi x a⟩
  · intro y hy
    obtain ⟨x, -, rfl⟩ := List.mem_map.1 hy
    rfl
  · rw [List.map_map]
    exact x1.map fun x => (x.hdr, x.record.data)

/-! ### Objects of several segments -/

theorem seg_of_number {x : Item} {k : Nat} (h1 : 0 < k) (h2 : k < 2 ^ 31) (h : headerGet x.hdr b!"WARC-Segment-Number" = some (dec k)) :
    segOfHdr x.hdr = some (k : Int) := by
  unfold segOfHdr
  rw [h, Option.map_some, segNumber_dec h1 h2]

theorem apItem_segment {x : Item} {k : Nat} (h1 : 0 < k) (h2 : k < 2 ^ 31) (h : headerGet x.hdr b!"WARC-Segment-Number" = some (dec k)) :
    (apItem x).segment = k := by
  show (segOfHdr x.hdr).getD 0 = _
  rw [seg_of_number h1 h2 h]
  rfl

theorem owner_origin {pfx id : Bytes} {a : Ap} (h1 : a.segment ≠ 1) (h : HasOrigin pfx a.hdr id) : ownerOf pfx a = id := by
  unfold ownerOf
  unfold HasOrigin at h
  rw [if_neg h1, h]
  simp only [Option.getD_some, List.append_assoc]
  rw [show b!"<" ++ (pfx ++ (id ++ b!">")) = (b!"<" ++ pfx) ++ (id ++ b!">") by simp, List.drop_left' (by simp; omega)]
  exact List.dropLast_concat

theorem owner_seg {pfx : Bytes} {x : Item} {ys : List Item} (hs : SegHdrs pfx x.hdr.id 1 (x :: ys)) (hlen : ys.length < 2 ^ 31 - 1) :
    ∀ y ∈ x :: ys, ownerOf pfx (apItem y) = x.hdr.id ∧ (segOfHdr y.hdr).isSome = true ∧
      ((apItem y).segment ≠ 1 → headerGet (apItem y).hdr b!"WARC-Segment-Origin-ID" = some (b!"<" ++ pfx ++ x.hdr.id ++ b!">")) := by
  intro y hy
  rcases List.mem_cons.1 hy with rfl | hy
  · have h1 : (apItem y).segment = 1 := apItem_segment (k := 1) (by decide) (by decide) hs.1
    refine ⟨?_, by rw [seg_of_number (by omega) (by omega) hs.1]; rfl, fun h => absurd h1 h⟩
    unfold ownerOf
    rw [if_pos h1]
    rfl
  · obtain ⟨k, a, b, c, d⟩ := segHdrs_number _ hs.2.2.2.2.2 y hy
    have h1 := apItem_segment (by omega) (by omega) c
    have hne : (apItem y).segment ≠ 1 := by rw [h1]; omega
    exact ⟨owner_origin hne (d (by omega)).1, by rw [seg_of_number (by omega) (by omega) c]; rfl, fun _ => (d (by omega)).1⟩

theorem chained_items {pfx fid : Bytes} (l : List Item) : ∀ {n : Nat} {x : Item}, 0 < n → n + l.length < 2 ^ 31 → SegHdrs pfx fid n (x :: l) →
    Chained pfx fid (apItem x) (l.map apItem) := by
  induction l with
  | nil => intro n x _ _ _; trivial
  | cons y l ih =>
    intro n x hn hb h
    rw [List.length_cons] at hb
    obtain ⟨h1, -, -, -, -, h6⟩ := h
    refine ⟨⟨?_, [], ?_⟩, ih (by omega) (by omega) h6⟩
    · rw [apItem_segment hn (by omega) h1, apItem_segment (by omega) (by omega) h6.1]
      omega
    · rw [List.append_nil]
      exact (h6.2.1 (by omega)).1

theorem segHdrs_total {pfx fid : Bytes} {z : Item} (l : List Item) : ∀ {n : Nat}, SegHdrs pfx fid n (l ++ [z]) →
    ∀ b ∈ l, headerGet b.hdr b!"WARC-Segment-Total-Length" = none := by
  induction l with
  | nil => intro n _ b hb; cases hb
  | cons x l ih =>
    intro n h b hb
    obtain ⟨-, -, h3, -, -, h6⟩ := h
    rcases List.mem_cons.1 hb with rfl | hb
    · have h3 : _ = (l ++ [z]).isEmpty := h3
      rw [show (l ++ [z]).isEmpty = false by cases l <;> rfl] at h3
      simpa using h3
    · exact ih h6 b hb

theorem contents_items (l : List Item) : contents (l.map apItem) = (l.map (·.record.data)).flatten := by
  unfold contents
  rw [List.map_map]
  rfl

/-- A stored object is whole. -/
theorem whole_items {env : Env} {x z : Item} {bs : List Item} (hs : SegHdrs env.pfx x.hdr.id 1 (x :: (bs ++ [z]))) (h : Honest env false x (bs ++ [z]))
    (hlen : (bs ++ [z]).length < 2 ^ 31 - 1) : Whole env.sha env.idSize env.pfx (apItem x) (bs.map apItem) (apItem z) := by
  have hc : contents (apItem x :: bs.map apItem ++ [apItem z]) = ((x :: (bs ++ [z])).map (·.record.data)).flatten := by
    rw [← contents_items]
    simp
  have hid := honest_ident h (by simp)
  obtain ⟨jh, ident, -, ht, -⟩ := h
  have hone : (apItem x).segment = ((1 : Nat) : Int) := apItem_segment (by decide) (by decide) hs.1
  refine ⟨hone, ?_, ?_, ?_, ?_, ?_⟩
  · have := chained_items (bs ++ [z]) (by omega) (by omega) hs
    rw [List.map_append] at this
    exact this
  · rw [hc]
    exact ht.total (by simp) z (by rw [List.getLast?_cons, List.getLast?_append]; simp)
  · intro b hb
    obtain ⟨c, hc, rfl⟩ := List.mem_map.1 hb
    exact segHdrs_total _ hs.2.2.2.2.2 c hc
  · rw [hc]
    exact ht.digest (by simp)
  · rw [hc]
    exact hid

theorem flatMap_owner {α β : Type} [DecidableEq β] (f : α → List Item) (key : α → β) (own : Item → β) (objs : List α) (h : ∀ o ∈ objs, ∀ y ∈ f o, own y = key o)
    (hp : objs.Pairwise fun a b => key a ≠ key b) : ∀ o ∈ objs, (objs.flatMap f).filter (fun y => own y = key o) = f o := by
  induction objs with
  | nil => intro o ho; cases ho
  | cons c objs ih =>
    intro o ho
    obtain ⟨p1, p2⟩ := List.pairwise_cons.1 hp
    rw [List.flatMap_cons, List.filter_append]
    have hall : ∀ o ∈ objs, ∀ y ∈ objs.flatMap f, own y ≠ key c := by
      intro o ho y hy
      obtain ⟨o', ho', hy⟩ := List.mem_flatMap.1 hy
      rw [h o' (by simp [ho']) y hy]
      exact (p1 o' ho').symm
    rcases List.mem_cons.1 ho with rfl | ho
    · rw [List.filter_eq_self.2 (fun y hy => by simp [h o (by simp) y hy]), List.filter_eq_nil_iff.2, List.append_nil]
      intro y hy
      simp only [decide_eq_true_eq]
      obtain ⟨o', ho', hy'⟩ := List.mem_flatMap.1 hy
      exact hall o' ho' y hy
    · rw [ih (fun o ho => h o (by simp [ho])) p2 o ho, List.filter_eq_nil_iff.2, List.nil_append]
      intro y hy
      simp only [decide_eq_true_eq]
      rw [h c (by simp) y hy]
      exact p1 o ho

theorem pairwise_inj {α : Type} (f : α → Nat) (l : List α) (h : l.Pairwise fun a b => f a < f b) : ∀ a ∈ l, ∀ b ∈ l, f a = f b → a = b := by
  induction l with
  | nil => intro a ha; cases ha
  | cons c l ih =>
    obtain ⟨h1, h2⟩ := List.pairwise_cons.1 h
    intro a ha b hb e
    rcases List.mem_cons.1 ha with ha' | ha' <;> rcases List.mem_cons.1 hb with hb' | hb'
    · rw [ha', hb']
    · have := h1 b hb'; rw [ha'] at e; omega
    · have := h1 a ha'; rw [hb'] at e; omega
    · exact ih h2 a ha' b hb' e

theorem pending_items (l : List Item) : pendingOf (l.map auditItem) = (l.filter fun x => (segOfHdr x.hdr).isSome).map apItem := by
  unfold pendingOf
  rw [List.filter_map, List.map_map]
  rfl

theorem auditSilos_items {env : Env} {cut : Bytes → List Bytes} {ign : Bool} {s : Nat → Option Silo} {lf N : Nat} {Y : Nat → List Item}
    (hN : ∀ n, s n ≠ none ↔ n < N) (hY : ∀ n f, s n = some f → auditSilo env.ps env.pfx cut env.sha env.idSize ign n lf f.data = .ok ((Y n).map auditItem)) :
    ∀ k i fuel, i + k = N → k < fuel → auditSilos env.ps env.pfx cut env.sha env.idSize ign s lf fuel i = .ok (((List.range' i k).flatMap Y).map auditItem) := by
  intro k
  induction k with
  | zero =>
    intro i fuel hi hf
    cases fuel with
    | zero => omega
    | succ fuel =>
      rw [auditSilos]
      cases h : s i with
      | none => rfl
      | some f => exact absurd ((hN i).1 (by rw [h]; simp)) (by omega)
  | succ k ih =>
    intro i fuel hi hf
    cases fuel with
    | zero => omega
    | succ fuel =>
      rw [auditSilos]
      cases h : s i with
      | none => exact absurd h ((hN i).2 (by omega))
      | some f =>
        simp only
        rw [hY i f h, ih (i + 1) fuel (by omega) (by omega)]
        simp [List.range'_succ, List.flatMap_cons]

/-- Auditing an archive whose silos consist of the records of complete objects. -/
theorem audit_parts {env : Env} {w : World} {ops : List IdxOp} {A P : List Item} {objs : List (Item × List Item)} {I : List Item}
    (ha : ArchInv env w ops A) (hl : Layout w.silos A) (hp : Parts env false A P objs I) (hf : FirstsDiffer A) (hfew : A.length < 2 ^ 31)
    {N : Nat} (hN : ∀ n, w.silos n ≠ none ↔ n < N) {cut : Bytes → List Bytes} (hcut : ∀ b, (cut b).flatten = b) (ign : Bool) {fuel : Nat}
    (hf1 : N < fuel) (hf2 : A.length < fuel) (hf3 : ∀ n f, w.silos n = some f → f.data.length < fuel) :
    ∃ l os, mainAudit env.ps env.pfx cut env.sha env.idSize ign w.silos fuel = .ok (some (l, os, [])) ∧ (∀ x ∈ l, x.2.1 = []) ∧
      (∀ o ∈ os, ∃ rest, o = .object [] rest) ∧ (l.map fun x => (x.1.hdr, x.1.content)).Perm (A.map fun x => (x.hdr, x.record.data)) := by
  obtain ⟨Y, hY⟩ := layout_choice hl
  have hi := parts_intact hp hfew
  have hYm : ∀ n < N, ∀ x ∈ Y n, x.entry.silo = n ∧ x ∈ A := by
    intro n hn x hx
    cases h : w.silos n with
    | none => exact absurd h ((hN n).2 hn)
    | some f =>
      obtain ⟨a, b⟩ := List.mem_filter.1 ((hY n f h).1.mem_iff.1 hx)
      exact ⟨of_decide_eq_true b, a⟩
  have hsil := auditSilos_items (env := env) (cut := cut) (ign := ign) (lf := fuel) hN (Y := Y) (by
    intro n f h
    obtain ⟨y1, y2, y3⟩ := hY n f h
    refine auditSilo_items (s := w.silos) hcut (fun x hx => ?_) y2 y3 (hf3 n f h)
    obtain ⟨a, b⟩ := hYm n ((hN n).1 (by rw [h]; simp)) x hx
    exact ⟨a, ha.there x b, intact_any (hi x b) ign⟩) N 0 fuel (by omega) hf1
  obtain ⟨Z, hZ⟩ : ∃ Z, Z = (List.range' 0 N).flatMap Y := ⟨_, rfl⟩
  rw [← hZ] at hsil
  have hrange : ∀ n, n ∈ List.range' 0 N ↔ n < N := by intro n; simp [List.mem_range'_1]
  have hperm : Z.Perm A := by
    rw [hZ]
    refine List.Perm.trans (_root_.Verif.Reindex.flatMap_perm (g := fun n => A.filter fun x => x.entry.silo = n) _ fun n hn => ?_)
      (by_silo (·.entry.silo) (List.range' 0 N) A List.nodup_range' ?_)
    · cases h : w.silos n with
      | none => exact absurd h ((hN n).2 ((hrange n).1 hn))
      | some f => exact (hY n f h).1
    · intro x hx
      obtain ⟨⟨f, _, _, e, -⟩, -⟩ := ha.there x hx
      rw [hrange, ← hN, e]
      simp
  have hsorted : Z.Pairwise fun a b => a.entry.silo ≤ b.entry.silo := by
    rw [hZ, List.pairwise_flatMap]
    refine ⟨fun n hn => ?_, ?_⟩
    · refine List.pairwise_of_forall_mem_list fun a ha b hb => ?_
      rw [(hYm n ((hrange n).1 hn) a ha).1, (hYm n ((hrange n).1 hn) b hb).1]
      exact Nat.le_refl _
    · refine List.Pairwise.imp_of_mem ?_ (List.pairwise_lt_range' (s := 0) (n := N))
      intro m n hm hn hlt a ha b hb
      rw [(hYm m ((hrange m).1 hm) a ha).1, (hYm n ((hrange n).1 hn) b hb).1]
      omega
  have hall := hperm.trans hp.perm
  have hlen := hp.perm.length_eq
  simp only [List.length_append] at hlen
  have hobj : ∀ o ∈ objs, o.2.length < 2 ^ 31 - 1 := by
    intro o ho
    have : (o.1 :: o.2).length ≤ (objs.flatMap (fun o => o.1 :: o.2)).length :=
      List.Sublist.length_le (List.sublist_flatten_of_mem (List.mem_map.2 ⟨o, ho, rfl⟩))
    rw [List.length_cons] at this
    omega
  have hown : ∀ o ∈ objs, _ := fun o ho => owner_seg (hp.several o ho).2.1 (hobj o ho)
  -- only the segments of objects are on the list
  have hseg : (Z.filter fun x => (segOfHdr x.hdr).isSome).Perm (objs.flatMap fun o => o.1 :: o.2) := by
    refine (hall.filter _).trans ?_
    rw [List.filter_append, List.filter_append, List.filter_eq_nil_iff.2, List.filter_eq_self.2, List.filter_eq_nil_iff.2, List.nil_append, List.append_nil]
    · intro y hy
      unfold segOfHdr
      rw [(intact_info (g := false) (hp.info y hy)).2]
      simp
    · intro y hy
      obtain ⟨o, ho, hy⟩ := List.mem_flatMap.1 hy
      exact (hown o ho y hy).2.1
    · intro y hy
      unfold segOfHdr
      rw [(hp.plain y hy).1.1]
      simp
  have hdiff := firsts_objs objs (fun o ho => (hp.several o ho).2.1) (by
    have := firsts_perm hp.perm hf
    unfold FirstsDiffer at this ⊢
    rw [List.pairwise_append, List.pairwise_append] at this
    exact this.2.1.1)
  have hclass : ∀ o ∈ objs, (Z.filter fun x => (segOfHdr x.hdr).isSome).filter (fun y => ownerOf env.pfx (apItem y) = o.1.hdr.id) = o.1 :: o.2 := by
    intro o ho
    have hpm : ((Z.filter fun x => (segOfHdr x.hdr).isSome).filter (fun y => ownerOf env.pfx (apItem y) = o.1.hdr.id)).Perm (o.1 :: o.2) := by
      refine (hseg.filter _).trans ?_
      rw [flatMap_owner (fun o => o.1 :: o.2) (fun o => o.1.hdr.id) (fun y => ownerOf env.pfx (apItem y)) objs (fun o ho y hy => (hown o ho y hy).1) hdiff o ho]
    obtain ⟨jh, ident, -, ht, -⟩ := (hp.several o ho).2.2.2.2
    refine List.Perm.eq_of_pairwise (le := fun a b => a.entry.silo ≤ b.entry.silo) ?_ ?_ (ht.order.imp Nat.le_of_lt) hpm
    · intro a b ha hb h1 h2
      exact pairwise_inj (fun x => x.entry.silo) _ ht.order a (hpm.mem_iff.1 ha) b hb (Nat.le_antisymm h1 h2)
    · exact (hsorted.filter _).filter _
  obtain ⟨os, o1, o2⟩ := C37_interleaved (ps := env.ps) (pfx := env.pfx) hcut (sha := env.sha) (idSize := env.idSize) (silos := w.silos) fuel
    (l := (Z.filter fun x => (segOfHdr x.hdr).isSome).map apItem) (by
      rw [List.length_map]
      have h1 := (List.filter_sublist (p := fun x : Item => (segOfHdr x.hdr).isSome) (l := Z)).length_le
      have h2 := hperm.length_eq
      omega) (by
      intro a haa
      obtain ⟨y, hy, rfl⟩ := List.mem_map.1 haa
      obtain ⟨o, ho, hy'⟩ := List.mem_flatMap.1 (hseg.mem_iff.1 hy)
      obtain ⟨w1, -, w3⟩ := hown o ho y hy'
      refine ⟨?_, ?_, ?_⟩
      · obtain ⟨⟨f, pre, post, e1, e2, e3⟩, e4, e5⟩ := ha.there y (hperm.mem_iff.1 (List.mem_filter.1 hy).1)
        exact ⟨f, pre, post, y.record, e1, e2, e3, e4, e5, by rw [e3]; rfl, rfl⟩
      · rw [w1]; exact (hp.several o ho).2.2.2.1
      · rw [w1]; exact w3) (by
      intro a haa
      obtain ⟨y, hy, rfl⟩ := List.mem_map.1 haa
      obtain ⟨o, ho, hy'⟩ := List.mem_flatMap.1 (hseg.mem_iff.1 hy)
      obtain ⟨s1, s2, -, -, s5⟩ := hp.several o ho
      have hlast := List.dropLast_concat_getLast s1
      have hb := hobj o ho
      rw [← hlast] at s2 s5 hb
      refine ⟨apItem o.1, (o.2.dropLast).map apItem, apItem (o.2.getLast s1), ?_, whole_items s2 s5 hb⟩
      rw [List.filter_map, (hown o ho y hy').1]
      show List.map apItem ((Z.filter fun x => (segOfHdr x.hdr).isSome).filter (fun y => ownerOf env.pfx (apItem y) = o.1.hdr.id)) = _
      rw [hclass o ho]
      have : o.1 :: o.2 = o.1 :: (o.2.dropLast ++ [o.2.getLast s1]) := by rw [hlast]
      rw [this]
      simp)
  refine ⟨Z.map auditItem, os, ?_, ?_, o2, ?_⟩
  · unfold mainAudit
    rw [hsil]
    simp only [Res.ok_bind]
    rw [pending_items, o1]
    rfl
  · intro y hy
    obtain ⟨x, -, rfl⟩ := List.mem_map.1 hy
    rfl
  · rw [List.map_map]
    exact hperm.map fun x => (x.hdr, x.record.data)

/-- C54: after any history of stores and housekeeping runs that started with an empty archive, the audit of the whole archive ends, has nothing to say about any
record or segmented object, and no segment is left over; and it has seen every record.  The conditions are that no IDs were given by the user, that no two
segmented objects have the same ID, and that there is no gap in the silo numbers, because the audit stops there. -/
theorem C54_clean_audit_partial {σ : Type} {env : Env} {D : Deflater σ} (hz : Zlib D) (he : EnvOk env) {w0 w : World} (hw0 : w0.dir = {})
    (hs0 : ∀ n, w0.silos n = none) (hl : Stores env D false w0 w) {N : Nat} (hN : ∀ n, w.silos n ≠ none ↔ n < N)
    {cut : Bytes → List Bytes} (hcut : ∀ b, (cut b).flatten = b) (ign : Bool) :
    ∃ ops A, ArchInv env w ops A ∧ (FirstsDiffer A → A.length < 2 ^ 31 → ∀ fuel, N < fuel → A.length < fuel →
      (∀ n f, w.silos n = some f → f.data.length < fuel) →
      ∃ l os, mainAudit env.ps env.pfx cut env.sha env.idSize ign w.silos fuel = .ok (some (l, os, [])) ∧ (∀ x ∈ l, x.2.1 = []) ∧
        (∀ o ∈ os, ∃ rest, o = .object [] rest) ∧ (l.map fun x => (x.1.hdr, x.1.content)).Perm (A.map fun x => (x.hdr, x.record.data))) := by
  obtain ⟨ops, A, P, objs, I, h1, h2, h3⟩ := stores_inv hz he hl hw0 hs0
  exact ⟨ops, A, h1, fun hf hfew fuel f1 f2 f3 => audit_parts h1 h2 h3 hf hfew hN hcut ign f1 f2 f3⟩

end Verif.Props
