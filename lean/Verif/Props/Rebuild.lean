/-
Property C67: rebuilding a silo keeps its records.
-/
import Verif.Proofs.RebuildRun

namespace Verif.Props
open Verif Header Gzip Wsilo Segjob Spec Inflate Rsilo
open _root_.Verif.Rebuild (Cfg Rb blankEnd putHeader gotHeader takeHead fixed takeFix endBody takeBody process members rebuildSilo rebuildFiles mainRebuild)

/-- The lists are equally long, and related one by one. -/
inductive Each {α β : Type} (R : α → β → Prop) : List α → List β → Prop where
  | nil : Each R [] []
  | cons {a b l m} : R a b → Each R l m → Each R (a :: l) (b :: m)

theorem Each.length_eq {α β : Type} {R : α → β → Prop} {l : List α} {m : List β} (h : Each R l m) : l.length = m.length := by
  induction h with
  | nil => rfl
  | cons _ _ ih => rw [List.length_cons, List.length_cons, ih]

theorem Each.right {α β : Type} {R : α → β → Prop} {l : List α} {m : List β} (h : Each R l m) : ∀ b ∈ m, ∃ a ∈ l, R a b := by
  induction h with
  | nil => intro b hb; cases hb
  | cons h1 _ ih =>
    intro b hb
    rcases List.mem_cons.1 hb with rfl | hb
    · exact ⟨_, by simp, h1⟩
    · obtain ⟨a, h2, h3⟩ := ih b hb
      exact ⟨a, List.mem_cons_of_mem _ h2, h3⟩

/-- A record that `rebuild` can deal with: complete, with an empty line at the end of the header and nowhere else, with the right `Content-Length`; the header fits the
buffer and, uncompressed, a page; and `inflate` does not fill the output buffer with its contents. -/
structure Fit (c : Cfg) (cut : Nat → Bytes → List Bytes) (x : Rec × Hdr) : Prop where
  complete : x.1.Complete c.env.pfx x.2
  blank : ∃ s, x.1.text = s ++ b!"\r\n\r\n"
  room : x.1.text.length + 1 < c.bufsiz
  page : x.1.text.length + 61 ≤ c.env.ps
  len : headerGetNumber x.2 b!"Content-Length" = .ok x.1.data.length
  size : x.1.data.length < 2 ^ 60
  small : ∀ n, ∀ p ∈ cut n x.1.data, p.length < 16 * c.env.ps

/-- The old digest, which has another name. -/
def Old (h : Hdr) : Prop := headerGet h b!"WARC-record-digest" ≠ none

/-- An old record that `rebuild` can give a new digest: the contents fit the buffer, and the longer header a page. -/
structure OldFit (c : Cfg) (x : Rec × Hdr) : Prop where
  buf : x.1.data.length ≤ c.bufsiz
  obuf : x.1.data.length < 16 * c.env.ps
  page : x.1.text.length + 217 ≤ c.env.ps

/-- The names of the fields that are dropped. -/
def Dropped (n : Bytes) : Prop := strcasecmp n b!"Content-Length-GZIP" = .eq ∨ strcasecmp n b!"z" = .eq

instance (n : Bytes) : Decidable (Dropped n) := by unfold Dropped; infer_instance

/-- `y` is `x` written anew: complete and readable, with the same contents, and the same header but for the dropped fields. -/
structure Again (c : Cfg) (x y : Rec × Hdr) : Prop where
  complete : y.1.Complete c.env.pfx y.2
  fits : y.1.Fits c.env.ps
  segment : Segment y.1.bgz y.1.data
  text : y.1.text = headerSerialize c.env.pfx y.2
  data : y.1.data = x.1.data
  id : ¬ Old x.2 → y.2.id = x.2.id
  fields : ¬ Old x.2 → y.2.fields = x.2.fields.filter fun f => ¬ Dropped f.1
  newId : Old x.2 → y.2.id = (c.env.sha x.1.data).take c.env.idSize
  digest : Old x.2 → headerGet y.2 b!"WARC-Block-Digest" = some (b!"sha256:" ++ c.env.sha x.1.data) ∧ ¬ Old y.2
  gone : ∀ m, Dropped m → headerGet y.2 m = none
  others : ∀ m, ¬ Dropped m → strcasecmp m b!"WARC-Block-Digest" ≠ .eq → strcasecmp m b!"WARC-record-digest" ≠ .eq → headerGet y.2 m = headerGet x.2 m

/-- A header that can be written and read back. -/
structure HdrOk (pfx : Bytes) (h : Hdr) : Prop where
  sorted : SortedF h.fields
  printable : Printable pfx h
  id0 : (0 : UInt8) ∉ h.id
  fields0 : ∀ f ∈ h.fields, (0 : UInt8) ∉ f.1 ∧ (0 : UInt8) ∉ f.2

theorem hdrOk_parse {pfx t : Bytes} {h : Hdr} (e : headerParse pfx t = .ok h) (hz : (0 : UInt8) ∉ t) : HdrOk pfx h :=
  ⟨headerParse_sorted e, parse_printable e, (parse_mem e hz).1, (parse_mem e hz).2⟩

theorem flen_filter (p : Bytes × Bytes → Bool) : ∀ fs : List (Bytes × Bytes), flen (fs.filter p) ≤ flen fs
  | [] => Nat.le_refl _
  | f :: fs => by
    have := flen_filter p fs
    rw [List.filter_cons]
    split
    · rw [flen_cons, flen_cons]; omega
    · rw [flen_cons]; omega

/-- What deleting a field does. -/
theorem hdrOk_delete {pfx : Bytes} {h : Hdr} (hh : HdrOk pfx h) {n : Bytes} (hn : nameOk n = true) : ∃ h', headerDelete h n = .ok h' ∧ HdrOk pfx h' ∧ h'.id = h.id ∧
    h'.fields = h.fields.filter (fun f => strcasecmp n f.1 != .eq) ∧ (∀ m, headerGet h' m = if strcasecmp m n = .eq then none else headerGet h m) ∧
    flen h'.fields ≤ flen h.fields := by
  obtain ⟨h', e1, e2, e3, e4⟩ := headerDelete_spec h n hh.sorted hn
  have e5 : h' = { h with fields := h.fields.filter fun f => strcasecmp n f.1 != .eq } := by
    unfold headerDelete at e1
    rw [hn] at e1
    cases e1
    rfl
  refine ⟨h', e1, ⟨e3, ⟨hh.printable.prefixSlash, hh.printable.prefixChars, by rw [e2]; exact hh.printable.idChars, fun f hf => ?_⟩, by rw [e2]; exact hh.id0, fun f hf => ?_⟩, e2,
    by rw [e5], e4, by rw [e5]; exact flen_filter _ _⟩
  · rw [e5] at hf
    exact hh.printable.fields f (List.mem_filter.1 hf).1
  · rw [e5] at hf
    exact hh.fields0 f (List.mem_filter.1 hf).1

/-- What setting a field does. -/
theorem hdrOk_set {pfx : Bytes} {h : Hdr} (hh : HdrOk pfx h) {n v : Bytes} (hn : nameOk n = true) (cn : CleanText n) (cv : CleanText v) : ∃ h', headerSet h n v = .ok h' ∧ HdrOk pfx h' ∧
    h'.id = h.id ∧ (∀ m, headerGet h' m = if strcasecmp m n = .eq then some v else headerGet h m) ∧ flen h'.fields ≤ flen h.fields + (n.length + 2 + v.length + 2) := by
  obtain ⟨h', e1, -⟩ := headerSet_spec h n v hh.sorted hn
  obtain ⟨-, k2, k3, k4, k5, k6⟩ := headerSet_inv hh.sorted e1
  refine ⟨h', e1, ⟨k3, ⟨hh.printable.prefixSlash, hh.printable.prefixChars, by rw [k2]; exact hh.printable.idChars, fun f hf => ?_⟩, by rw [k2]; exact hh.id0, fun f hf => ?_⟩, k2, k4, ?_⟩
  · rcases k5 f hf with k | ⟨k, k7 | ⟨g, k7, k8⟩⟩
    · exact hh.printable.fields f k
    · rw [k, k7]; exact ⟨(nameOk_iff n).1 hn, cn.1, cv.1⟩
    · rw [k, ← k8]; exact ⟨(hh.printable.fields g k7).1, (hh.printable.fields g k7).2.1, cv.1⟩
  · rcases k5 f hf with k | ⟨k, k7 | ⟨g, k7, k8⟩⟩
    · exact hh.fields0 f k
    · rw [k, k7]; exact ⟨cn.2, cv.2⟩
    · rw [k, ← k8]; exact ⟨(hh.fields0 g k7).1, cv.2⟩
  · rcases k6 with ⟨-, k⟩ | ⟨o, -, k⟩ <;> omega

/-- A new ID. -/
theorem hdrOk_id {pfx : Bytes} {h : Hdr} (hh : HdrOk pfx h) {i : Bytes} (hi : ∀ c ∈ i, isHex c = true) : HdrOk pfx { h with id := i } :=
  ⟨hh.sorted, ⟨hh.printable.prefixSlash, hh.printable.prefixChars, ⟨fun hm => (hex_ne (hi _ hm)).2.2.1 rfl, fun hm => (hex_ne (hi _ hm)).2.2.2 rfl, fun hm => (hex_ne (hi _ hm)).1 rfl⟩,
    hh.printable.fields⟩, fun hm => (hex_ne (hi _ hm)).2.1 rfl, hh.fields0⟩

theorem hdrOk_text {env : Env} (he : EnvOk env) {h : Hdr} (hh : HdrOk env.pfx h) : headerParse env.pfx (headerSerialize env.pfx h) = .ok h ∧ (0 : UInt8) ∉ headerSerialize env.pfx h := by
  refine ⟨serialize_parse _ _ hh.sorted hh.printable, ?_⟩
  unfold headerSerialize
  simp only [List.mem_append, not_or]
  refine ⟨⟨⟨⟨⟨⟨by decide, by decide⟩, he.pfx.2.2⟩, hh.id0⟩, by decide⟩, ?_⟩, by decide⟩
  apply clean_flatten
  intro t ht
  obtain ⟨f, hf, rfl⟩ := List.mem_map.1 ht
  simp only [List.mem_append, not_or]
  exact ⟨⟨⟨(hh.fields0 f hf).1, by decide⟩, (hh.fields0 f hf).2⟩, by decide⟩

/-- The new record. -/
def newRec (c : Cfg) (h : Hdr) (data raw : Bytes) : Rec :=
  { text := headerSerialize c.env.pfx h, data := data, hgz := c.env.pack0 (headerSerialize c.env.pfx h), bgz := withAa raw }

theorem newRec_bytes (c : Cfg) (h : Hdr) (data raw out : Bytes) : bodyDone (putHeader c h out) raw = out ++ (newRec c h data raw).bytes := by
  unfold bodyDone putHeader newRec Rec.bytes
  have : crnlcrnl = separator := rfl
  rw [this]
  simp only [List.append_assoc]

theorem newRec_ok {c : Cfg} (he : EnvOk c.env) {h : Hdr} (hh : HdrOk c.env.pfx h) {data raw : Bytes} (hr : RawSegment raw data) (hl : raw.length < 2 ^ 63)
    (ht : (headerSerialize c.env.pfx h).length + 61 ≤ c.env.ps) : (newRec c h data raw).Complete c.env.pfx h ∧ (newRec c h data raw).Fits c.env.ps ∧ Segment (withAa raw) data := by
  have hps := he.ps
  obtain ⟨t1, t2⟩ := hdrOk_text he hh
  have h15 : 2 ^ 15 = 32768 := by decide
  obtain ⟨p1, p2⟩ := he.pack0 (headerSerialize c.env.pfx h) (fun h0 => by
    have := serialize_length c.env.pfx h
    rw [h0] at this
    simp only [List.length_nil] at this
    omega) (by omega)
  refine ⟨⟨p1, withAa_member hr hl, t1, t2⟩, ⟨?_, ?_⟩, withAa_segment hr hl⟩
  · show (headerSerialize c.env.pfx h).length ≤ _
    omega
  · show (c.env.pack0 (headerSerialize c.env.pfx h)).length + 24 ≤ _
    omega

/-- The header without the fields that are dropped. -/
theorem strip_ok {pfx : Bytes} {h : Hdr} (hh : HdrOk pfx h) : ∃ h1 h2, headerDelete h b!"Content-Length-GZIP" = .ok h1 ∧ headerDelete h1 b!"z" = .ok h2 ∧ HdrOk pfx h2 ∧ h2.id = h.id ∧
    h2.fields = h.fields.filter (fun f => ¬ Dropped f.1) ∧ (∀ m, headerGet h2 m = if Dropped m then none else headerGet h m) ∧ flen h2.fields ≤ flen h.fields := by
  obtain ⟨h1, a1, a2, a3, a4, a5, a6⟩ := hdrOk_delete hh (n := b!"Content-Length-GZIP") (by decide)
  obtain ⟨h2, b1, b2, b3, b4, b5, b6⟩ := hdrOk_delete a2 (n := b!"z") (by decide)
  refine ⟨h1, h2, a1, b1, b2, by rw [b3, a3], ?_, ?_, by omega⟩
  · rw [b4, a4, List.filter_filter]
    congr 1
    funext f
    have key : ∀ n m : Bytes, strcasecmp n m = .eq ↔ strcasecmp m n = .eq := fun n m => by
      rw [_root_.Verif.strcasecmp_eq, _root_.Verif.strcasecmp_eq]
      exact eq_comm
    have hd : Dropped f.1 ↔ strcasecmp b!"Content-Length-GZIP" f.1 = .eq ∨ strcasecmp b!"z" f.1 = .eq := by
      unfold Dropped
      rw [key f.1, key f.1]
    simp only [hd]
    by_cases k1 : strcasecmp b!"Content-Length-GZIP" f.1 = .eq <;> by_cases k2 : strcasecmp b!"z" f.1 = .eq <;> simp [k1, k2]
  · intro m
    rw [b5, a5]
    unfold Dropped
    by_cases k1 : strcasecmp m b!"Content-Length-GZIP" = .eq <;> by_cases k2 : strcasecmp m b!"z" = .eq <;> simp [k1, k2]

/-- Member after member: the header, the contents and the separator. -/
theorem members_record {σ : Type} {c : Cfg} {D : Deflater σ} {cut : Nat → Bytes → List Bytes} {r : Rec} {h : Hdr} (hc : r.Complete c.env.pfx h) {out out' : Bytes} {st1 st2 : Rebuild.St σ}
    {out1 out2 : Bytes} (rest : Bytes) (h1 : ∀ n, Rebuild.pieces c D (cut n r.text) .start out = .ok (st1, out1)) (h2 : Rebuild.pieces c D (cut (r.bgz ++ (separator ++ rest)).length r.data) st1 out1 = .ok (st2, out2))
    (h3 : ∀ n, Rebuild.pieces c D (cut n b!"\r\n\r\n") st2 out2 = .ok (.start, out')) (f : Nat) :
    members c D cut (f + 3) (r.bytes ++ rest) .start out = members c D cut f rest .start out' := by
  have hsep : ∀ rest, gunzip1 (separator ++ rest) = some (b!"\r\n\r\n", rest) := by
    have h0 : gunzip1 separator = some (b!"\r\n\r\n", []) := by decide +kernel
    obtain ⟨k, k1, -, k3⟩ := gunzip1_local h0
    rw [List.append_nil] at k1
    rw [k1]
    exact k3
  unfold Rec.bytes
  rw [members, List.append_assoc, List.append_assoc, member_gunzip1 hc.head]
  simp only [h1, Res.ok_bind]
  rw [members, member_gunzip1 hc.body]
  simp only [h2, Res.ok_bind]
  rw [members, hsep]
  simp only [h3, Res.ok_bind]

/-- One record. -/
theorem rb_record {σ : Type} {c : Cfg} {D : Deflater σ} {cut : Nat → Bytes → List Bytes} (he : EnvOk c.env) (hR : Refill D (16 * c.env.ps) c.osz)
    (hcut : ∀ n d, (cut n d).flatten = d) {x : Rec × Hdr} (hx : Fit c cut x) (ho : Old x.2 → OldFit c x) :
    ∀ rest, ∃ y, Again c x y ∧ ∀ f out, members c D cut (f + 3) (x.1.bytes ++ rest) .start out = members c D cut f rest .start (out ++ y.1.bytes) := by
  intro rest
  obtain ⟨hc, ⟨s, hs⟩, hroom, hpage, hlen, hsize, hsmall⟩ := hx
  have hk := hdrOk_parse hc.parse hc.nonul
  obtain ⟨h1, h2, d1, d2, k2, k3, k4, k5, k6⟩ := strip_ok hk
  have hb := blankEnd_text hc.parse hs
  have htl := parse_length hc.parse hs
  have h20 : x.1.text ≠ [] := by
    rw [hs]
    intro h
    have := congrArg List.length h
    simp only [List.length_append, List.length_nil] at this
    change _ + 4 = 0 at this
    omega
  have hsm : ∀ n d, d.length < 16 * c.env.ps → Small c (cut n d) := by
    intro n d hd p hp
    have := hcut n d
    obtain ⟨a, b, hab⟩ := List.append_of_mem hp
    rw [hab] at this
    have := congrArg List.length this
    simp only [List.flatten_append, List.flatten_cons, List.length_append] at this
    omega
  have hsep4 : ∀ n, Small c (cut n b!"\r\n\r\n") := fun n => hsm n _ (by show 4 < _; omega)
  have hsepl : ∀ n, (cut n b!"\r\n\r\n").flatten.length = 4 := fun n => by rw [hcut]; rfl
  rw [serialize_length] at htl
  have hdig : headerGet h2 b!"WARC-record-digest" = headerGet x.2 b!"WARC-record-digest" := by rw [k5, if_neg (by decide)]
  by_cases hold : Old x.2
  · obtain ⟨o1, o2, o3⟩ := ho hold
    obtain ⟨h3, a1, a2, a3, -, a5, a6⟩ := hdrOk_delete k2 (n := b!"WARC-record-digest") (by decide)
    have a7 : headerDelete h3 b!"WARC-record-digest" = .ok h3 := by
      obtain ⟨h4, b1, -, b3, b4, -⟩ := hdrOk_delete a2 (n := b!"WARC-record-digest") (by decide)
      rw [b1]
      have : h4 = h3 := by
        have e1 : h3 = { h2 with fields := h2.fields.filter fun f => strcasecmp b!"WARC-record-digest" f.1 != .eq } := by
          unfold headerDelete at a1
          rw [show nameOk b!"WARC-record-digest" = true by decide] at a1
          cases a1
          rfl
        have e2 : h4 = { h3 with fields := h3.fields.filter fun f => strcasecmp b!"WARC-record-digest" f.1 != .eq } := by
          unfold headerDelete at b1
          rw [show nameOk b!"WARC-record-digest" = true by decide] at b1
          cases b1
          rfl
        rw [e2, e1, List.filter_filter]
        simp only [Bool.and_self]
      rw [this]
    obtain ⟨sl, sx⟩ := he.sha x.1.data
    obtain ⟨h4, b1, b2, b3, b4, b5⟩ := hdrOk_set a2 (n := b!"WARC-Block-digest") (v := b!"sha256:" ++ c.env.sha x.1.data) (by decide) (by decide) (clean_sha he _)
    have hid : headerSetId c.env.idSize h4 (c.env.sha x.1.data) = .ok { h4 with id := (c.env.sha x.1.data).take c.env.idSize } := by
      unfold headerSetId
      have hi := he.idSize
      rw [decide_eq_true (by omega), List.all_eq_true.2 (fun b hb => ?_)]
      · rfl
      · exact hex_graph (sx b hb)
    have k7 := hdrOk_id b2 (i := (c.env.sha x.1.data).take c.env.idSize) (fun b hb => sx b (List.mem_of_mem_take hb))
    obtain ⟨raw, r1, r2, r3⟩ := ends_last hR o2 hsize
    have hnl : (headerSerialize c.env.pfx { h4 with id := (c.env.sha x.1.data).take c.env.idSize }).length + 61 ≤ c.env.ps := by
      rw [serialize_length]
      have hi := he.idSize
      have hv : (b!"sha256:" ++ c.env.sha x.1.data).length = 71 := by rw [List.length_append, sl]; rfl
      have hn : (b!"WARC-Block-digest").length = 17 := rfl
      simp only [List.length_take, sl]
      rw [hv, hn] at b5
      omega
    obtain ⟨n1, n2, n3⟩ := newRec_ok he k7 r1 r2 hnl
    have hget : ∀ m, headerGet { h4 with id := (c.env.sha x.1.data).take c.env.idSize } m = headerGet h4 m := fun m => get_of_fields rfl m
    refine ⟨(newRec c _ x.1.data raw, _), ⟨n1, n2, n3, rfl, rfl, fun h => absurd hold h, fun h => absurd hold h, fun _ => rfl, fun _ => ⟨?_, ?_⟩, ?_, ?_⟩, ?_⟩
    · rw [hget, b4, if_pos (by decide)]
    · unfold Old
      rw [hget, b4, if_neg (by decide), a5, if_pos (by decide)]
      exact fun h => h rfl
    · intro m hm
      rw [hget, b4, a5, k5, if_pos hm]
      have : strcasecmp m b!"WARC-Block-digest" ≠ .eq := by
        intro hc
        have h0 := strcasecmp_congr (_root_.Verif.strcasecmp_eq.1 hc) (rfl : (b!"Content-Length-GZIP").map toLower = _)
        have h1 := strcasecmp_congr (_root_.Verif.strcasecmp_eq.1 hc) (rfl : (b!"z").map toLower = _)
        unfold Dropped at hm
        rw [h0, h1] at hm
        revert hm
        decide
      rw [if_neg this]
      split <;> rfl
    · intro m m1 m2 m3
      rw [hget, b4, if_neg, a5, if_neg m3, k5, if_neg m1]
      intro hc
      apply m2
      rw [← hc]
      exact strcasecmp_congr rfl (by decide)
    · intro f out
      rw [← newRec_bytes]
      have hg : gotHeader c D x.1.text out = .ok ⟨.fix h2 x.1.data.length [], out, []⟩ := by
        unfold gotHeader
        rw [cstr_eq hc.nonul, hc.parse]
        simp only [Res.ok_bind, hlen, d1, d2]
        rw [hdig]
        cases hq : headerGet x.2 b!"WARC-record-digest" with
        | none => exact absurd hq hold
        | some v => rfl
      have hf : ∀ p, fixed c D h3 x.1.data out p = .ok ⟨.last (putHeader c { h4 with id := (c.env.sha x.1.data).take c.env.idSize } out).length D.init x.1.data,
          putHeader c { h4 with id := (c.env.sha x.1.data).take c.env.idSize } out, p⟩ := by
        intro p
        unfold fixed
        rw [b1]
        simp only [Res.ok_bind, hid]
        rfl
      by_cases h0 : x.1.data = []
      · apply members_record hc (st1 := .fix h2 x.1.data.length []) (out1 := out) (st2 := .fix h2 x.1.data.length []) (out2 := out)
        · intro n
          exact head_pieces hb hc.nonul hroom hg rfl (.inr ⟨rfl, rfl⟩) (by rw [hcut]; rfl) (by rw [hcut]; exact h20) (hsm n _ (by omega))
        · exact rb_pieces_nil c D _ _ (hsmall _) (by rw [hcut]; exact h0)
        · intro n
          refine ends_pieces (ends_two (out1 := putHeader c { h4 with id := (c.env.sha x.1.data).take c.env.idSize } out) (fun p _ => ?_) (fun p _ => r3 _ p)) (hsep4 n) (hsepl n)
          show takeFix c D h2 _ [] out p = _
          rw [takeFix, a1, h0]
          simp only [Res.ok_bind, List.length_nil, Int.toNat_natCast, Nat.zero_sub, Nat.zero_min, Nat.add_zero]
          rw [decide_eq_true (by omega), decide_eq_true (by omega)]
          simp only [Res.access_true, Res.ok_bind, List.take_zero, List.drop_zero, List.append_nil]
          rw [if_neg (by omega), ← h0]
          exact hf p
      · apply members_record hc (st1 := .fix h2 x.1.data.length []) (out1 := out)
          (st2 := .last (putHeader c { h4 with id := (c.env.sha x.1.data).take c.env.idSize } out).length D.init x.1.data)
          (out2 := putHeader c { h4 with id := (c.env.sha x.1.data).take c.env.idSize } out)
        · intro n
          exact head_pieces hb hc.nonul hroom hg rfl (.inr ⟨rfl, rfl⟩) (by rw [hcut]; rfl) (by rw [hcut]; exact h20) (hsm n _ (by omega))
        · exact fix_pieces o1 a7 hf a1 (by rw [hcut]; rfl) (by rw [hcut]; exact h0) (hsmall _)
        · intro n
          exact ends_pieces (ends_one fun p _ => r3 _ p) (hsep4 n) (hsepl n)
  · have hnl : (headerSerialize c.env.pfx h2).length + 61 ≤ c.env.ps := by
      rw [serialize_length, k3]
      omega
    have hnone : headerGet x.2 b!"WARC-record-digest" = none := by
      cases hq : headerGet x.2 b!"WARC-record-digest" with
      | none => rfl
      | some v => exact absurd (fun h => by rw [hq] at h; cases h) hold
    have hg : ∀ out, gotHeader c D x.1.text out = .ok ⟨.body x.1.data.length (putHeader c h2 out).length D.init, putHeader c h2 out, []⟩ := by
      intro out
      unfold gotHeader
      rw [cstr_eq hc.nonul, hc.parse]
      simp only [Res.ok_bind, hlen, d1, d2]
      rw [hdig, hnone]
      rfl
    have hhead : ∀ n out, Rebuild.pieces c D (cut n x.1.text) .start out = .ok (.body x.1.data.length (putHeader c h2 out).length D.init, putHeader c h2 out) := fun n out =>
      head_pieces hb hc.nonul hroom (hg out) rfl (.inr ⟨rfl, rfl⟩) (by rw [hcut]; rfl) (by rw [hcut]; exact h20) (hsm n _ (by omega))
    have hgone : ∀ m, Dropped m → headerGet h2 m = none := fun m hm => by rw [k5, if_pos hm]
    have hoth : ∀ m, ¬ Dropped m → strcasecmp m b!"WARC-Block-Digest" ≠ .eq → strcasecmp m b!"WARC-record-digest" ≠ .eq → headerGet h2 m = headerGet x.2 m :=
      fun m hm _ _ => by rw [k5, if_neg hm]
    by_cases h0 : x.1.data = []
    · obtain ⟨raw, r1, r2, r3⟩ := ends_empty hR (by omega)
      rw [← h0] at r1
      obtain ⟨n1, n2, n3⟩ := newRec_ok he k2 r1 r2 hnl
      refine ⟨(newRec c h2 x.1.data raw, h2), ⟨n1, n2, n3, rfl, rfl, fun _ => k3, fun _ => k4, fun h => absurd h hold, fun h => absurd h hold, hgone, hoth⟩, fun f out => ?_⟩
      rw [← newRec_bytes]
      refine members_record hc rest (hhead · out) (rb_pieces_nil c D _ _ (hsmall _) (by rw [hcut]; exact h0)) (fun n => ?_) f
      refine ends_pieces ?_ (hsep4 n) (hsepl n)
      rw [h0]
      exact r3 _
    · have h0' : (cut (x.1.bgz ++ (separator ++ rest)).length x.1.data).flatten ≠ [] := by rw [hcut]; exact h0
      obtain ⟨raw, r1, r2, r3⟩ := body_pieces hR Fed.start (hsmall (x.1.bgz ++ (separator ++ rest)).length) h0' (by rw [hcut]; simpa using hsize)
      rw [hcut, List.nil_append] at r1
      rw [hcut] at r3
      obtain ⟨n1, n2, n3⟩ := newRec_ok he k2 r1 r2 hnl
      refine ⟨(newRec c h2 x.1.data raw, h2), ⟨n1, n2, n3, rfl, rfl, fun _ => k3, fun _ => k4, fun h => absurd h hold, fun h => absurd h hold, hgone, hoth⟩, fun f out => ?_⟩
      rw [← newRec_bytes]
      have h4 := r3 (putHeader c h2 out)
      rw [List.append_nil] at h4
      exact members_record hc rest (hhead · out) h4 (fun n => ends_pieces (ends_sep c D _) (hsep4 n) (hsepl n)) f

/-- The records of a silo, and whatever comes behind them that is not a gzip member. -/
theorem rb_members {σ : Type} {c : Cfg} {D : Deflater σ} {cut : Nat → Bytes → List Bytes} (he : EnvOk c.env) (hR : Refill D (16 * c.env.ps) c.osz)
    (hcut : ∀ n d, (cut n d).flatten = d) {tail : Bytes} (ht : gunzip1 tail = none) : ∀ (xs : List (Rec × Hdr)), (∀ x ∈ xs, Fit c cut x ∧ (Old x.2 → OldFit c x)) →
    ∃ ys : List (Rec × Hdr), Each (Again c) xs ys ∧ ∀ fuel out, 3 * xs.length < fuel →
      members c D cut fuel (siloBytes (xs.map (·.1)) ++ tail) .start out = .ok (.start, out ++ siloBytes (ys.map (·.1)))
  | [], _ => by
    refine ⟨[], .nil, fun fuel out hf => ?_⟩
    obtain ⟨f, rfl⟩ : ∃ f, fuel = f + 1 := ⟨fuel - 1, by omega⟩
    have : siloBytes (([] : List (Rec × Hdr)).map (·.1)) = [] := rfl
    rw [this, List.nil_append, members, ht, List.append_nil]
  | x :: xs, hx => by
    obtain ⟨ys, y1, y2⟩ := rb_members he hR hcut ht xs (fun z hz => hx z (by simp [hz]))
    obtain ⟨y, r1, r2⟩ := rb_record he hR hcut (hx x (by simp)).1 (hx x (by simp)).2 (siloBytes (xs.map (·.1)) ++ tail)
    refine ⟨y :: ys, .cons r1 y1, fun fuel out hf => ?_⟩
    rw [List.length_cons] at hf
    obtain ⟨f, rfl⟩ : ∃ f, fuel = f + 3 := ⟨fuel - 3, by omega⟩
    have e1 : siloBytes ((x :: xs).map (·.1)) ++ tail = x.1.bytes ++ (siloBytes (xs.map (·.1)) ++ tail) := by simp [siloBytes]
    have e2 : siloBytes ((y :: ys).map (·.1)) = y.1.bytes ++ siloBytes (ys.map (·.1)) := by simp [siloBytes]
    rw [e1, e2, r2, y2 f _ (by omega), List.append_assoc]

theorem rb_siloBytes_length (xs : List (Rec × Hdr)) : 3 * xs.length ≤ (siloBytes (xs.map (·.1))).length := by
  induction xs with
  | nil => simp
  | cons x xs ih =>
    have e1 : siloBytes ((x :: xs).map (·.1)) = x.1.bytes ++ siloBytes (xs.map (·.1)) := by simp [siloBytes]
    have e2 : separator.length = 24 := rfl
    rw [e1, List.length_append, Rec.bytes, List.length_append, e2, List.length_cons]
    omega

/-- C67: what `rebuild` makes of a silo of complete records, in whatever pieces `inflate` hands out their contents, is a silo of as many complete records; each has the contents of the one it
was made from, and its ID and header fields but for `z` and `Content-Length-GZIP`; an old record with another digest field gets digest and ID of its contents.  Contents of which `inflate`
makes a whole buffer at once, long headers and long contents of old records are ruled out by the conditions: see the counterexamples. -/
theorem C67_rebuild_partial {σ : Type} (c : Cfg) (D : Deflater σ) (cut : Nat → Bytes → List Bytes) (he : EnvOk c.env) (hR : Refill D (16 * c.env.ps) c.osz)
    (hcut : ∀ n d, (cut n d).flatten = d) (xs : List (Rec × Hdr)) (hx : ∀ x ∈ xs, Fit c cut x ∧ (Old x.2 → OldFit c x)) :
    ∃ ys : List (Rec × Hdr), Each (Again c) xs ys ∧ rebuildSilo c D cut .start (siloBytes (xs.map (·.1))) = .ok (.start, siloBytes (ys.map (·.1))) := by
  obtain ⟨ys, y1, y2⟩ := rb_members he hR hcut (tail := []) rfl xs hx
  refine ⟨ys, y1, ?_⟩
  unfold rebuildSilo
  have := rb_siloBytes_length xs
  have := y2 ((siloBytes (xs.map (·.1))).length + 1) [] (by omega)
  rwa [List.append_nil, List.nil_append] at this

/-- C67: the new silo is read back record by record, with the same contents in the same order. -/
theorem C67_read_partial {σ : Type} (c : Cfg) (D : Deflater σ) (cut : Nat → Bytes → List Bytes) (he : EnvOk c.env) (hR : Refill D (16 * c.env.ps) c.osz)
    (hcut : ∀ n d, (cut n d).flatten = d) (xs : List (Rec × Hdr)) (hx : ∀ x ∈ xs, Fit c cut x ∧ ¬ Old x.2) (cut' : Bytes → List Bytes) (hcut' : ∀ d, (cut' d).flatten = d) :
    ∃ file l, rebuildSilo c D cut .start (siloBytes (xs.map (·.1))) = .ok (.start, file) ∧
      scanBodies c.env.ps c.env.pfx cut' (xs.length + 1) (rsOpen file 0) = .ok l ∧ l.map (fun r => (r.2.1.id, r.2.2)) = xs.map (fun x => (x.2.id, x.1.data)) ∧
      l.map (·.2.1.fields) = xs.map (fun x => x.2.fields.filter fun f => ¬ Dropped f.1) := by
  obtain ⟨ys, y1, y2⟩ := C67_rebuild_partial c D cut he hR hcut xs (fun x h => ⟨(hx x h).1, fun ho => absurd ho (hx x h).2⟩)
  have hl : xs.length = ys.length := y1.length_eq
  have hys : ∀ y ∈ ys, y.1.Complete c.env.pfx y.2 ∧ y.1.Fits c.env.ps := by
    intro y hy
    obtain ⟨x, -, h⟩ := y1.right y hy
    exact ⟨h.complete, h.fits⟩
  refine ⟨_, _, y2, C23_enumerate_bodies c.env.ps c.env.pfx cut' hcut' ys hys _ (by omega), ?_, ?_⟩
  all_goals
    have hz : ∀ (off : Nat), ((offsets off (ys.map (·.1))).zip (ys.map fun x => (x.2, x.1.data))).map (·.2) = ys.map fun x => (x.2, x.1.data) := by
      intro off
      apply List.map_snd_zip
      have : ∀ (rs : List Rec) (off : Nat), (offsets off rs).length = rs.length := by
        intro rs
        induction rs with
        | nil => intro off; rfl
        | cons r rs ih => intro off; rw [offsets, List.length_cons, ih, List.length_cons]
      rw [this, List.length_map, List.length_map]
      exact Nat.le_refl _
  · rw [show (fun r : Nat × Hdr × Bytes => (r.2.1.id, r.2.2)) = (fun q : Hdr × Bytes => (q.1.id, q.2)) ∘ (·.2) from rfl, ← List.map_map, hz, List.map_map]
    clear hz hys hl y2
    induction y1 with
    | nil => rfl
    | cons h _ ih =>
      have hn := (hx _ (List.mem_cons_self ..)).2
      rw [List.map_cons, List.map_cons, ih (fun x h => hx x (List.mem_cons_of_mem _ h))]
      simp only [Function.comp, h.id hn, h.data]
  · rw [show (fun r : Nat × Hdr × Bytes => r.2.1.fields) = (fun q : Hdr × Bytes => q.1.fields) ∘ (·.2) from rfl, ← List.map_map, hz, List.map_map]
    clear hz hys hl y2
    induction y1 with
    | nil => rfl
    | cons h _ ih =>
      have hn := (hx _ (List.mem_cons_self ..)).2
      rw [List.map_cons, List.map_cons, ih (fun x h => hx x (List.mem_cons_of_mem _ h))]
      simp only [Function.comp, h.fields hn]

/-- C67: a list of silos: each is rebuilt on its own. -/
theorem C67_silos_partial {σ : Type} (c : Cfg) (D : Deflater σ) (cut : Nat → Bytes → List Bytes) (he : EnvOk c.env) (hR : Refill D (16 * c.env.ps) c.osz)
    (hcut : ∀ n d, (cut n d).flatten = d) (xss : List (List (Rec × Hdr))) (hx : ∀ xs ∈ xss, ∀ x ∈ xs, Fit c cut x ∧ (Old x.2 → OldFit c x)) :
    ∃ yss : List (List (Rec × Hdr)), Each (Each (Again c)) xss yss ∧
      mainRebuild c D cut (xss.map fun xs => siloBytes (xs.map (·.1))) = .ok (yss.map fun ys => siloBytes (ys.map (·.1))) := by
  unfold mainRebuild
  induction xss with
  | nil => exact ⟨[], .nil, rfl⟩
  | cons xs xss ih =>
    obtain ⟨yss, h1, h2⟩ := ih (fun xs h => hx xs (by simp [h]))
    obtain ⟨ys, h3, h4⟩ := C67_rebuild_partial c D cut he hR hcut xs (hx xs (by simp))
    refine ⟨ys :: yss, .cons h3 h1, ?_⟩
    rw [List.map_cons, rebuildFiles, h4]
    simp only [Res.ok_bind, h2]
    rfl

theorem serialize_blank (pfx : Bytes) (h : Hdr) : ∃ s, headerSerialize pfx h = s ++ b!"\r\n\r\n" := by
  unfold headerSerialize
  rcases List.eq_nil_or_concat h.fields with h0 | ⟨l, f, h0⟩
  · rw [h0]
    exact ⟨b!"WARC/1.1\r\n" ++ b!"WARC-Record-ID: <" ++ pfx ++ h.id ++ b!">", by simp⟩
  · rw [h0]
    exact ⟨b!"WARC/1.1\r\n" ++ b!"WARC-Record-ID: <" ++ pfx ++ h.id ++ b!">\r\n" ++ (l.map fun f => f.1 ++ b!": " ++ f.2 ++ b!"\r\n").flatten ++ f.1 ++ b!": " ++ f.2, by simp⟩

theorem lookup_sub (m : Bytes) (p : Bytes × Bytes → Bool) : ∀ fs : List (Bytes × Bytes), lookup m fs = none → lookup m (fs.filter p) = none
  | [], h => h
  | f :: fs, h => by
    rw [lookup_cons] at h
    split at h
    · cases h
    · rename_i hf
      rw [List.filter_cons]
      split
      · rw [lookup_cons, if_neg hf]
        exact lookup_sub m p fs h
      · exact lookup_sub m p fs h

theorem again_fit {c : Cfg} {cut : Nat → Bytes → List Bytes} {x y : Rec × Hdr} (hx : Fit c cut x) (hn : ¬ Old x.2) (h : Again c x y) : Fit c cut y ∧ ¬ Old y.2 := by
  obtain ⟨s, hs⟩ := hx.blank
  have hl := parse_length hx.complete.parse hs
  have hf : flen y.2.fields ≤ flen x.2.fields := by rw [h.fields hn]; exact flen_filter _ _
  have ht : y.1.text.length ≤ x.1.text.length := by
    rw [serialize_length] at hl
    rw [h.text, serialize_length, h.id hn]
    omega
  have h1 := hx.room
  have h2 := hx.page
  refine ⟨⟨h.complete, by rw [h.text]; exact serialize_blank _ _, by omega, by omega, ?_, ?_, ?_⟩, ?_⟩
  · have := hx.len
    unfold headerGetNumber at this ⊢
    rw [h.others _ (by decide) (by decide) (by decide), h.data]
    exact this
  · rw [h.data]; exact hx.size
  · rw [h.data]; exact hx.small
  · unfold Old at hn ⊢
    have hd : headerGet x.2 b!"WARC-record-digest" = none := Decidable.not_not.1 hn
    rw [headerGet_eq] at hd ⊢
    rw [h.fields hn, lookup_sub _ _ _ hd]
    exact fun h => h rfl

theorem again_same {c : Cfg} {x y z : Rec × Hdr} (h1 : ¬ Old x.2) (h2 : ¬ Old y.2) (ha : Again c x y) (hb : Again c y z) :
    z.2 = y.2 ∧ z.1.text = y.1.text ∧ z.1.data = y.1.data := by
  have hf : z.2.fields = y.2.fields := by
    rw [hb.fields h2, ha.fields h1, List.filter_filter]
    simp only [Bool.and_self]
  have he : z.2 = y.2 := by
    have := hb.id h2
    cases hz : z.2
    cases hy : y.2
    rw [hz, hy] at hf this
    simp only at hf this
    rw [hf, this]
  exact ⟨he, by rw [hb.text, ha.text, he], hb.data⟩

/-- C67: rebuilding what `rebuild` has made changes no header and no contents any more. -/
theorem C67_twice_partial {σ : Type} (c : Cfg) (D : Deflater σ) (cut : Nat → Bytes → List Bytes) (he : EnvOk c.env) (hR : Refill D (16 * c.env.ps) c.osz)
    (hcut : ∀ n d, (cut n d).flatten = d) (xs : List (Rec × Hdr)) (hx : ∀ x ∈ xs, Fit c cut x ∧ ¬ Old x.2) :
    ∃ ys zs : List (Rec × Hdr), rebuildSilo c D cut .start (siloBytes (xs.map (·.1))) = .ok (.start, siloBytes (ys.map (·.1))) ∧
      rebuildSilo c D cut .start (siloBytes (ys.map (·.1))) = .ok (.start, siloBytes (zs.map (·.1))) ∧
      Each (fun y z => z.2 = y.2 ∧ z.1.text = y.1.text ∧ z.1.data = y.1.data) ys zs := by
  obtain ⟨ys, y1, y2⟩ := C67_rebuild_partial c D cut he hR hcut xs (fun x h => ⟨(hx x h).1, fun ho => absurd ho (hx x h).2⟩)
  have hy : ∀ y ∈ ys, Fit c cut y ∧ ¬ Old y.2 := by
    intro y hy
    obtain ⟨x, h1, h2⟩ := y1.right y hy
    exact again_fit (hx x h1).1 (hx x h1).2 h2
  obtain ⟨zs, z1, z2⟩ := C67_rebuild_partial c D cut he hR hcut ys (fun x h => ⟨(hy x h).1, fun ho => absurd ho (hy x h).2⟩)
  refine ⟨ys, zs, y2, z2, ?_⟩
  clear y2 z2
  induction y1 generalizing zs with
  | nil => cases z1; exact .nil
  | cons a _ ih =>
    cases z1 with
    | cons b z1 =>
      exact .cons (again_same (hx _ (by simp)).2 (hy _ (by simp)).2 a b) (ih (fun x h => hx x (by simp [h])) (fun y h => hy y (by simp [h])) _ z1)

/-! ### What is not a header -/

theorem blankEnd_first (a b : Bytes) : ∃ n, blankEnd (a ++ b!"\r\n\r\n" ++ b) = some n ∧ n ≤ a.length + 4 := by
  induction a with
  | nil =>
    refine ⟨4, ?_, by simp⟩
    show blankEnd (13 :: 10 :: 13 :: 10 :: b) = some 4
    rw [blankEnd, if_pos (by simp [List.isPrefixOf])]
  | cons c a ih =>
    obtain ⟨n, h1, h2⟩ := ih
    simp only [List.cons_append]
    rw [blankEnd]
    split
    · exact ⟨4, rfl, by simp⟩
    · rw [h1]
      exact ⟨n + 1, rfl, by rw [List.length_cons]; omega⟩

/-- C67: a member in which something follows the empty line is not taken for a header: the program aborts. -/
theorem C67_header_alone {σ : Type} (c : Cfg) (D : Deflater σ) (a b out : Bytes) (ps : List Bytes) (hb : b ≠ []) (hz : (0 : UInt8) ∉ a ++ b)
    (hl : (a ++ b!"\r\n\r\n" ++ b).length < 16 * c.env.ps) : Rebuild.pieces c D ((a ++ b!"\r\n\r\n" ++ b) :: ps) .start out = .fail := by
  have hb1 : 1 ≤ b.length := List.length_pos_iff.2 hb
  have hz' : (0 : UInt8) ∉ a ++ b!"\r\n\r\n" ++ b := by
    intro h
    simp only [List.mem_append] at h hz
    rcases h with (h | h) | h
    · exact hz (.inl h)
    · exact absurd h (by decide)
    · exact hz (.inr h)
  have hlen : (a ++ b!"\r\n\r\n" ++ b).length = a.length + 4 + b.length := by simp only [List.length_append]; rfl
  rw [Rebuild.pieces, decide_eq_true hl, process, if_neg (by intro h; rw [h] at hlen; simp only [List.length_nil] at hlen; omega)]
  have : Rebuild.round c D .start out (a ++ b!"\r\n\r\n" ++ b) = .fail := by
    show takeHead c D [] out _ = _
    obtain ⟨n, h1, h2⟩ := blankEnd_first a b
    unfold takeHead
    rw [List.nil_append, cstr_eq hz', h1]
    simp only
    rw [decide_eq_false (show ¬ n = (a ++ b!"\r\n\r\n" ++ b).length by omega)]
    by_cases hq : ([] : Bytes).length + (a ++ b!"\r\n\r\n" ++ b).length + 1 < c.bufsiz
    · rw [decide_eq_true hq]; rfl
    · rw [decide_eq_false hq]; rfl
  rw [this]
  rfl

/-! ### What goes wrong -/

/-- C67 is false for contents of which `inflate` makes a whole buffer at once: the NUL is written behind the end of the buffer. -/
theorem C67_counterexample_full_buffer {σ : Type} (c : Cfg) (D : Deflater σ) (st : Rebuild.St σ) (out p : Bytes) (ps : List Bytes) (h : p.length = 16 * c.env.ps) :
    Rebuild.pieces c D (p :: ps) st out = .ub := by
  rw [Rebuild.pieces, decide_eq_false (by omega)]
  rfl

/-- C67 is false for headers that do not fit the buffer: the program aborts. -/
theorem C67_counterexample_long_header {σ : Type} (c : Cfg) (D : Deflater σ) (out p : Bytes) (ps : List Bytes) (h0 : p ≠ []) (h1 : p.length < 16 * c.env.ps) (h2 : c.bufsiz ≤ p.length + 1) :
    Rebuild.pieces c D (p :: ps) .start out = .fail := by
  rw [Rebuild.pieces, decide_eq_true h1, process, if_neg h0]
  have : Rebuild.round c D .start out p = .fail := by
    show takeHead c D [] out p = _
    rw [takeHead, decide_eq_false (by simp only [List.length_nil]; omega)]
    rfl
  rw [this]
  rfl

/-- C67 is false for old records with contents that do not fit the buffer: it overflows. -/
theorem C67_counterexample_old_long {σ : Type} (c : Cfg) (D : Deflater σ) (h : Hdr) (clen : Nat) (out p : Bytes) (ps : List Bytes) (h1 : p.length < 16 * c.env.ps) (h2 : c.bufsiz < p.length)
    (h3 : p.length ≤ clen) : Rebuild.pieces c D (p :: ps) (.fix h clen []) out = .ub := by
  rw [Rebuild.pieces, decide_eq_true h1, process, if_neg (by rintro rfl; simp at h2)]
  have : Rebuild.round c D (.fix h clen []) out p = .ub := by
    show takeFix c D h clen [] out p = _
    rw [takeFix, headerDelete, show nameOk b!"WARC-record-digest" = true by decide]
    simp only [Res.check_true, Res.ok_bind, Res.pure_eq]
    rw [decide_eq_true (by omega), decide_eq_false (by simp only [List.length_nil, Int.toNat_natCast]; omega)]
    rfl
  rw [this]
  rfl

/-- C67 is false for damaged silos: at what is not a gzip member the loop ends, what comes behind it is left out of the new silo, and nothing is said. -/
theorem C67_counterexample_damage {σ : Type} (c : Cfg) (D : Deflater σ) (cut : Nat → Bytes → List Bytes) (he : EnvOk c.env) (hR : Refill D (16 * c.env.ps) c.osz)
    (hcut : ∀ n d, (cut n d).flatten = d) (xs : List (Rec × Hdr)) (hx : ∀ x ∈ xs, Fit c cut x ∧ (Old x.2 → OldFit c x)) (tail : Bytes) (ht : gunzip1 tail = none) :
    ∃ ys : List (Rec × Hdr), Each (Again c) xs ys ∧ rebuildSilo c D cut .start (siloBytes (xs.map (·.1)) ++ tail) = .ok (.start, siloBytes (ys.map (·.1))) := by
  obtain ⟨ys, y1, y2⟩ := rb_members he hR hcut ht xs hx
  refine ⟨ys, y1, ?_⟩
  unfold rebuildSilo
  have := rb_siloBytes_length xs
  have := y2 ((siloBytes (xs.map (·.1)) ++ tail).length + 1) [] (by rw [List.length_append]; omega)
  rwa [List.nil_append] at this

end Verif.Props
