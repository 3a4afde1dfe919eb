/-
Committing the segments of a store job adds an object to the archive.
-/
import Verif.Proofs.Archive

namespace Verif.Props
open Verif Header Gzip Ident Index Wsilo Segjob Getjob Spec Inflate
open _root_.Verif.Commit (upd Silo)

/-- The header of a store job leaves room in a page for what is added to it. -/
def Short (env : Env) (h : Hdr) : Prop := (headerSerialize env.pfx h).length + env.pfx.length + 600 ≤ env.ps

theorem set_len_le {pfx : Bytes} {h h' : Hdr} {n v : Bytes} (hs : SortedF h.fields) (he : headerSet h n v = .ok h') :
    (headerSerialize pfx h').length ≤ (headerSerialize pfx h).length + headerLen n v := by
  obtain ⟨-, h1, -, -, -, h2⟩ := headerSet_inv hs he
  rw [serialize_length, serialize_length, h1, headerLen]
  rcases h2 with ⟨-, b⟩ | ⟨o, -, b⟩ <;> omega

theorem seg0_len {env : Env} (he : EnvOk env) {h h0 : Hdr} {n : Nat} (hn : Neat h) (hlt : n < 2 ^ 63) (e : seg0Hdr env h n = .ok h0) :
    (headerSerialize env.pfx h0).length ≤ (headerSerialize env.pfx h).length + env.pfx.length + 300 := by
  have hmax := he.max
  have d1 := dec_length env.max 18 (by omega)
  have d2 := dec_length n 18 (by omega)
  have hsha := (he.sha []).1
  have hid := he.idSize
  unfold seg0Hdr at e
  rw [clone_eq] at e
  rw [Res.bind_eq_ok] at e
  obtain ⟨h1, e1, e⟩ := e
  rw [Res.bind_eq_ok] at e
  obtain ⟨h2, e2, e⟩ := e
  have n1 := neat_set hn e1 (by decide) (clean_sha he [])
  have n2 := neat_set n1 e2 (by decide) (clean_append (by decide) (clean_dec _))
  have l1 := set_len_le (pfx := env.pfx) hn.1 e1
  have l2 := set_len_le (pfx := env.pfx) n1.1 e2
  have k1 : headerLen b!"WARC-Block-Digest" (b!"sha256:" ++ env.sha []) = 92 := by
    unfold headerLen; rw [List.length_append, hsha]; rfl
  have k2 : headerLen b!"Content-Length" (b!"00" ++ dec env.max) = 20 + (dec env.max).length := by
    unfold headerLen; rw [List.length_append]; show 14 + 2 + (2 + _) + 2 = _; omega
  by_cases h1 : n = 1
  · rw [if_pos h1] at e
    cases e
    omega
  · rw [if_neg h1] at e
    rw [Res.bind_eq_ok] at e
    obtain ⟨h3, e3, e⟩ := e
    rw [Res.bind_eq_ok] at e
    obtain ⟨h4, e4, e5⟩ := e
    have n3 := neat_set n2 e3 (by decide) (clean_dec _)
    have n4 := neat_set n3 e4 (by decide) (by decide)
    have l3 := set_len_le (pfx := env.pfx) n2.1 e3
    have l4 := set_len_le (pfx := env.pfx) n3.1 e4
    have l5 := set_len_le (pfx := env.pfx) n4.1 (headerSetRef_inv e5).2
    have k3 : headerLen b!"WARC-Segment-Number" (dec n) = 23 + (dec n).length := by
      unfold headerLen; show 19 + 2 + _ + 2 = _; omega
    have k4 : headerLen b!"WARC-Type" b!"continuation" = 25 := rfl
    have k5 : headerLen b!"WARC-Segment-Origin-ID" (b!"<" ++ env.pfx ++ (env.sha []).take env.idSize ++ b!">") ≤ 92 + env.pfx.length := by
      unfold headerLen
      simp only [List.length_append, List.length_take, hsha]
      show 22 + 2 + (1 + _ + _ + 1) + 2 ≤ _
      omega
    omega

theorem typeFlag_cases (h : Hdr) : typeFlag h = 0 ∨ typeFlag h = F_METADATA ∨ typeFlag h = F_RESOURCE := by
  unfold typeFlag
  split
  · simp
  · split
    · simp
    · split <;> simp

theorem typeFlag_congr {h g : Hdr} (e : headerGet h b!"WARC-Type" = headerGet g b!"WARC-Type") : typeFlag h = typeFlag g := by
  unfold typeFlag
  rw [e]

/-- The fields of a finished segment that reindexing looks at. -/
theorem done_fields {env : Env} (hsha : ∀ d, (env.sha d).length = 64) {jh : Hdr} (hj : JobHdr env.idSize jh) {ident : Option Bytes} {before : Nat} {s : Seg}
    (hd : SegDone env jh ident before s) : typeFlag s.hdr = s.silo.idx ∧ headerGet s.hdr b!"WARC-Segment-Total-Length" = none ∧
      (s.segno = 1 → headerGet s.hdr b!"WARC-Segment-Number" = none) ∧
      (s.segno ≠ 1 → headerGet s.hdr b!"WARC-Type" = some b!"continuation") := by
  obtain ⟨h0, gz, hb, -, -, hf⟩ := hd.state
  have e0 := hb.hdr0
  by_cases hn : s.segno = 1
  · rw [hn] at e0
    obtain ⟨s0, i0, g1, g2, g3⟩ := seg0_first hj.sorted e0
    obtain ⟨-, -, -, -, -, g⟩ := finishHdr_inv s0 g1 g2 (by rw [hsha, hsha]) (by rw [i0, hj.id]) hf
    refine ⟨?_, ?_, fun _ => ?_, fun h => absurd hn h⟩
    · rw [hb.idx]; exact typeFlag_congr (g _ ⟨by decide, by decide⟩)
    · rw [g _ ⟨by decide, by decide⟩, g3 _ ⟨by decide, by decide⟩, hj.total]
    · rw [g _ ⟨by decide, by decide⟩, g3 _ ⟨by decide, by decide⟩, hj.segno]
  · obtain ⟨s0, i0, g1, g2, -, g4, -, -, g3⟩ := seg0_cont hn hj.sorted e0
    obtain ⟨-, -, -, -, -, g⟩ := finishHdr_inv s0 g1 g2 (by rw [hsha, hsha]) (by rw [i0, hj.id]) hf
    refine ⟨?_, ?_, fun h => absurd h hn, fun _ => ?_⟩
    · rw [hb.idx]; exact typeFlag_congr (g _ ⟨by decide, by decide⟩)
    · rw [g _ ⟨by decide, by decide⟩, g3 _ ⟨by decide, by decide⟩ (by decide) (by decide) (by decide), hj.total]
    · rw [g _ ⟨by decide, by decide⟩, g4]

theorem made_entry {x : Item} {hd : Hdr} {fl : Nat} {rid : Option Bytes} {content : Bytes} (h : Made x hd fl rid content) :
    x.entry = Ins.entry { id := x.hdr.id, flags := fl, silo := x.entry.silo, off := x.entry.off, cont := rid } := by
  have h1 := h.key
  have h2 := h.cont
  have h3 := h.flags
  rw [← h.id] at h1
  revert h1 h2 h3
  cases x.entry
  intro h1 h2 h3
  simp only at h1 h2 h3
  subst h1 h2 h3
  rfl

/-- The headers and index entries of segments number `n` and so on. -/
def SegHdrs (pfx fid : Bytes) : Nat → List Item → Prop
  | _, [] => True
  | n, x :: l => headerGet x.hdr b!"WARC-Segment-Number" = some (dec n) ∧
      (n ≠ 1 → HasOrigin pfx x.hdr fid ∧ headerGet x.hdr b!"WARC-Type" = some b!"continuation") ∧
      (headerGet x.hdr b!"WARC-Segment-Total-Length").isSome = l.isEmpty ∧
      x.entry = Ins.entry
        { id := x.hdr.id, flags := typeFlag x.hdr ||| F_SEGMENTED ||| (if n = 1 then F_FIRSTSEG else 0) ||| (if l.isEmpty then F_LASTSEG else 0),
          silo := x.entry.silo, off := x.entry.off, cont := l.head?.map (·.hdr.id) } ∧ (∀ c ∈ x.hdr.id, isHex c = true) ∧ SegHdrs pfx fid (n + 1) l

/-- The header has the digest and the length of the contents. -/
def Told (env : Env) (x : Item) : Prop :=
  headerGet x.hdr b!"WARC-Block-Digest" = some (b!"sha256:" ++ env.sha x.record.data) ∧
  headerGet x.hdr b!"Content-Length" = some (dec x.record.data.length)

/-- A field that committing a segment does not touch. -/
def Free (m : Bytes) : Prop := strcasecmp m b!"z" ≠ .eq ∧ strcasecmp m b!"WARC-Segment-Number" ≠ .eq ∧
  strcasecmp m b!"WARC-Segment-Origin-ID" ≠ .eq ∧ strcasecmp m b!"WARC-Segment-Total-Length" ≠ .eq

/-- A field that storing an object does not touch. -/
def Kept (m : Bytes) : Prop := Free m ∧ Other m ∧ strcasecmp m b!"WARC-Payload-Digest" ≠ .eq

/-- What the headers of committed segments tell. -/
structure SegTruth (env : Env) (size : Nat) (h : Hdr) (nos : List Nat) (x : Item) (ys : List Item) : Prop where
  told : ∀ y ∈ x :: ys, Told env y
  ids : ∀ y ∈ ys, y.hdr.id = (env.sha y.record.data).take env.idSize
  kept : ∀ m, Free m → headerGet x.hdr m = headerGet h m
  total : ∀ z, (x :: ys).getLast? = some z → headerGet z.hdr b!"WARC-Segment-Total-Length" = some (dec size)
  silos : (x :: ys).map (·.entry.silo) = nos

/-- What the headers of an object's records tell. -/
structure Truthful (env : Env) (jh : Hdr) (x : Item) (ys : List Item) : Prop where
  told : ∀ y ∈ x :: ys, Told env y
  ids : ∀ y ∈ ys, y.hdr.id = (env.sha y.record.data).take env.idSize
  kept : ∀ m, Kept m → headerGet x.hdr m = headerGet jh m
  digest : ys ≠ [] → headerGet x.hdr b!"WARC-Payload-Digest" = some (b!"sha256:" ++ env.sha ((x :: ys).map (·.record.data)).flatten)
  total : ys ≠ [] → ∀ z, (x :: ys).getLast? = some z →
    headerGet z.hdr b!"WARC-Segment-Total-Length" = some (dec ((x :: ys).map (·.record.data)).flatten.length)
  order : (x :: ys).Pairwise fun a b => a.entry.silo < b.entry.silo
  single : ys = [] → headerGet x.hdr b!"WARC-Payload-Digest" = none ∧ headerGet x.hdr b!"WARC-Segment-Total-Length" = none

/-- The header and index entry of an object in one record. -/
def PlainHdr (x : Item) : Prop := headerGet x.hdr b!"WARC-Segment-Number" = none ∧
  x.entry = Ins.entry { id := x.hdr.id, flags := typeFlag x.hdr, silo := x.entry.silo, off := x.entry.off, cont := none } ∧ ∀ c ∈ x.hdr.id, isHex c = true

/-- What storing an object adds to the archive: its records, whose index entries are as their headers say, and warcinfo records. -/
def Adds (env : Env) (jh : Hdr) (s s' : Nat → Option Silo) (X : List Item) (x : Item) (ys : List Item) : Prop :=
  LayStep s s' X ∧ (∃ I, X.Perm (x :: ys ++ I) ∧ ∀ y ∈ I, InfoItem env y) ∧
  headerGet x.hdr b!"WARC-Type" = headerGet jh b!"WARC-Type" ∧
  (ys = [] ∧ PlainHdr x ∨ ys ≠ [] ∧ SegHdrs env.pfx x.hdr.id 1 (x :: ys)) ∧ Truthful env jh x ys

/-- A finished segment can be committed with any neat header. -/
theorem done_ready {env : Env} (he : EnvOk env) {jh : Hdr} (hn : Neat jh) (hsh : Short env jh) {ident : Option Bytes} {before : Nat} {s : Seg}
    (hd : SegDone env jh ident before s) (hno : s.segno < 2 ^ 63) (hb : before + env.max < 2 ^ 63) {h : Hdr} (h1 : Neat h) (h2 : ∀ c ∈ h.id, isHex c = true) :
    Ready env { s.silo with hd := h } s.content := by
  obtain ⟨h0, gz, ⟨b1, b2, ⟨ih, info, res, i1, i2, i3, i4, i5⟩, b4, b5, b6⟩, g1, g2, -⟩ := hd.state
  have hl := seg0_len he hn hno b1
  unfold Short at hsh
  have hps := he.ps
  obtain ⟨-, m2⟩ := he.pack0 _ (serialize_ne env.pfx h0) (by omega)
  have hpad : seg0Pad env s.segno before ≤ 118 := by
    unfold seg0Pad
    split
    · unfold headerLen
      rw [List.length_append, (he.sha []).1]
      decide
    · have := dec_length (before + env.max) 18 (by omega)
      unfold headerLen
      show 25 + 2 + _ + 2 ≤ _
      omega
  refine ⟨⟨ih, info, res, gz, i1, i2, i3, i4, i5, g2, g1⟩, by simp only; omega, hd.max, h1, h2, ?_, ?_⟩
  · simp only
    omega
  · simp only [b5]
    exact typeFlag_cases h0

/-- A segment ready to be committed as number `n`. -/
structure SegR (env : Env) (n : Nat) (s : Seg) : Prop where
  segno : s.segno = n
  ready : ∀ h, Neat h → (∀ c ∈ h.id, isHex c = true) → Ready env { s.silo with hd := h } s.content
  neat : Neat s.hdr
  id : ∀ c ∈ s.hdr.id, isHex c = true
  idLen : s.hdr.id.length = env.idSize
  number : n ≠ 1 → headerGet s.hdr b!"WARC-Segment-Number" = some (dec n)
  flag : typeFlag s.hdr = s.silo.idx
  total : headerGet s.hdr b!"WARC-Segment-Total-Length" = none
  type : n ≠ 1 → headerGet s.hdr b!"WARC-Type" = some b!"continuation"
  digest : headerGet s.hdr b!"WARC-Block-Digest" = some (b!"sha256:" ++ env.sha s.content)
  length : headerGet s.hdr b!"Content-Length" = some (dec s.content.length)
  cid : n ≠ 1 → s.hdr.id = (env.sha s.content).take env.idSize

def SegsR (env : Env) : Nat → List Seg → Prop
  | _, [] => True
  | n, s :: ss => SegR env n s ∧ SegsR env (n + 1) ss

/-- The ID of a continuation segment is that of its contents. -/
theorem done_cid {env : Env} {jh : Hdr} (hj : JobHdr env.idSize jh) {ident : Option Bytes} {before : Nat} {s : Seg} (hd : SegDone env jh ident before s)
    (hn : s.segno ≠ 1) : s.hdr.id = (env.sha s.content).take env.idSize := by
  obtain ⟨h0, gz, hb, -, -, hf⟩ := hd.state
  obtain ⟨s0, -, -, -, -, g4, -⟩ := seg0_cont hn hj.sorted hb.hdr0
  rw [if_neg hn] at hf
  unfold finishHdr at hf
  simp only [Res.bind_eq_ok] at hf
  obtain ⟨h2, e2, h3, e3, e4⟩ := hf
  have i2 := headerSet_inv s0 e2
  have i3 := headerSet_inv i2.2.2.1 e3
  have ht : headerGet h3 b!"WARC-Type" = some b!"continuation" := by
    rw [i3.2.2.2.1, if_neg (by decide), i2.2.2.2.1, if_neg (by decide), g4]
  unfold identSet identCreate headerSetId at e4
  rw [ht] at e4
  simp only [Res.bind_eq_ok, Res.check_eq_ok, exists_const, Res.pure_eq, Res.ok.injEq] at e4
  obtain ⟨id, q1, -, -, q2⟩ := e4
  rw [← q2]
  rw [if_neg (by decide), if_true] at q1
  rw [← Res.ok.inj q1, List.take_take, Nat.min_self]

theorem done_neat {env : Env} (he : EnvOk env) {jh : Hdr} (hn : Neat jh) {ident : Option Bytes} {before : Nat} {s : Seg}
    (hd : SegDone env jh ident before s) : Neat s.hdr ∧ (s.segno ≠ 1 → ∀ c ∈ s.hdr.id, isHex c = true) := by
  obtain ⟨h0, gz, ⟨b1, -⟩, -, -, f⟩ := hd.state
  refine ⟨neat_finish he (neat_seg0 he hn b1) f, ?_⟩
  intro h1
  rw [if_neg h1] at f
  unfold finishHdr at f
  simp only [Res.bind_eq_ok] at f
  obtain ⟨_, _, _, _, e⟩ := f
  exact identSet_hex he e

theorem done_segR {env : Env} (he : EnvOk env) {jh : Hdr} (hj : JobHdr env.idSize jh) (hn : Neat jh) (hsh : Short env jh) {ident : Option Bytes}
    {before : Nat} {s : Seg} (hd : SegDone env jh ident before s) (hno : s.segno < 2 ^ 63) (hb : before + env.max < 2 ^ 63)
    (hid : ∀ c ∈ s.hdr.id, isHex c = true) : SegR env s.segno s := by
  obtain ⟨-, k1, k6, k7, k2⟩ := segDone_hdr (fun d => (he.sha d).1) hj hd
  obtain ⟨k3, k4, -, k5⟩ := done_fields (fun d => (he.sha d).1) hj hd
  exact ⟨rfl, fun h h1 h2 => done_ready he hn hsh hd hno hb h1 h2, (done_neat he hn hd).1, hid, k1, k2, k3, k4, k5, k7, k6, done_cid hj hd⟩

theorem done_segsR {env : Env} (he : EnvOk env) {jh : Hdr} (hj : JobHdr env.idSize jh) (hn : Neat jh) (hsh : Short env jh) {ident : Option Bytes}
    (ss : List Seg) : ∀ {n before : Nat}, SegsDone env jh ident n before ss → n ≠ 1 → 1 ≤ n → n + ss.length < 2 ^ 63 →
    before + (ss.map (·.size)).sum + env.max < 2 ^ 63 → SegsR env n ss := by
  induction ss with
  | nil => intro _ _ _ _ _ _ _; trivial
  | cons s ss ih =>
    intro n before h hn1 hn2 hlt hb
    obtain ⟨h1, h2, h3⟩ := h
    rw [List.length_cons] at hlt
    rw [List.map_cons, List.sum_cons] at hb
    refine ⟨?_, ih h3 (by omega) (by omega) (by omega) (by omega)⟩
    have := done_segR he hj hn hsh h2 (by omega) (by omega) ((done_neat he hn h2).2 (by omega))
    rwa [h1] at this

/-! ### Flags and keys -/

theorem pad_prefix {id : Bytes} : ((id.map toLower).take 24).isPrefixOf (padKey 24 id) = true := by
  rw [List.isPrefixOf_iff_prefix]
  exact ⟨_, rfl⟩

theorem toLower_idem (c : UInt8) : toLower (toLower c) = toLower c := by
  have tbl : ∀ n : Fin 256, toLower (toLower (UInt8.ofNat n)) = toLower (UInt8.ofNat n) := by
    set_option maxRecDepth 20000 in decide
  have := tbl ⟨c.toNat, c.toNat_lt⟩
  simpa only [UInt8.ofNat_toNat] using this

/-- The continuation field of a segment leads to the next one. -/
theorem cont_matches {id : Bytes} (hl : 8 ≤ id.length) {e : Entry} (hk : e.key = padKey 24 id) : Matches (padKey 8 id) e = true := by
  unfold Matches
  rw [hk, List.isPrefixOf_iff_prefix]
  have h1 : padKey 8 id = (id.map toLower).take 8 := by
    unfold padKey
    simp only [List.length_take, List.length_map]
    rw [show 8 - min 8 id.length = 0 by omega]
    simp
  have h2 : (toLower ∘ toLower) = toLower := funext toLower_idem
  rw [h1, List.map_take, List.map_map, h2, List.take_take, show min 24 8 = 8 from rfl]
  unfold padKey
  refine List.IsPrefix.trans ?_ (List.prefix_append _ _)
  exact List.take_prefix_take_left (by omega) 

theorem flag_seg {i : Nat} (hi : i = 0 ∨ i = F_METADATA ∨ i = F_RESOURCE) (a b : Bool) :
    FlSegmented (i ||| F_SEGMENTED ||| (if a then F_FIRSTSEG else 0) ||| (if b then F_LASTSEG else 0)) = true ∧
    FlWarcinfo (i ||| F_SEGMENTED ||| (if a then F_FIRSTSEG else 0) ||| (if b then F_LASTSEG else 0)) = false ∧
    FlFirst (i ||| F_SEGMENTED ||| (if a then F_FIRSTSEG else 0) ||| (if b then F_LASTSEG else 0)) = a ∧
    FlLast (i ||| F_SEGMENTED ||| (if a then F_FIRSTSEG else 0) ||| (if b then F_LASTSEG else 0)) = b := by
  rcases hi with rfl | rfl | rfl <;> cases a <;> cases b <;> decide

theorem flag_plain {i : Nat} (hi : i = 0 ∨ i = F_METADATA ∨ i = F_RESOURCE) :
    FlSegmented i = false ∧ FlWarcinfo i = false ∧ FlFirst i = false ∧ FlLast i = false := by
  rcases hi with rfl | rfl | rfl <;> decide

theorem number_dec {h : Hdr} {name : Bytes} {n : Nat} (hg : headerGet h name = some (dec n)) (hb : n < 2 ^ 63) :
    headerGetNumber h name = .ok (n : Int) := by
  rw [headerGetNumber, hg]
  have hv := decVal_dec n
  simp only
  unfold decVal at hv
  rw [numLoop_digits _ _ (fun c hc => dec_digits n c hc) (by rw [hv]; exact hb), hv]

theorem dec_one {n : Nat} : dec n = b!"1" ↔ n = 1 := by
  constructor
  · intro h
    exact dec_inj (h.trans (by decide))
  · rintro rfl; decide

theorem linked_mono {pfx : Bytes} {A B : List Item} {id : Bytes} (h : ∀ x ∈ A, x ∈ B) (ys : List Item) : ∀ {n : Nat} {x : Item},
    Linked pfx A id n x ys → Linked pfx B id n x ys := by
  induction ys with
  | nil => intro n x h; exact h
  | cons y ys ih =>
    intro n x hl
    obtain ⟨a1, a2, a3, a4, a5, a6, a7, a8, a9⟩ := hl
    exact ⟨a1, a2, h y a3, a4, a5, a6, a7, a8, ih a9⟩

theorem object_mono {pfx : Bytes} {A B : List Item} {id : Bytes} {x : Item} {ys : List Item} (h : ∀ x ∈ A, x ∈ B) (ho : IsObject pfx A id x ys) :
    IsObject pfx B id x ys := by
  obtain ⟨a1, a2, a3, a4, a5⟩ := ho
  refine ⟨h x a1, a2, a3, a4, ?_⟩
  rcases a5 with a5 | ⟨b1, b2, b3, b4⟩
  · exact .inl a5
  · exact .inr ⟨b1, b2, b3, linked_mono h ys b4⟩

/-! ### Several segments -/

theorem commitSegs_ghosts {env : Env} (he : EnvOk env) {G : Nat → Option Silo} {fid : Bytes} (hfid : ∀ c ∈ fid, isHex c = true) (hfl : fid.length = env.idSize) {size : Nat}
    (ss : List Seg) : ∀ {s : Seg} {n : Nat} {w w' : World} {ops : List IdxOp} {A : List Item}, ArchInv env (withGhosts G w) ops A → SegsR env n (s :: ss) → (∀ t ∈ s :: ss, G t.silo.no = none) →
    1 ≤ n → n + ss.length < 2 ^ 32 → commitSegs env fid size (s :: ss) w = .ok w' →
    ∃ is X x ys, ArchInv env (withGhosts G w') (ops ++ is) (A ++ X) ∧ Grown (withGhosts G w).silos (withGhosts G w').silos ∧ x ∈ X ∧ (∀ y ∈ ys, y ∈ X) ∧
      (∀ z ∈ X, z ∈ x :: ys ∨ FlWarcinfo z.entry.flags = true) ∧ Linked env.pfx (A ++ X) fid n x ys ∧
      x.entry.key = padKey 24 s.hdr.id ∧ x.hdr.id = s.hdr.id ∧ FlSegmented x.entry.flags = true ∧ FlWarcinfo x.entry.flags = false ∧
      (n = 1 → FlFirst x.entry.flags = true) ∧
      (n ≠ 1 → headerGetNumber x.hdr b!"WARC-Segment-Number" = .ok (n : Int) ∧ HasOrigin env.pfx x.hdr fid) ∧
      (x :: ys).map (·.record.data) = (s :: ss).map (·.content) ∧ (∀ y ∈ x :: ys, Segment y.record.bgz y.record.data) ∧
      LayStep w.silos w'.silos X ∧ (∃ I, X.Perm (x :: ys ++ I) ∧ ∀ y ∈ I, InfoItem env y) ∧
      headerGet x.hdr b!"WARC-Type" = headerGet s.hdr b!"WARC-Type" ∧ SegHdrs env.pfx fid n (x :: ys) ∧ SegTruth env size s.hdr ((s :: ss).map (·.silo.no)) x ys ∧
      Apart ((s :: ss).map (·.silo.no)) w w' ∧ ∀ z ∈ X, w'.silos z.entry.silo ≠ none := by
  induction ss with
  | nil =>
    intro s n w w' ops A ha hs hG hn1 hn2 e
    obtain ⟨hs, -⟩ := hs
    rw [commitSegs, Res.bind_eq_ok] at e
    obtain ⟨h1, e1, e⟩ := e
    rw [Res.bind_eq_ok] at e
    obtain ⟨h2, e2, e⟩ := e
    rw [Res.bind_eq_ok] at e
    obtain ⟨w1, e3, e4⟩ := e
    rw [if_pos rfl] at e2
    cases e4
    have hid1 : h1.id = s.hdr.id ∧ Neat h1 ∧ headerGet h1 b!"WARC-Segment-Number" = some (dec n) ∧
        (n ≠ 1 → HasOrigin env.pfx h1 fid) ∧ headerGet h1 b!"WARC-Type" = headerGet s.hdr b!"WARC-Type" ∧
        headerGet h1 b!"WARC-Segment-Total-Length" = none ∧ ∀ m, Free m → headerGet h1 m = headerGet s.hdr m := by
      rw [hs.segno] at e1
      split at e1
      · rename_i h
        have i := headerSet_inv hs.neat.1 e1
        refine ⟨i.2.1, neat_set hs.neat e1 (by decide) (by decide), ?_, fun h' => absurd h h', ?_, ?_, ?_⟩
        · rw [i.2.2.2.1, if_pos (strcasecmp_refl _), h]
          decide
        · rw [i.2.2.2.1, if_neg (by decide)]
        · rw [i.2.2.2.1, if_neg (by decide)]; exact hs.total
        · intro m hm; rw [i.2.2.2.1, if_neg hm.2.1]
      · rename_i h
        have e1 := (headerSetRef_inv e1).2
        have i := headerSet_inv hs.neat.1 e1
        rw [List.take_of_length_le (by omega)] at e1 i
        refine ⟨i.2.1, neat_set hs.neat e1 (by decide) (clean_ref he (clean_hex hfid)), ?_, fun _ => ?_, ?_, ?_, ?_⟩
        · rw [i.2.2.2.1, if_neg (by decide)]
          exact hs.number h
        · unfold HasOrigin
          rw [i.2.2.2.1, if_pos (strcasecmp_refl _)]
        · rw [i.2.2.2.1, if_neg (by decide)]
        · rw [i.2.2.2.1, if_neg (by decide)]; exact hs.total
        · intro m hm; rw [i.2.2.2.1, if_neg hm.2.2.1]
    obtain ⟨j1, j2, j3, j4, j5, j6, j7⟩ := hid1
    have i2 := headerSet_inv j2.1 e2
    have n2 := neat_set j2 e2 (by decide) (clean_dec _)
    have hid2 : h2.id = s.hdr.id := i2.2.1.trans j1
    have hr := hs.ready h2 n2 (by rw [hid2]; exact hs.id)
    simp only [List.head?_nil, Option.map_none] at e3
    obtain ⟨fl, is, x, X, c1, c2, c3, c4, c5, c6, c7, c8, c9⟩ := wsiloCommit_ghosts he ha hr (hG s (by simp)) (fun k hk => by cases hk) (fun h => by cases h) (fun h => by cases h) e3
    have htype : headerGet x.hdr b!"WARC-Type" = headerGet s.hdr b!"WARC-Type" := by
      rw [c3.get _ (by decide)]
      show headerGet h2 _ = _
      rw [i2.2.2.2.1, if_neg (by decide), j5]
    have hnum : headerGet h2 b!"WARC-Segment-Number" = some (dec n) := by
      rw [i2.2.2.2.1, if_neg (by decide)]; exact j3
    unfold commitFlags at c1
    rw [if_neg (by simp), show ({ s.silo with hd := h2 } : Sl).hd = h2 from rfl, hnum] at c1
    simp only [Res.ok.injEq] at c1
    have hfs := flag_seg hr.flags (decide (n = 1)) true
    simp only [decide_eq_true_eq, if_true] at hfs
    simp only [dec_one, if_true] at c1
    rw [c1] at hfs
    refine ⟨is, x :: X, x, [], c2, c4, by simp, fun y hy => (by cases hy), ?_, ?_, ?_, ?_, ?_, ?_, ?_, ?_, ?_, ?_, c6, ⟨X, .refl _, c7⟩, htype, ⟨?_, ?_, ?_, ?_, (by rw [c3.id]; simp only [hid2]; exact hs.id), trivial⟩, ?_, (wsiloCommit_apart e3 :), c9⟩
    · intro z hz
      rcases List.mem_cons.1 hz with rfl | hz
      · exact .inl (by simp)
      · exact .inr (c5 z hz).1
    · unfold Linked
      rw [c3.flags]; exact hfs.2.2.2
    · rw [c3.key]; simp only [hid2]
    · rw [c3.id]; exact hid2
    · rw [c3.flags]; exact hfs.1
    · rw [c3.flags]; exact hfs.2.1
    · intro h; rw [c3.flags, hfs.2.2.1]; simp [h]
    · intro h
      refine ⟨number_dec (by rw [c3.get _ (by decide)]; exact hnum) (by omega), ?_⟩
      have := j4 h
      unfold HasOrigin at this ⊢
      rw [c3.get _ (by decide)]
      show headerGet h2 _ = _
      rw [i2.2.2.2.1, if_neg (by decide)]
      exact this
    · simp [c3.data]
    · intro y hy
      rw [List.mem_singleton] at hy
      rw [hy, c3.data]; exact c3.seg
    · rw [c3.get _ (by decide)]; exact hnum
    · intro h
      refine ⟨?_, by rw [htype]; exact hs.type h⟩
      have := j4 h
      unfold HasOrigin at this ⊢
      rw [c3.get _ (by decide)]
      show headerGet h2 _ = _
      rw [i2.2.2.2.1, if_neg (by decide)]
      exact this
    · rw [c3.get _ (by decide)]
      show (headerGet h2 _).isSome = _
      rw [i2.2.2.2.1, if_pos (strcasecmp_refl _)]
      rfl
    · rw [typeFlag_congr htype, hs.flag]
      simp only [List.isEmpty_nil, if_true, List.head?_nil, Option.map_none]
      rw [c1]
      exact made_entry c3
    · have hk : ∀ m, Free m → headerGet x.hdr m = headerGet s.hdr m := by
        intro m hm
        rw [c3.get m hm.1]
        show headerGet h2 _ = _
        rw [i2.2.2.2.1, if_neg hm.2.2.2, j7 m hm]
      refine ⟨?_, fun y hy => (by cases hy), hk, ?_, by simp [c8 rfl]⟩
      · intro y hy
        rw [List.mem_singleton] at hy
        rw [hy]
        refine ⟨?_, ?_⟩
        · rw [hk _ (by unfold Free; decide), c3.data]; exact hs.digest
        · rw [hk _ (by unfold Free; decide), c3.data]; exact hs.length
      · intro z hz
        rw [List.getLast?_singleton, Option.some.injEq] at hz
        rw [← hz, c3.get _ (by decide)]
        show headerGet h2 _ = _
        rw [i2.2.2.2.1, if_pos (strcasecmp_refl _)]
  | cons t ss ih =>
    intro s n w w' ops A ha hs hG hn1 hn2 e
    obtain ⟨hs, hss⟩ := hs
    have ht : SegR env (n + 1) t := hss.1
    rw [List.length_cons] at hn2
    rw [commitSegs, Res.bind_eq_ok] at e
    obtain ⟨h1, e1, e⟩ := e
    rw [Res.bind_eq_ok] at e
    obtain ⟨h2, e2, e⟩ := e
    rw [Res.bind_eq_ok] at e
    obtain ⟨w1, e3, e4⟩ := e
    rw [if_neg (by simp)] at e2
    cases e2
    have hid1 : h1.id = s.hdr.id ∧ Neat h1 ∧ headerGet h1 b!"WARC-Segment-Number" = some (dec n) ∧
        (n ≠ 1 → HasOrigin env.pfx h1 fid) ∧ headerGet h1 b!"WARC-Type" = headerGet s.hdr b!"WARC-Type" ∧
        headerGet h1 b!"WARC-Segment-Total-Length" = none ∧ ∀ m, Free m → headerGet h1 m = headerGet s.hdr m := by
      rw [hs.segno] at e1
      split at e1
      · rename_i h
        have i := headerSet_inv hs.neat.1 e1
        refine ⟨i.2.1, neat_set hs.neat e1 (by decide) (by decide), ?_, fun h' => absurd h h', ?_, ?_, ?_⟩
        · rw [i.2.2.2.1, if_pos (strcasecmp_refl _), h]
          decide
        · rw [i.2.2.2.1, if_neg (by decide)]
        · rw [i.2.2.2.1, if_neg (by decide)]; exact hs.total
        · intro m hm; rw [i.2.2.2.1, if_neg hm.2.1]
      · rename_i h
        have e1 := (headerSetRef_inv e1).2
        have i := headerSet_inv hs.neat.1 e1
        rw [List.take_of_length_le (by omega)] at e1 i
        refine ⟨i.2.1, neat_set hs.neat e1 (by decide) (clean_ref he (clean_hex hfid)), ?_, fun _ => ?_, ?_, ?_, ?_⟩
        · rw [i.2.2.2.1, if_neg (by decide)]
          exact hs.number h
        · unfold HasOrigin
          rw [i.2.2.2.1, if_pos (strcasecmp_refl _)]
        · rw [i.2.2.2.1, if_neg (by decide)]
        · rw [i.2.2.2.1, if_neg (by decide)]; exact hs.total
        · intro m hm; rw [i.2.2.2.1, if_neg hm.2.2.1]
    obtain ⟨j1, j2, j3, j4, j5, j6, j7⟩ := hid1
    have hr := hs.ready h1 j2 (by rw [j1]; exact hs.id)
    simp only [List.head?_cons, Option.map_some] at e3
    obtain ⟨fl, is, x, X, c1, c2, c3, c4, c5, c6, c7, c8, c9⟩ := wsiloCommit_ghosts he ha hr (hG s (by simp))
      (fun k hk => by cases hk; exact ht.id) (fun h => by cases h) (fun h => by cases h) e3
    have htype : headerGet x.hdr b!"WARC-Type" = headerGet s.hdr b!"WARC-Type" := by
      rw [c3.get _ (by decide)]
      exact j5
    unfold commitFlags at c1
    rw [if_neg (by simp), show ({ s.silo with hd := h1 } : Sl).hd = h1 from rfl, j3] at c1
    simp only [Res.ok.injEq] at c1
    have hfs := flag_seg hr.flags (decide (n = 1)) false
    simp only [decide_eq_true_eq, Bool.false_eq_true, if_false] at hfs
    simp only [dec_one, reduceCtorEq, if_false] at c1
    rw [c1] at hfs
    obtain ⟨is2, X2, y, ys, d1, d2, d3, d4, d5, d6, d7, d8, d9, d10, d11, d12, d13, d14, d15, ⟨I2, d16, d17⟩, -, d19, d20, d21, d22⟩ := ih c2 hss (fun t ht => hG t (List.mem_cons_of_mem _ ht)) (by omega) (by omega) e4
    obtain ⟨q1, q2⟩ := d12 (by omega)
    have hassoc : A ++ x :: X ++ X2 = A ++ (x :: X ++ X2) := by simp
    refine ⟨is ++ is2, x :: X ++ X2, x, y :: ys, by rw [← List.append_assoc, ← hassoc]; exact d1, grown_trans c4 d2, by simp, ?_, ?_, ?_, ?_, ?_, ?_, ?_, ?_, ?_, ?_, ?_,
      layStep_trans (wsiloCommit_apart e3).1 c9 c6 d15, ⟨X ++ I2, ?_, ?_⟩, htype, ⟨?_, ?_, ?_, ?_, (by rw [c3.id]; simp only [j1]; exact hs.id), d19⟩, ?_, (apart_trans (wsiloCommit_apart e3) d21 :), ?_⟩
    · intro z hz
      refine List.mem_append_right _ ?_
      rcases List.mem_cons.1 hz with rfl | hz
      · exact d3
      · exact d4 z hz
    · intro z hz
      rcases List.mem_append.1 hz with hz | hz
      · rcases List.mem_cons.1 hz with rfl | hz
        · exact .inl (by simp)
        · exact .inr (c5 z hz).1
      · rcases d5 z hz with h | h
        · exact .inl (List.mem_cons_of_mem _ h)
        · exact .inr h
    · refine ⟨by rw [c3.flags]; exact hfs.2.2.2, ?_, by simp [d3], d9, d10, by omega, q1, ⟨fid, q2, rfl⟩, ?_⟩
      · rw [c3.cont]
        have := ht.idLen
        have := he.idSize
        exact cont_matches (id := t.hdr.id) (by omega) d7
      · rw [← hassoc]; exact d6
    · rw [c3.key]; simp only [j1]
    · rw [c3.id]; exact j1
    · rw [c3.flags]; exact hfs.1
    · rw [c3.flags]; exact hfs.2.1
    · intro h; rw [c3.flags, hfs.2.2.1]; simp [h]
    · intro h
      refine ⟨number_dec (by rw [c3.get _ (by decide)]; exact j3) (by omega), ?_⟩
      have := j4 h
      unfold HasOrigin at this ⊢
      rw [c3.get _ (by decide)]
      exact this
    · rw [List.map_cons, d13]; simp [c3.data]
    · intro z hz
      rcases List.mem_cons.1 hz with rfl | hz
      · rw [c3.data]; exact c3.seg
      · exact d14 z hz
    · refine List.Perm.cons _ ((List.Perm.append_left X d16).trans ?_)
      show List.Perm _ ((y :: ys) ++ (X ++ I2))
      rw [← List.append_assoc, ← List.append_assoc]
      exact List.Perm.append_right _ List.perm_append_comm
    · intro z hz
      rcases List.mem_append.1 hz with hz | hz
      · exact c7 z hz
      · exact d17 z hz
    · rw [c3.get _ (by decide)]; exact j3
    · intro h
      refine ⟨?_, by rw [htype]; exact hs.type h⟩
      have := j4 h
      unfold HasOrigin at this ⊢
      rw [c3.get _ (by decide)]
      exact this
    · rw [c3.get _ (by decide)]
      show (headerGet h1 _).isSome = _
      rw [j6]
      rfl
    · rw [typeFlag_congr htype, hs.flag]
      simp only [List.isEmpty_cons, Bool.false_eq_true, if_false, List.head?_cons, Option.map_some]
      rw [c1, d8]
      exact made_entry c3
    · have hk : ∀ m, Free m → headerGet x.hdr m = headerGet s.hdr m := by
        intro m hm
        rw [c3.get m hm.1]
        exact j7 m hm
      have hds : (y :: ys).map (·.record.data) = (t :: ss).map (·.content) := d13
      refine ⟨?_, ?_, hk, ?_, by rw [List.map_cons, d20.silos, c8 rfl]; rfl⟩
      · intro z hz
        rcases List.mem_cons.1 hz with rfl | hz
        · refine ⟨?_, ?_⟩
          · rw [hk _ (by unfold Free; decide), c3.data]; exact hs.digest
          · rw [hk _ (by unfold Free; decide), c3.data]; exact hs.length
        · exact d20.told z hz
      · intro z hz
        rcases List.mem_cons.1 hz with rfl | hz
        · rw [d8, ht.cid (by omega)]
          have := (List.cons.inj (by simpa using hds)).1
          rw [this]
        · exact d20.ids z hz
      · intro z hz
        rw [List.getLast?_cons_cons] at hz
        exact d20.total z hz
    · intro z hz
      rcases List.mem_append.1 hz with hz | hz
      · exact d21.1 _ (c9 z hz)
      · exact d22 z hz

/-! ### The whole job -/

theorem nodup_length (N : Nat) : ∀ l : List Nat, l.Nodup → (∀ n ∈ l, n < N) → l.length ≤ N := by
  induction N with
  | zero =>
    intro l _ h
    cases l with
    | nil => simp
    | cons a l => exact absurd (h a (by simp)) (by omega)
  | succ N ih =>
    intro l hn h
    have := ih (l.erase N) (hn.erase N) (fun n hm => by
      have h1 := (hn.mem_erase_iff).1 hm
      have := h n h1.2
      have := h1.1
      omega)
    have hle := List.length_erase (a := N) (l := l)
    split at hle <;> omega

theorem identSet_transfer {sha : Bytes → Bytes} {pfx : Bytes} {n : Nat} {h h' g : Hdr} {d : Bytes} {i : Option Bytes}
    (e : identSet sha pfx n h d i = .ok h') (ht : headerGet g b!"WARC-Type" = headerGet h b!"WARC-Type")
    (hr : headerGet g b!"WARC-Refers-To" = headerGet h b!"WARC-Refers-To") : identSet sha pfx n g d i = .ok { g with id := h'.id } := by
  have key : ∀ x, headerSetId n h x = .ok h' → headerSetId n g x = .ok { g with id := h'.id } := by
    intro x hx
    unfold headerSetId at hx ⊢
    rw [Res.check_bind_eq_ok, Res.check_bind_eq_ok] at hx
    obtain ⟨a, b, c⟩ := hx
    cases c
    rw [a, b]
    rfl
  unfold identSet at e ⊢
  cases i with
  | none =>
    simp only [Res.bind_eq_ok] at e ⊢
    obtain ⟨x, e1, e2⟩ := e
    exact ⟨x, by rw [C49_nothing_else sha n g h d ht hr]; exact e1, key _ e2⟩
  | some x =>
    simp only [Res.bind_eq_ok, Res.check_eq_ok, exists_const] at e ⊢
    exact ⟨e.1, key _ e.2⟩

theorem digest2Ident_inv {pfx : Bytes} {n : Nat} {id uri : Bytes} (e : digest2Ident pfx n id = .ok uri) :
    uri = pfx ++ id ∧ idxValidId pfx n uri = .ok id ∧ (∀ c ∈ id, isHex c = true) ∧ id.length = n := by
  unfold digest2Ident at e
  rw [Res.check_bind_eq_ok] at e
  obtain ⟨e1, e2⟩ := e
  cases e2
  unfold validId at e1
  split at e1
  · rename_i b hb
    obtain ⟨h1, h2, h3⟩ := (C11_valid_id pfx n (pfx ++ id) b).1 hb
    have hbid : b = id := by
      rcases h1 with ⟨pre, h1, h4⟩ | ⟨h1, -⟩
      · have hl : pre.length = pfx.length := by
          have := congrArg List.length h4
          simpa using this
        exact (List.append_inj_right h1 hl.symm).symm
      · exact absurd ⟨pfx, id, rfl, rfl⟩ h1
    subst hbid
    exact ⟨rfl, hb, h2, h3⟩
  · cases e1

/-- The ID of an object: that of its whole contents, or the one given by the user. -/
def ObjectId (env : Env) (h : Hdr) (ident : Option Bytes) (payload id : Bytes) : Prop :=
  identSet env.sha env.pfx env.idSize h (env.sha payload) ident = .ok { h with id := id }

theorem first_objectId {env : Env} {jh : Hdr} (hn : Neat jh) {ident : Option Bytes} {s : Seg} (hd : SegDone env jh ident 0 s) (h1 : s.segno = 1) :
    ObjectId env jh ident s.content s.hdr.id ∧ headerGet s.hdr b!"WARC-Type" = headerGet jh b!"WARC-Type" ∧
      headerGet s.hdr b!"WARC-Refers-To" = headerGet jh b!"WARC-Refers-To" := by
  obtain ⟨h0, gz, ⟨b1, -⟩, -, -, f⟩ := hd.state
  rw [h1] at b1
  rw [if_pos h1] at f
  obtain ⟨s0, -, -, -, g3⟩ := seg0_first hn.1 b1
  unfold finishHdr at f
  simp only [Res.bind_eq_ok] at f
  obtain ⟨h2, e2, h3, e3, e4⟩ := f
  have i2 := headerSet_inv s0 e2
  have i3 := headerSet_inv i2.2.2.1 e3
  have t : ∀ m, Other m → headerGet h3 m = headerGet jh m := by
    intro m hm
    rw [i3.2.2.2.1, if_neg hm.2, i2.2.2.2.1, if_neg hm.1, g3 m hm]
  have hf := identSet_inv e4
  refine ⟨identSet_transfer e4 (t _ ⟨by decide, by decide⟩).symm (t _ ⟨by decide, by decide⟩).symm, ?_, ?_⟩
  · rw [get_of_fields hf.1, t _ ⟨by decide, by decide⟩]
  · rw [get_of_fields hf.1, t _ ⟨by decide, by decide⟩]

theorem first_kept {env : Env} {jh : Hdr} (hj : JobHdr env.idSize jh) {ident : Option Bytes} {s : Seg} (hd : SegDone env jh ident 0 s) (h1 : s.segno = 1)
    {m : Bytes} (hm : Other m) : headerGet s.hdr m = headerGet jh m := by
  obtain ⟨h0, gz, ⟨b1, -⟩, -, -, f⟩ := hd.state
  rw [h1] at b1
  obtain ⟨s0, -, -, -, g3⟩ := seg0_first hj.sorted b1
  unfold finishHdr at f
  simp only [Res.bind_eq_ok] at f
  obtain ⟨h2, e2, h3, e3, e4⟩ := f
  have i2 := headerSet_inv s0 e2
  have i3 := headerSet_inv i2.2.2.1 e3
  rw [get_of_fields (identSet_inv e4).1, i3.2.2.2.1, if_neg hm.2, i2.2.2.2.1, if_neg hm.1, g3 m hm]

theorem destroy_same (ss : List Seg) : ∀ w : World, (destroy w ss).silos = w.silos ∧ (destroy w ss).dir = w.dir ∧ (destroy w ss).cacheFile = w.cacheFile ∧
    (∀ n, (destroy w ss).holds n = if n ∈ ss.map (·.silo.no) then false else w.holds n) := by
  induction ss with
  | nil => intro w; exact ⟨rfl, rfl, rfl, fun n => by simp [destroy]⟩
  | cons s ss ih =>
    intro w
    obtain ⟨a, b, c, d⟩ := ih (abandon w s.silo)
    refine ⟨a, b, c, fun n => ?_⟩
    rw [show destroy w (s :: ss) = destroy (abandon w s.silo) ss from rfl, d]
    simp only [abandon, upd, List.map_cons, List.mem_cons]
    by_cases h1 : n ∈ ss.map (·.silo.no)
    · simp [h1]
    · by_cases h2 : n = s.silo.no <;> simp [h1, h2]

/-- What a job with complete segments does: nothing if the object is in the archive, else it is added. -/
theorem commitJob_ghosts {σ : Type} {env : Env} (he : EnvOk env) {G : Nat → Option Silo} {fuel : Nat} {w w' : World} {sj : Job σ} {uri : Bytes} {ops : List IdxOp} {A : List Item}
    (hj : JobHdr env.idSize sj.hdr) (hn : Neat sj.hdr) (hsh : Short env sj.hdr)
    (hs : SegsDone env sj.hdr sj.ident 1 0 sj.segs) (hp : sj.payload = sj.segs.flatMap (·.content)) (hlen : sj.size = sj.payload.length) (hsize : sj.payload.length + env.max < 2 ^ 63)
    (hnd : (sj.segs.map (·.silo.no)).Pairwise (· < ·)) (hG : ∀ s ∈ sj.segs, G s.silo.no = none) (ha : ArchInv env (withGhosts G w) ops A) (e : commitJob env fuel w sj = .ok (w', uri)) :
    ∃ id, uri = env.pfx ++ id ∧ idxValidId env.pfx env.idSize uri = .ok id ∧ (∀ c ∈ id, isHex c = true) ∧ id.length = env.idSize ∧
      ObjectId env sj.hdr sj.ident sj.payload id ∧
      ((∃ gj, getjobNew env.ps env.pfx env.idSize fuel w id = .ok (.job gj)) ∧ w' = destroy w sj.segs ∨
       (∀ gj, getjobNew env.ps env.pfx env.idSize fuel w id ≠ .ok (.job gj)) ∧
       ∃ is X x ys, ArchInv env (withGhosts G w') (ops ++ is) (A ++ X) ∧ Grown (withGhosts G w).silos (withGhosts G w').silos ∧ IsObject env.pfx (A ++ X) id x ys ∧ (∀ y ∈ x :: ys, y ∈ X) ∧
        (∀ z ∈ X, z ∈ x :: ys ∨ FlWarcinfo z.entry.flags = true) ∧
        ((x :: ys).map (·.record.data)).flatten = sj.payload ∧ (∀ y ∈ x :: ys, Segment y.record.bgz y.record.data) ∧
        ys.length + 1 = sj.segs.length ∧ x.hdr.id = id ∧ Adds env sj.hdr w.silos w'.silos X x ys ∧
        Apart (sj.segs.map (·.silo.no)) w w' ∧ ∀ z ∈ X, w'.silos z.entry.silo ≠ none) := by
  unfold commitJob at e
  rw [Res.check_bind_eq_ok] at e
  obtain ⟨-, e⟩ := e
  have hcnt := nodup_length (2 ^ 32 - 1) _ (hnd.imp Nat.ne_of_lt) (fun n hm => by
    obtain ⟨s, hs1, rfl⟩ := List.mem_map.1 hm
    obtain ⟨b, hd⟩ := segsDone_mem _ hs s hs1
    obtain ⟨_, _, hb, -⟩ := hd.state
    have := hb.no
    omega)
  rw [List.length_map] at hcnt
  split at e
  · cases e
  · rename_i s ss hseg
    rw [hseg] at hs hp hcnt hnd hG
    rw [hseg]
    obtain ⟨h1, hd, hrest⟩ := hs
    have hsz := sizes_sum _ hrest
    obtain ⟨_, _, hb, -⟩ := hd.state
    rw [hp, List.flatMap_cons, List.length_append] at hsize
    rw [List.length_cons] at hcnt
    simp only [Res.bind_eq_ok] at e
    obtain ⟨s', e1, uri', e2, g, e3, e4⟩ := e
    obtain ⟨u1, u2, u3, u4⟩ := digest2Ident_inv e2
    obtain ⟨f1, f2, f3⟩ := first_objectId hn hd h1
    by_cases hss : ss = []
    · -- one segment
      subst hss
      rw [if_pos rfl] at e1
      cases e1
      rw [List.flatMap_cons, List.flatMap_nil, List.append_nil] at hp
      have hout : uri = uri' ∧ ((∃ gj, g = .job gj) ∧ w' = destroy w [s] ∨
          (∀ gj, g ≠ .job gj) ∧ wsiloCommit env w s.silo false s.hdr.id none = .ok w') := by
        split at e4
        · simp only [Res.pure_eq, Res.ok.injEq, Prod.mk.injEq] at e4
          exact ⟨e4.2.symm, .inl ⟨⟨_, rfl⟩, e4.1.symm⟩⟩
        · rw [if_pos rfl] at e4
          simp only [Res.bind_eq_ok, Res.pure_eq, Res.ok.injEq, Prod.mk.injEq] at e4
          obtain ⟨w1, k1, rfl, k3⟩ := e4
          exact ⟨k3.symm, .inr ⟨fun _ h => (by cases h), k1⟩⟩
      obtain ⟨rfl, hout⟩ := hout
      refine ⟨s.hdr.id, u1, u2, u3, u4, by rw [hp]; exact f1, ?_⟩
      rcases hout with ⟨⟨gj, rfl⟩, hw⟩ | ⟨hng, ec⟩
      · exact .inl ⟨⟨gj, e3⟩, hw⟩
      · refine .inr ⟨fun gj h => hng gj (by rw [e3] at h; exact Res.ok.inj h), ?_⟩
        have hr := (done_segR he hj hn hsh hd (by omega) (by omega) u3).ready s.hdr (done_neat he hn hd).1 u3
        rw [← hd.hd] at hr
        have htext : (headerSerialize env.pfx s.silo.hd).length + 84 ≤ env.ps := by
          obtain ⟨h0, gz, hb0, -, -, ff⟩ := hd.state
          have e0 := hb0.hdr0
          have hl0 := seg0_len he hn (by omega) e0
          rw [h1] at e0
          obtain ⟨s0, i0, g1, g2, g3⟩ := seg0_first hj.sorted e0
          obtain ⟨-, -, l1, -⟩ := finishHdr_inv s0 g1 g2 (by rw [(he.sha _).1, (he.sha _).1]) (by rw [i0, hj.id]) ff
          have hz2 := hb.size
          have := dec_length s.size 18 (by omega)
          unfold Short at hsh
          rw [hd.hd]
          omega
        have hid : s.silo.hd.id = s.hdr.id := by rw [hd.hd]
        obtain ⟨fl, is, x, X, c1, c2, c3, c4, c5, c6, c7, c8, c9⟩ := wsiloCommit_ghosts he ha hr (hG s (by simp)) (fun k hk => by cases hk) (fun _ => rfl) (fun _ => htext) (by
          rw [hid]; exact ec)
        unfold commitFlags at c1
        rw [if_pos rfl] at c1
        cases c1
        obtain ⟨p1, p2, p3, p4⟩ := flag_plain hr.flags
        have hget : ∀ m, strcasecmp m b!"z" ≠ .eq → headerGet x.hdr m = headerGet s.hdr m := by
          intro m hm
          rw [c3.get m hm, hd.hd]
        obtain ⟨k1, -, k2, -⟩ := done_fields (fun d => (he.sha d).1) hj hd
        have hap := wsiloCommit_apart ec
        refine ⟨is, x :: X, x, [], c2, c4, ⟨by simp, ?_, ?_, ?_, .inl ⟨rfl, ?_, ?_, ?_, ?_⟩⟩, by simp, ?_, ?_, ?_, rfl, ?_,
          ⟨c6, ⟨X, .refl _, c7⟩, (hget _ (by decide)).trans f2, .inl ⟨rfl, ?_, ?_, (by rw [c3.id, hid]; exact u3)⟩, ?_⟩, hap, c9⟩
        · rw [c3.id, hid]; rfl
        · unfold Matches; rw [c3.key, hid]; exact pad_prefix
        · rw [c3.flags]; exact p2
        · rw [c3.flags]; exact p1
        · rw [c3.flags]; exact p3
        · rw [c3.flags]; exact p4
        · rw [c3.cont]; decide
        · intro z hz
          rcases List.mem_cons.1 hz with rfl | hz
          · exact .inl (by simp)
          · exact .inr (c5 z hz).1
        · simp [c3.data, hp]
        · intro y hy
          rw [List.mem_singleton] at hy
          rw [hy, c3.data]; exact c3.seg
        · rw [c3.id, hid]
        · rw [hget _ (by decide)]; exact k2 h1
        · rw [typeFlag_congr (hget _ (by decide)), k1]
          exact made_entry c3
        · obtain ⟨-, -, t1, t2, -⟩ := segDone_hdr (fun d => (he.sha d).1) hj hd
          refine ⟨?_, fun y hy => (by cases hy), ?_, fun h => absurd rfl h, fun h => absurd rfl h, List.pairwise_singleton _ _, fun _ => ⟨?_, ?_⟩⟩
          · intro y hy
            rw [List.mem_singleton] at hy
            rw [hy]
            exact ⟨by rw [hget _ (by decide), c3.data, t2], by rw [hget _ (by decide), c3.data, t1]⟩
          · intro m hm
            rw [hget m hm.1.1, first_kept hj hd h1 hm.2.1]
          · rw [hget _ (by decide), first_kept hj hd h1 ⟨by decide, by decide⟩]; exact hj.payload
          · rw [hget _ (by decide), first_kept hj hd h1 ⟨by decide, by decide⟩]; exact hj.total
    · -- several segments
      rw [if_neg hss] at e1
      have hout : uri = uri' ∧ ((∃ gj, g = .job gj) ∧ w' = destroy w (s' :: ss) ∨
          (∀ gj, g ≠ .job gj) ∧ commitSegs env s'.hdr.id sj.size (s' :: ss) w = .ok w') := by
        split at e4
        · simp only [Res.pure_eq, Res.ok.injEq, Prod.mk.injEq] at e4
          exact ⟨e4.2.symm, .inl ⟨⟨_, rfl⟩, e4.1.symm⟩⟩
        · rw [if_neg hss] at e4
          simp only [Res.bind_eq_ok, Res.pure_eq, Res.ok.injEq, Prod.mk.injEq] at e4
          obtain ⟨w1, k1, rfl, k3⟩ := e4
          exact ⟨k3.symm, .inr ⟨fun _ h => (by cases h), k1⟩⟩
      obtain ⟨rfl, hout⟩ := hout
      unfold firstId at e1
      simp only [Res.bind_eq_ok, Res.pure_eq, Res.ok.injEq] at e1
      obtain ⟨g1, k1, g2, k2, rfl⟩ := e1
      have nd := (done_neat he hn hd).1
      have i1 := headerSet_inv nd.1 k1
      have n1 := neat_set nd k1 (by decide) (clean_sha he _)
      have n2 := neat_fields n1 (identSet_inv k2).1
      have hoid : ObjectId env sj.hdr sj.ident sj.payload g2.id := by
        refine identSet_transfer k2 ?_ ?_
        · rw [i1.2.2.2.1, if_neg (by decide), f2]
        · rw [i1.2.2.2.1, if_neg (by decide), f3]
      refine ⟨g2.id, u1, u2, u3, u4, hoid, ?_⟩
      rcases hout with ⟨⟨gj, rfl⟩, hw⟩ | ⟨hng, ec⟩
      · exact .inl ⟨⟨gj, e3⟩, hw⟩
      · refine .inr ⟨fun gj h => hng gj (by rw [e3] at h; exact Res.ok.inj h), ?_⟩
        have hg2 : ∀ m, strcasecmp m b!"WARC-Payload-Digest" ≠ .eq → headerGet g2 m = headerGet s.hdr m := by
          intro m hm
          rw [get_of_fields (identSet_inv k2).1, i1.2.2.2.1, if_neg hm]
        have hsr : SegsR env 1 ({ s with hdr := g2, silo := { s.silo with hd := g2 } } :: ss) := by
          refine ⟨⟨h1, fun h a b => done_ready he hn hsh hd (by omega) (by omega) a b, n2, u3, u4, fun h => absurd rfl h, ?_, ?_, fun h => absurd rfl h, ?_, ?_,
            fun h => absurd rfl h⟩, ?_⟩
          · obtain ⟨q1, -⟩ := done_fields (fun d => (he.sha d).1) hj hd
            rw [← q1]
            exact typeFlag_congr (hg2 _ (by decide))
          · obtain ⟨-, q2, -⟩ := done_fields (fun d => (he.sha d).1) hj hd
            rw [← q2]
            exact hg2 _ (by decide)
          · obtain ⟨-, -, -, t2, -⟩ := segDone_hdr (fun d => (he.sha d).1) hj hd
            rw [← t2]; exact hg2 _ (by decide)
          · obtain ⟨-, -, t1, -⟩ := segDone_hdr (fun d => (he.sha d).1) hj hd
            rw [← t1]; exact hg2 _ (by decide)
          refine done_segsR he hj hn hsh ss hrest (by omega) (by omega) (by omega) ?_
          rw [hsz, hb.size]
          omega
        obtain ⟨is, X, x, ys, c1, c2, c3, c4, c5, c6, c7, c8, c9, c10, c11, -, c13, c14, c15, c16, c17, c18, c19, c20, c21⟩ :=
          commitSegs_ghosts he u3 u4 ss ha hsr (by
            intro t ht
            rcases List.mem_cons.1 ht with rfl | ht
            · exact hG s (by simp)
            · exact hG t (List.mem_cons_of_mem _ ht)) (by omega) (by omega) ec
        have hys : ys.length = ss.length := by
          have := congrArg List.length c13
          simpa using this
        refine ⟨is, X, x, ys, c1, c2, ⟨by simp [c3], ?_, ?_, c10, .inr ⟨?_, c9, c11 rfl, c6⟩⟩, ?_, c5, ?_, c14, by simp [hys], c8, ⟨c15, c16, ?_, .inr ⟨?_, ?_⟩, ?_⟩, c20, c21⟩
        · rw [c8]; rfl
        · unfold Matches; rw [c7]; exact pad_prefix
        · intro h0
          rw [h0] at hys
          exact hss (List.length_eq_zero_iff.1 hys.symm)
        · intro y hy
          rcases List.mem_cons.1 hy with rfl | hy
          · exact c3
          · exact c4 y hy
        · rw [c13, hp, List.flatMap_def]
          rfl
        · rw [c17, ← f2]
          exact hg2 _ (by decide)
        · intro h0
          rw [h0] at hys
          exact hss (List.length_eq_zero_iff.1 hys.symm)
        · rw [c8]; exact c18
        · have hpay : ((x :: ys).map (·.record.data)).flatten = sj.payload := by
            rw [c13, hp, List.flatMap_def]
            rfl
          refine ⟨c19.told, c19.ids, ?_, fun _ => ?_, fun _ z hz => ?_, ?_, fun h0 => ?_⟩
          · intro m hm
            rw [c19.kept m hm.1, ← first_kept hj hd h1 hm.2.1]
            exact hg2 m hm.2.2
          · rw [c19.kept _ (by unfold Free; decide), hpay]
            show headerGet g2 _ = _
            rw [get_of_fields (identSet_inv k2).1, i1.2.2.2.1, if_pos (strcasecmp_refl _)]
          · rw [hpay, ← hlen]
            exact c19.total z hz
          · rw [← List.pairwise_map (f := fun a : Item => a.entry.silo) (R := (· < ·)), c19.silos]
            exact hnd
          · rw [h0] at hys
            exact absurd (List.length_eq_zero_iff.1 hys.symm) hss

/-- The same when no silo is missing: what a job with complete segments does: nothing if the object is in the archive, else it is added. -/
theorem commitJob_adds {σ : Type} {env : Env} (he : EnvOk env) {fuel : Nat} {w w' : World} {sj : Job σ} {uri : Bytes} {ops : List IdxOp} {A : List Item}
    (hj : JobHdr env.idSize sj.hdr) (hn : Neat sj.hdr) (hsh : Short env sj.hdr)
    (hs : SegsDone env sj.hdr sj.ident 1 0 sj.segs) (hp : sj.payload = sj.segs.flatMap (·.content)) (hlen : sj.size = sj.payload.length) (hsize : sj.payload.length + env.max < 2 ^ 63)
    (hnd : (sj.segs.map (·.silo.no)).Pairwise (· < ·)) (ha : ArchInv env w ops A) (e : commitJob env fuel w sj = .ok (w', uri)) :
    ∃ id, uri = env.pfx ++ id ∧ idxValidId env.pfx env.idSize uri = .ok id ∧ (∀ c ∈ id, isHex c = true) ∧ id.length = env.idSize ∧
      ObjectId env sj.hdr sj.ident sj.payload id ∧
      ((∃ gj, getjobNew env.ps env.pfx env.idSize fuel w id = .ok (.job gj)) ∧ w' = destroy w sj.segs ∨
       (∀ gj, getjobNew env.ps env.pfx env.idSize fuel w id ≠ .ok (.job gj)) ∧
       ∃ is X x ys, ArchInv env w' (ops ++ is) (A ++ X) ∧ Grown w.silos w'.silos ∧ IsObject env.pfx (A ++ X) id x ys ∧ (∀ y ∈ x :: ys, y ∈ X) ∧
        (∀ z ∈ X, z ∈ x :: ys ∨ FlWarcinfo z.entry.flags = true) ∧
        ((x :: ys).map (·.record.data)).flatten = sj.payload ∧ (∀ y ∈ x :: ys, Segment y.record.bgz y.record.data) ∧
        ys.length + 1 = sj.segs.length ∧ x.hdr.id = id ∧ Adds env sj.hdr w.silos w'.silos X x ys) := by
  have h := commitJob_ghosts he (G := fun _ => none) hj hn hsh hs hp hlen hsize hnd (fun _ _ => rfl) (by rw [ghosts_none]; exact ha) e
  simp only [ghosts_none] at h
  obtain ⟨id, b1, b2, b3, b4, b5, b6 | ⟨b6, is, X, x, ys, c1, c2, c3, c4, c5, c6, c7, c8, c9, c10, -⟩⟩ := h
  · exact ⟨id, b1, b2, b3, b4, b5, .inl b6⟩
  · exact ⟨id, b1, b2, b3, b4, b5, .inr ⟨b6, is, X, x, ys, c1, c2, c3, c4, c5, c6, c7, c8, c9, c10⟩⟩

end Verif.Props
