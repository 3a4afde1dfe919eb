/-
The archive as a list of records, and how commits change it.
-/
import Verif.Proofs.Clean
import Verif.Props.Getjob
import Verif.Props.Segjob

namespace Verif.Props
open Verif Header Gzip Ident Index Wsilo Segjob Spec Inflate
open _root_.Verif.Commit (upd Silo)

/-- The header block of the record is the print of its header, and fits a page with 61 bytes left. -/
def Written (env : Env) (x : Item) : Prop := x.record.text = headerSerialize env.pfx x.hdr ∧ x.record.text.length + 61 ≤ env.ps

/-- The archive directory holds exactly the records of `A`: the index has been made by inserting their entries (and
any housekeeping in between), and each record is where its entry says. -/
structure ArchInv (env : Env) (w : World) (ops : List IdxOp) (A : List Item) : Prop where
  dir : runOps {} ops = .ok w.dir
  valid : ∀ o ∈ ops, o.Valid
  entries : (inserts ops).map Ins.entry = A.map (·.entry)
  there : ∀ x ∈ A, x.At env.ps env.pfx w.silos
  text : ∀ x ∈ A, Written env x

/-- The silos consist of the records of `A`, each at its offset, and of nothing else. -/
def Layout (s : Nat → Option Silo) (A : List Item) : Prop :=
  ∀ n f, s n = some f → ∃ X : List Item, X.Perm (A.filter fun x => x.entry.silo = n) ∧ f.data = siloBytes (X.map (·.record)) ∧
    X.map (·.entry.off) = offsets 0 (X.map (·.record))

/-- `X` are the records by which the silos have grown. -/
def LayStep (s s' : Nat → Option Silo) (X : List Item) : Prop :=
  ∀ B : List Item, (∀ z ∈ B, s z.entry.silo ≠ none) → Layout s B → Layout s' (B ++ X)

/-- A warcinfo record and its index entry. -/
def InfoItem (env : Env) (y : Item) : Prop :=
  y.entry = Ins.entry { id := y.hdr.id, flags := F_WARCINFO, silo := y.entry.silo, off := y.entry.off, cont := none } ∧ infoHdr env y.entry.silo = .ok y.hdr ∧
  y.record.data = infoBody env y.entry.silo

/-- No silo has gone away, and none has lost anything. -/
def Grown (s s' : Nat → Option Silo) : Prop := ∀ n f, s n = some f → ∃ f' post, s' n = some f' ∧ f'.data = f.data ++ post

theorem grown_refl (s : Nat → Option Silo) : Grown s s := fun _ f h => ⟨f, [], h, by simp⟩

theorem grown_trans {a b c : Nat → Option Silo} (h1 : Grown a b) (h2 : Grown b c) : Grown a c := by
  intro n f hf
  obtain ⟨f1, p1, e1, e2⟩ := h1 n f hf
  obtain ⟨f2, p2, e3, e4⟩ := h2 n f1 e1
  exact ⟨f2, p1 ++ p2, e3, by rw [e4, e2, List.append_assoc]⟩

theorem at_grown {ps : Nat} {pfx : Bytes} {s s' : Nat → Option Silo} (hg : Grown s s') {x : Item} (hx : x.At ps pfx s) : x.At ps pfx s' := by
  obtain ⟨⟨f, pre, post, h1, h2, h3⟩, h4⟩ := hx
  obtain ⟨f', p, e1, e2⟩ := hg _ _ h1
  exact ⟨⟨f', pre, post ++ p, e1, by rw [e2, h2, List.append_assoc], h3⟩, h4⟩

theorem grown_upd {s : Nat → Option Silo} {n : Nat} {f : Silo} (h : ∀ g, s n = some g → ∃ post, f.data = g.data ++ post) :
    Grown s (upd s n (some f)) := by
  intro m g hg
  unfold upd
  by_cases hm : m = n
  · subst hm
    obtain ⟨post, e⟩ := h g hg
    exact ⟨f, post, by rw [if_pos rfl], e⟩
  · exact ⟨g, [], by rw [if_neg hm, hg], by simp⟩

theorem runOps_inserts (is : List Ins) : inserts (is.map .insert) = is := by
  induction is with
  | nil => rfl
  | cons i is ih => simp [inserts, ih]

/-- Records are added. -/
theorem archInv_add {env : Env} {w w' : World} {ops : List IdxOp} {A : List Item} (ha : ArchInv env w ops A) (is : List Ins) (X : List Item)
    (hv : ∀ i ∈ is, i.Valid) (hd : runOps w.dir (is.map .insert) = .ok w'.dir) (he : is.map Ins.entry = X.map (·.entry))
    (hg : Grown w.silos w'.silos) (hx : ∀ x ∈ X, x.At env.ps env.pfx w'.silos ∧ Written env x) : ArchInv env w' (ops ++ is.map .insert) (A ++ X) := by
  refine ⟨?_, ?_, ?_, ?_, ?_⟩
  · rw [runOps_append, ha.dir]
    exact hd
  · intro o ho
    rcases List.mem_append.1 ho with h | h
    · exact ha.valid o h
    · obtain ⟨i, hi, rfl⟩ := List.mem_map.1 h
      exact hv i hi
  · rw [inserts_append, List.map_append, ha.entries, runOps_inserts, he, List.map_append]
  · intro x h
    rcases List.mem_append.1 h with h | h
    · exact at_grown hg (ha.there x h)
    · exact (hx x h).1
  · intro x h
    rcases List.mem_append.1 h with h | h
    · exact ha.text x h
    · exact (hx x h).2

/-- Nothing changes that matters. -/
theorem archInv_same {env : Env} {w w' : World} {ops : List IdxOp} {A : List Item} (ha : ArchInv env w ops A) (hd : w'.dir = w.dir)
    (hs : w'.silos = w.silos) : ArchInv env w' ops A := ⟨by rw [hd]; exact ha.dir, ha.valid, ha.entries, by rw [hs]; exact ha.there, ha.text⟩

/-! ### Committing one silo -/

/-- A finished hold file with the header that goes with it. -/
structure Ready (env : Env) (sl : Sl) (content : Bytes) : Prop where
  hold : ∃ ih info res gz, InfoRec env sl.no ih info ∧ sl.infoId = ih.id ∧ info.length = sl.hdStart ∧ res.length = sl.hdLen ∧
    sl.hold = info ++ res ++ (gz ++ crnlcrnl) ∧ Member gz content ∧ Segment gz content
  no : sl.no < 2 ^ 32
  max : sl.hold.length < env.max
  neat : Neat sl.hd
  id : ∀ c ∈ sl.hd.id, isHex c = true
  fits : sl.hdLen + 24 ≤ env.ps
  flags : sl.idx = 0 ∨ sl.idx = F_METADATA ∨ sl.idx = F_RESOURCE

/-- The record of a committed silo. -/
structure Made (x : Item) (hd : Hdr) (fl : Nat) (rid : Option Bytes) (content : Bytes) : Prop where
  key : x.entry.key = padKey 24 hd.id
  cont : x.entry.cont = padKey 8 (rid.getD [])
  flags : x.entry.flags = fl
  data : x.record.data = content
  seg : Segment x.record.bgz content
  id : x.hdr.id = hd.id
  get : ∀ m, strcasecmp m b!"z" ≠ .eq → headerGet x.hdr m = headerGet hd m

theorem serialize_ne (pfx : Bytes) (h : Hdr) : headerSerialize pfx h ≠ [] := by
  intro he
  have := congrArg List.length he
  simp [headerSerialize] at this

theorem crnl_sep : crnlcrnl = separator := rfl

/-- The warcinfo record at the start of a silo. -/
theorem info_at {env : Env} (he : EnvOk env) {no : Nat} (hno : no < 2 ^ 32) {ih : Hdr} {info : Bytes} (hi : InfoRec env no ih info) {s : Nat → Option Silo} {f : Silo} {post : Bytes}
    (hs : s no = some f) (hf : f.data = info ++ post) :
    ∃ y : Item, y.entry = Ins.entry { id := ih.id, flags := F_WARCINFO, silo := no, off := 0, cont := none } ∧ y.At env.ps env.pfx s ∧
      y.hdr = ih ∧ y.record.data = infoBody env no ∧ y.record.bytes = info ∧ Written env y := by
  obtain ⟨i1, i2⟩ := hi
  obtain ⟨n1, n2, n3⟩ := infoHdr_ok he i1
  have hl := he.infoHdr _ _ hno i1
  have hps := he.ps
  obtain ⟨m1, m2⟩ := he.pack0 _ (serialize_ne env.pfx ih) (by omega)
  have hne : infoBody env no ≠ [] := by
    intro h0
    unfold infoBody at h0
    exact absurd (List.append_eq_nil_iff.1 h0).2 (by decide)
  obtain ⟨m3, -⟩ := he.pack0 _ hne (he.infoBody no hno)
  obtain ⟨p1, p2⟩ := neat_parse he n1 n2
  refine ⟨⟨_, ⟨headerSerialize env.pfx ih, infoBody env no, env.pack0 (headerSerialize env.pfx ih), env.pack0 (infoBody env no)⟩, ih⟩, rfl, ?_, rfl, rfl, i2.symm, rfl, hl⟩
  refine ⟨⟨f, [], post, hs, ?_, rfl⟩, ⟨m1, m3, p1, p2⟩, ⟨by simp only; omega, by simp only; omega⟩⟩
  rw [hf, i2]
  rfl

theorem offsets_append (a b : List Rec) : ∀ off, offsets off (a ++ b) = offsets off a ++ offsets (off + (siloBytes a).length) b := by
  induction a with
  | nil => intro off; simp [offsets, siloBytes]
  | cons r a ih =>
    intro off
    simp only [List.cons_append, offsets, ih, siloBytes, List.map_cons, List.flatten_cons, List.length_append, Nat.add_assoc]

theorem siloBytes_append (a b : List Rec) : siloBytes (a ++ b) = siloBytes a ++ siloBytes b := by
  simp [siloBytes]

/-- A new silo with two records. -/
theorem layout_new {s : Nat → Option Silo} {A : List Item} (ha : ∀ x ∈ A, s x.entry.silo ≠ none) {n : Nat} (hn : s n = none) {x y : Item} {f : Silo}
    (hx : x.entry.silo = n) (hy : y.entry.silo = n) (hf : f.data = y.record.bytes ++ x.record.bytes) (h0 : y.entry.off = 0)
    (h1 : x.entry.off = y.record.bytes.length) (hl : Layout s A) : Layout (upd s n (some f)) (A ++ [x, y]) := by
  intro m g hg
  unfold upd at hg
  split at hg
  · rename_i hm
    subst hm
    cases hg
    refine ⟨[y, x], ?_, ?_, ?_⟩
    · rw [List.filter_append, List.filter_eq_nil_iff.2]
      · simp only [List.nil_append, List.filter_cons, hx, hy, decide_true, if_true, List.filter_nil]
        exact List.Perm.swap _ _ _
      · intro z hz
        simp only [decide_eq_true_eq]
        intro h
        exact ha z hz (by rw [h, hn])
    · rw [hf]; simp [siloBytes]
    · simp [offsets, h0, h1]
  · rename_i hm
    obtain ⟨X, p, q⟩ := hl m g hg
    refine ⟨X, ?_, q⟩
    rw [List.filter_append, show [x, y].filter (fun x => decide (x.entry.silo = m)) = [] from ?_, List.append_nil]
    · exact p
    · have e1 : ¬ n = m := fun h => hm h.symm
      simp [List.filter_cons, hx, hy, e1]

/-- One more record in a silo. -/
theorem layout_append {s : Nat → Option Silo} {A : List Item} {n : Nat} {f g : Silo} (hn : s n = some f) {x : Item}
    (hx : x.entry.silo = n) (hf : g.data = f.data ++ x.record.bytes) (h1 : x.entry.off = f.data.length) (hl : Layout s A) :
    Layout (upd s n (some g)) (A ++ [x]) := by
  intro m k hk
  unfold upd at hk
  split at hk
  · rename_i hm
    subst hm
    cases hk
    obtain ⟨X, p, q1, q2⟩ := hl m f hn
    refine ⟨X ++ [x], ?_, ?_, ?_⟩
    · rw [List.filter_append]
      simp only [List.filter_cons, hx, decide_true, if_true, List.filter_nil]
      exact List.Perm.append_right _ p
    · rw [hf, q1, List.map_append, siloBytes_append]; simp [siloBytes]
    · rw [List.map_append, List.map_append, offsets_append, q2, ← q1]
      simp [offsets, h1]
  · rename_i hm
    obtain ⟨X, p, q⟩ := hl m k hk
    refine ⟨X, ?_, q⟩
    rw [List.filter_append, show [x].filter (fun x => decide (x.entry.silo = m)) = [] from ?_, List.append_nil]
    · exact p
    · have e1 : ¬ n = m := fun h => hm h.symm
      simp [List.filter_cons, hx, e1]

theorem there_silo {env : Env} {w : World} {ops : List IdxOp} {A : List Item} (ha : ArchInv env w ops A) : ∀ z ∈ A, w.silos z.entry.silo ≠ none := by
  intro z hz h
  obtain ⟨⟨f, _, _, e, -⟩, -⟩ := ha.there z hz
  rw [h] at e
  cases e

theorem lay_arch {env : Env} {w : World} {s' : Nat → Option Silo} {ops : List IdxOp} {A X : List Item} (ha : ArchInv env w ops A) (h : LayStep w.silos s' X) :
    Layout w.silos A → Layout s' (A ++ X) := h A (there_silo ha)

theorem layStep_trans {a b c : Nat → Option Silo} {X Y : List Item} (hg : ∀ n, a n ≠ none → b n ≠ none) (hx : ∀ z ∈ X, b z.entry.silo ≠ none) (h1 : LayStep a b X) (h2 : LayStep b c Y) :
    LayStep a c (X ++ Y) := by
  intro B hB hl
  rw [← List.append_assoc]
  refine h2 (B ++ X) (fun z hz => ?_) (h1 B hB hl)
  rcases List.mem_append.1 hz with hz | hz
  · exact hg _ (hB z hz)
  · exact hx z hz

theorem install_adds {env : Env} (he : EnvOk env) {w w' : World} {ops : List IdxOp} {A : List Item} (ha : ArchInv env w ops A) {sl : Sl} {content : Bytes}
    (hr : Ready env sl content) {segd : Bool} {rid : Option Bytes} (hrid : ∀ k, rid = some k → ∀ c ∈ k, isHex c)
    (e : install env w sl segd sl.hd.id rid = .ok w') :
    ∃ fl is x y, commitFlags sl segd rid = .ok fl ∧ ArchInv env w' (ops ++ is) (A ++ [x, y]) ∧ Made x sl.hd fl rid content ∧
      FlWarcinfo y.entry.flags = true ∧ infoHdr env sl.no = .ok y.hdr ∧ Grown w.silos w'.silos ∧ w.silos sl.no = none ∧
      (∀ n, n ≠ sl.no → w'.silos n = w.silos n) ∧ (∃ f, w'.silos sl.no = some f ∧ f.data.length = sl.hold.length) ∧
      (∃ file, finalHold env sl = .ok file ∧ ∀ s : Nat → Option Silo, s sl.no = none → LayStep s (upd s sl.no (some { data := file, writable := true })) [x, y]) ∧ InfoItem env y ∧ x.entry.silo = sl.no ∧ y.entry.silo = sl.no ∧
      ∃ j, is = [.insert { id := sl.hd.id, flags := fl, silo := sl.no, off := sl.hdStart, cont := rid }, .insert j] := by
  unfold install at e
  simp only [Res.bind_eq_ok, Res.check_eq_ok, exists_const, Res.pure_eq, Res.ok.injEq] at e
  obtain ⟨file, e1, fl, e2, d1, e3, d2, e4, e5, e6⟩ := e
  have e5 := of_decide_eq_true e5
  obtain ⟨h', p1, p2, p3⟩ := finalHold_inv e1
  obtain ⟨ih, info, res, gz, i1, i2, i3, i4, i5, i6, i7⟩ := hr.hold
  have hsil : w'.silos = upd w.silos sl.no (some { data := file, writable := true }) ∧ w'.dir = d2 := by
    rw [← e6]
    unfold abandon putCache
    simp only
    split <;> exact ⟨rfl, rfl⟩
  obtain ⟨s1, s2⟩ := hsil
  have hfile : file = info ++ env.pack0 (headerSerialize env.pfx h') ++ (gz ++ crnlcrnl) := by
    have t1 : sl.hold.take sl.hdStart = info := by
      rw [i5, ← i3, List.append_assoc, List.take_left]
    have t2 : sl.hold.drop (sl.hdStart + sl.hdLen) = gz ++ crnlcrnl := by
      rw [i5, ← i3, ← i4, ← List.length_append, List.drop_left]
    rw [p3, t1, t2]
  have hn : Neat h' := by
    rcases p1 with rfl | ⟨n, p1⟩
    · exact hr.neat
    · exact neat_set hr.neat p1 (by decide) (clean_replicate n)
  have hid : h'.id = sl.hd.id := by
    rcases p1 with rfl | ⟨n, p1⟩
    · rfl
    · exact (headerSet_inv hr.neat.1 p1).2.1
  have hget : ∀ m, strcasecmp m b!"z" ≠ .eq → headerGet h' m = headerGet sl.hd m := by
    intro m hm
    rcases p1 with rfl | ⟨n, p1⟩
    · rfl
    · rw [(headerSet_inv hr.neat.1 p1).2.2.2.1, if_neg hm]
  have hgrow := he.grow (headerSerialize env.pfx h')
  have hps := he.ps
  have hfits := hr.fits
  obtain ⟨m1, m2⟩ := he.pack0 _ (serialize_ne env.pfx h') (by omega)
  obtain ⟨q1, q2⟩ := neat_parse he hn (by rw [hid]; exact hr.id)
  have hsn : w'.silos sl.no = some { data := file, writable := true } := by
    rw [s1]; unfold upd; rw [if_pos rfl]
  have hgr : Grown w.silos w'.silos := by
    rw [s1]
    exact grown_upd (fun g hg => by rw [e5] at hg; cases hg)
  obtain ⟨y, y1, y2, y3, y4, y5, y6⟩ := info_at he hr.no i1 (post := env.pack0 (headerSerialize env.pfx h') ++ (gz ++ crnlcrnl)) hsn (by
    simp only [hfile, List.append_assoc])
  obtain ⟨ix, hix⟩ : ∃ i : Ins, i = { id := sl.hd.id, flags := fl, silo := sl.no, off := sl.hdStart, cont := rid } := ⟨_, rfl⟩
  obtain ⟨iy, hiy⟩ : ∃ i : Ins, i = { id := ih.id, flags := F_WARCINFO, silo := sl.no, off := 0, cont := none } := ⟨_, rfl⟩
  obtain ⟨x, hx⟩ : ∃ x : Item, x = ⟨ix.entry, ⟨headerSerialize env.pfx h', content, env.pack0 (headerSerialize env.pfx h'), gz⟩, h'⟩ := ⟨_, rfl⟩
  have hfl : fl < 2 ^ 32 := by
    have hx : sl.idx < 16 := by
      rcases hr.flags with h | h | h <;> rw [h] <;> decide
    unfold commitFlags at e2
    split at e2
    · cases e2; exact Nat.lt_trans hx (by decide)
    · split at e2
      · cases e2
      · cases e2
        have g1 : sl.idx ||| F_SEGMENTED < 2 ^ 32 := Nat.or_lt_two_pow (Nat.lt_trans hx (by decide)) (by decide)
        refine Nat.or_lt_two_pow (Nat.or_lt_two_pow g1 ?_) ?_
        · split <;> decide
        · split <;> decide
  have hmax := he.max
  have hrmax := hr.max
  have hlen : sl.hold.length = sl.hdStart + sl.hdLen + (gz ++ crnlcrnl).length := by
    rw [i5, List.length_append, List.length_append, i3, i4]
  have hvx : ix.Valid := by
    rw [hix]
    exact ⟨hr.id, hfl, hr.no, by simp only; omega, hrid⟩
  have hvy : iy.Valid := by
    rw [hiy]
    exact ⟨(infoHdr_ok he i1.1).2.1, (by show (2 : Nat) < 2 ^ 32; decide), hr.no, (by show (0 : Nat) < 2 ^ 63; decide), fun k hk => by cases hk⟩
  refine ⟨fl, [ix, iy].map .insert, x, y, e2, ?_, ?_, ?_, ?_, hgr, e5, ?_, ?_, ?_, ?_⟩
  · refine archInv_add ha [ix, iy] [x, y] ?_ ?_ ?_ hgr ?_
    · intro i hi
      simp only [List.mem_cons, List.not_mem_nil, or_false] at hi
      rcases hi with rfl | rfl
      · exact hvx
      · exact hvy
    · simp only [List.map_cons, List.map_nil, runOps, hix, hiy]
      rw [e3]
      simp only [Res.ok_bind]
      rw [← i2, e4, s2]
      rfl
    · simp only [List.map_cons, List.map_nil, y1, ← hiy]
      rw [hx]
    · intro z hz
      simp only [List.mem_cons, List.not_mem_nil, or_false] at hz
      rcases hz with rfl | rfl
      · rw [hx]
        refine ⟨?_, rfl, by simp only; omega⟩
        refine ⟨⟨_, info, [], by simpa only [hix, Ins.entry] using hsn, ?_, ?_⟩, ⟨m1, i6, q1, q2⟩, ⟨by simp only; omega, by simp only; omega⟩⟩
        · simp only [hfile, Rec.bytes, crnl_sep, List.append_assoc, List.append_nil]
        · rw [i3, hix]; rfl
      · exact ⟨y2, y6⟩
  · rw [hx, hix]
    exact ⟨rfl, rfl, rfl, rfl, i7, hid, hget⟩
  · rw [y1]; show FlWarcinfo 2 = true; decide
  · rw [y3]; exact i1.1
  · intro n hn
    rw [s1]; unfold upd; rw [if_neg hn]
  · refine ⟨_, hsn, ?_⟩
    simp only [hfile, List.length_append]
    rw [hlen, p2, i3, List.length_append]
  · refine ⟨file, e1, fun s hs B hB => ?_⟩
    refine layout_new hB hs ?_ (by rw [y1]; rfl) ?_ ?_ ?_
    · rw [hx, hix]; rfl
    · rw [y5]
      simp only [hfile, hx, Rec.bytes, crnl_sep, List.append_assoc]
    · rw [y1]; rfl
    · rw [hx, y5, i3, hix]; rfl
  · unfold InfoItem
    rw [y1, y3, y4]
    exact ⟨⟨rfl, i1.1, rfl⟩, by rw [hx, hix]; rfl, rfl, iy, by rw [hix]; rfl⟩

/-! ### Appending to an existing silo -/

theorem putCache_same (w : World) (c : Cache.Cache) : (putCache w c).silos = w.silos ∧ (putCache w c).dir = w.dir := by
  unfold putCache
  split <;> exact ⟨rfl, rfl⟩

/-- What an append to silo `sn` does to the archive. -/
def AppendedTo (env : Env) (w w' : World) (sl : Sl) (hz id : Bytes) (sn : Nat) : Prop :=
  ∃ f d, w.silos sn = some f ∧ idxInsert w.dir id sl.idx sn f.data.length none = .ok d ∧ w'.dir = d ∧ sn < sl.no ∧
    f.data.length + (hz.length + sl.tail.length) ≤ env.max ∧
    w'.silos = upd w.silos sn (some { f with data := f.data ++ (hz ++ sl.tail) })

/-- What an append does to the archive. -/
def Appended (env : Env) (w w' : World) (sl : Sl) (hz id : Bytes) : Prop := ∃ sn, AppendedTo env w w' sl hz id sn

theorem attemptAppend_inv {env : Env} {w w' : World} {sl : Sl} {sn : Nat} {hz id : Bytes} {r : Int} (hsn : sn < sl.no)
    (e : attemptAppend env w sl sn hz id = .ok (w', r)) :
    r = 1 ∧ Appended env w w' sl hz id ∨ r ≠ 1 ∧ w'.silos = w.silos ∧ w'.dir = w.dir := by
  unfold attemptAppend at e
  split at e
  · cases e
    exact .inr ⟨by decide, rfl, rfl⟩
  · rename_i f hf
    simp only at e
    obtain ⟨a1, a2⟩ := putCache_same w (Cache.bumpNon sn w.cache)
    obtain ⟨w1, hw1⟩ : ∃ w1, w1 = putCache w (Cache.bumpNon sn w.cache) := ⟨_, rfl⟩
    rw [← hw1] at e a1 a2
    obtain ⟨b1, b2⟩ := putCache_same w1 (Cache.bumpSpace env.max f.data.length sn w1.cache)
    obtain ⟨w2, hw2⟩ : ∃ w2, w2 = putCache w1 (Cache.bumpSpace env.max f.data.length sn w1.cache) := ⟨_, rfl⟩
    rw [← hw2] at e b1 b2
    split at e
    · cases e
      exact .inr ⟨by decide, a1, a2⟩
    · split at e
      · cases e
        exact .inr ⟨by decide, b1.trans a1, b2.trans a2⟩
      · rename_i hle
        unfold appendTo at e
        split at e
        · cases e
          exact .inr ⟨by decide, b1.trans a1, b2.trans a2⟩
        · simp only [Res.bind_eq_ok, Res.check_eq_ok, exists_const, Res.pure_eq, Res.ok.injEq, Prod.mk.injEq] at e
          obtain ⟨-, d, e2, rfl, rfl⟩ := e
          rw [b2, a2] at e2
          exact .inl ⟨rfl, sn, f, d, hf, e2, rfl, hsn, by omega, by rw [b1, a1]⟩

theorem appendLoop_inv {env : Env} {sl : Sl} {hz id : Bytes} (k : Nat) : ∀ {sn : Nat} {w w' : World} {r : Bool}, sn + k ≤ sl.no →
    appendLoop env sl hz id k sn w = .ok (w', r) →
    r = true ∧ Appended env w w' sl hz id ∨ r = false ∧ w'.silos = w.silos ∧ w'.dir = w.dir := by
  induction k with
  | zero => intro sn w w' r _ e; cases e; exact .inr ⟨rfl, rfl, rfl⟩
  | succ k ih =>
    intro sn w w' r hsn e
    rw [appendLoop, Res.bind_eq_ok] at e
    obtain ⟨⟨w1, r1⟩, e1, e2⟩ := e
    have h1 := attemptAppend_inv (by omega) e1
    simp only at e2
    split at e2
    · rename_i hr
      simp only [Res.pure_eq, Res.ok.injEq, Prod.mk.injEq] at e2
      obtain ⟨rfl, rfl⟩ := e2
      rcases h1 with ⟨-, h1⟩ | ⟨h1, -⟩
      · exact .inl ⟨rfl, h1⟩
      · exact absurd hr h1
    · rename_i hr
      rcases h1 with ⟨h1, -⟩ | ⟨-, s1, s2⟩
      · exact absurd h1 hr
      split at e2
      · simp only [Res.pure_eq, Res.ok.injEq, Prod.mk.injEq] at e2
        obtain ⟨rfl, rfl⟩ := e2
        exact .inr ⟨rfl, s1, s2⟩
      · rcases ih (by omega) e2 with ⟨r1, sn', f, d, a1, a2, a3, a4, a5, a6⟩ | ⟨r1, a1, a2⟩
        · exact .inl ⟨r1, sn', f, d, by rw [← s1]; exact a1, by rw [← s2]; exact a2, a3, a4, a5, by rw [a6, s1]⟩
        · exact .inr ⟨r1, a1.trans s1, a2.trans s2⟩

theorem appended_adds {env : Env} (he : EnvOk env) {w w' : World} {ops : List IdxOp} {A : List Item} (ha : ArchInv env w ops A) {sl : Sl} {content : Bytes}
    (hr : Ready env sl content) (htext : (headerSerialize env.pfx sl.hd).length + 84 ≤ env.ps) {sn : Nat}
    (h : AppendedTo env w w' sl (env.pack9 (headerSerialize env.pfx sl.hd)) sl.hd.id sn) :
    ∃ is x, ArchInv env w' (ops ++ is) (A ++ [x]) ∧ Made x sl.hd sl.idx none content ∧ Grown w.silos w'.silos ∧
      (∀ s : Nat → Option Silo, s sn = w.silos sn → LayStep s (upd s sn (w'.silos sn)) [x]) ∧ x.entry.silo = sn := by
  obtain ⟨f, d, h1, h2, h3, h4, h5, h6⟩ := h
  obtain ⟨ih, info, res, gz, i1, i2, i3, i4, i5, i6, i7⟩ := hr.hold
  have ht : sl.tail = gz ++ crnlcrnl := by
    unfold Sl.tail
    rw [i5, ← i3, ← i4, ← List.length_append, List.drop_left]
  have hps := he.ps
  obtain ⟨m1, m2⟩ := he.pack9 _ (serialize_ne env.pfx sl.hd) (by omega)
  obtain ⟨q1, q2⟩ := neat_parse he hr.neat hr.id
  have hgr : Grown w.silos w'.silos := by
    rw [h6]
    exact grown_upd (fun g hg => by rw [h1] at hg; cases hg; exact ⟨_, rfl⟩)
  obtain ⟨ix, hix⟩ : ∃ i : Ins, i = { id := sl.hd.id, flags := sl.idx, silo := sn, off := f.data.length, cont := none } := ⟨_, rfl⟩
  obtain ⟨x, hx⟩ : ∃ x : Item, x = ⟨ix.entry, ⟨headerSerialize env.pfx sl.hd, content, env.pack9 (headerSerialize env.pfx sl.hd), gz⟩, sl.hd⟩ := ⟨_, rfl⟩
  have hfl : sl.idx < 2 ^ 32 := by
    rcases hr.flags with h | h | h <;> rw [h] <;> decide
  have hno := hr.no
  have hmax := he.max
  have hv : ix.Valid := by
    rw [hix]
    exact ⟨hr.id, hfl, by simp only; omega, by simp only; omega, fun k hk => by cases hk⟩
  refine ⟨[ix].map .insert, x, archInv_add ha [ix] [x] ?_ ?_ ?_ hgr ?_, ?_, hgr, ?_, by rw [hx, hix]; rfl⟩
  · intro i hi
    simp only [List.mem_cons, List.not_mem_nil, or_false] at hi
    rw [hi]; exact hv
  · simp only [List.map_cons, List.map_nil, runOps, hix]
    rw [h2, h3]
    rfl
  · simp only [List.map_cons, List.map_nil]
    rw [hx]
  · intro z hz
    simp only [List.mem_cons, List.not_mem_nil, or_false] at hz
    rw [hz, hx]
    refine ⟨?_, rfl, by simp only; omega⟩
    refine ⟨⟨_, f.data, [], by rw [h6]; unfold upd; rw [hix]; exact if_pos rfl, ?_, ?_⟩, ⟨m1, i6, q1, q2⟩, ⟨by simp only; omega, by simp only; omega⟩⟩
    · simp only [ht, Rec.bytes, crnl_sep, List.append_assoc, List.append_nil]
    · rw [hix]; rfl
  · rw [hx, hix]
    exact ⟨rfl, rfl, rfl, rfl, i7, rfl, fun _ _ => rfl⟩
  · intro s hs B _
    rw [show w'.silos sn = some { f with data := f.data ++ (env.pack9 (headerSerialize env.pfx sl.hd) ++ sl.tail) } by rw [h6]; unfold upd; rw [if_pos rfl]]
    refine layout_append (hs.trans h1) ?_ ?_ ?_
    · rw [hx, hix]; rfl
    · simp only [hx, ht, Rec.bytes, crnl_sep, List.append_assoc]
    · rw [hx, hix]; rfl

/-! ### Silos that are not there

After a crash the index may have entries for a silo that has not been linked to its name. -/

/-- The archive with silos that are missing. -/
def withGhosts (G : Nat → Option Silo) (w : World) : World := { w with silos := fun n => (w.silos n).or (G n) }

theorem ghosts_none (w : World) : withGhosts (fun _ => none) w = w := by
  unfold withGhosts
  simp

theorem ghosts_upd {G : Nat → Option Silo} {s : Nat → Option Silo} {n : Nat} {f : Silo} :
    (fun m => (upd s n (some f) m).or (G m)) = upd (fun m => (s m).or (G m)) n (some f) := by
  funext m
  unfold upd
  by_cases h : m = n
  · simp [h]
  · simp [h]

theorem ghosts_appended {env : Env} {G : Nat → Option Silo} {w w' : World} {sl : Sl} {hz id : Bytes} {sn : Nat} (h : AppendedTo env w w' sl hz id sn) :
    AppendedTo env (withGhosts G w) (withGhosts G w') sl hz id sn := by
  obtain ⟨f, d, h1, h2, h3, h4, h5, h6⟩ := h
  refine ⟨f, d, ?_, h2, h3, h4, h5, ?_⟩
  · unfold withGhosts; simp only [h1, Option.some_or]
  · unfold withGhosts; simp only [h6]; exact ghosts_upd

theorem ghosts_install {env : Env} {G : Nat → Option Silo} {w w' : World} {sl : Sl} {segd : Bool} {id : Bytes} {rid : Option Bytes} (hG : G sl.no = none)
    (e : install env w sl segd id rid = .ok w') : install env (withGhosts G w) sl segd id rid = .ok (withGhosts G w') := by
  unfold install at e ⊢
  simp only [Res.bind_eq_ok, Res.check_eq_ok, exists_const, Res.pure_eq, Res.ok.injEq] at e ⊢
  obtain ⟨file, e1, fl, e2, d1, e3, d2, e4, e5, e6⟩ := e
  have e5 := of_decide_eq_true e5
  refine ⟨file, e1, fl, e2, d1, e3, d2, e4, ?_, ?_⟩
  · apply decide_eq_true
    unfold withGhosts
    simp only [e5, hG, Option.none_or]
  · rw [← e6]
    unfold abandon putCache withGhosts
    simp only
    split
    · simp only [ghosts_upd]
    · simp only [ghosts_upd]

/-! What a commit leaves alone -/

theorem attemptAppend_holds {env : Env} {w w' : World} {sl : Sl} {sn : Nat} {hz id : Bytes} {r : Int}
    (e : attemptAppend env w sl sn hz id = .ok (w', r)) : w'.holds = w.holds := by
  have p : ∀ (w : World) c, (putCache w c).holds = w.holds := by intro w c; unfold putCache; split <;> rfl
  unfold attemptAppend at e
  split at e
  · cases e; rfl
  · simp only at e
    split at e
    · cases e; exact p _ _
    · split at e
      · cases e; rw [p, p]
      · unfold appendTo at e
        split at e
        · cases e; rw [p, p]
        · simp only [Res.bind_eq_ok, Res.check_eq_ok, exists_const, Res.pure_eq, Res.ok.injEq, Prod.mk.injEq] at e
          obtain ⟨-, d, -, rfl, -⟩ := e
          simp only [p]

theorem appendLoop_holds {env : Env} {sl : Sl} {hz id : Bytes} (k : Nat) : ∀ {sn : Nat} {w w' : World} {r : Bool},
    appendLoop env sl hz id k sn w = .ok (w', r) → w'.holds = w.holds := by
  induction k with
  | zero => intro sn w w' r e; cases e; rfl
  | succ k ih =>
    intro sn w w' r e
    rw [appendLoop, Res.bind_eq_ok] at e
    obtain ⟨⟨w1, r1⟩, e1, e2⟩ := e
    have h1 := attemptAppend_holds e1
    simp only at e2
    split at e2
    · simp only [Res.pure_eq, Res.ok.injEq, Prod.mk.injEq] at e2
      rw [← e2.1, h1]
    · split at e2
      · simp only [Res.pure_eq, Res.ok.injEq, Prod.mk.injEq] at e2
        rw [← e2.1, h1]
      · rw [ih e2, h1]

/-- No silo goes away, and only the own hold file; and no silo but the own one comes. -/
def Apart (l : List Nat) (w w' : World) : Prop :=
  (∀ n, w.silos n ≠ none → w'.silos n ≠ none) ∧ ∀ n, n ∉ l → w'.holds n = w.holds n ∧ (w.silos n = none → w'.silos n = none)

theorem apart_refl (l : List Nat) (w : World) : Apart l w w := ⟨fun _ h => h, fun _ _ => ⟨rfl, id⟩⟩

theorem apart_trans {l l' : List Nat} {w w' w'' : World} (h1 : Apart l w w') (h2 : Apart l' w' w'') : Apart (l ++ l') w w'' := by
  refine ⟨fun n h => h2.1 n (h1.1 n h), fun n hn => ?_⟩
  rw [List.mem_append, not_or] at hn
  obtain ⟨a1, a2⟩ := h1.2 n hn.1
  obtain ⟨b1, b2⟩ := h2.2 n hn.2
  exact ⟨b1.trans a1, fun h => b2 (a2 h)⟩

theorem apart_same {l : List Nat} {w w' w'' : World} (h : Apart l w w') (h1 : w''.silos = w'.silos) (h2 : w''.holds = w'.holds) : Apart l w w'' := by
  unfold Apart at h ⊢
  rw [h1, h2]
  exact h

theorem upd_apart {s : Nat → Option Silo} {n : Nat} {f : Silo} : (∀ m, s m ≠ none → upd s n (some f) m ≠ none) ∧
    ∀ m, m ≠ n → upd s n (some f) m = s m := by
  unfold upd
  refine ⟨fun m h => ?_, fun m h => by rw [if_neg h]⟩
  split
  · simp
  · exact h

theorem install_apart {env : Env} {w w' : World} {sl : Sl} {segd : Bool} {id : Bytes} {rid : Option Bytes}
    (e : install env w sl segd id rid = .ok w') : Apart [sl.no] w w' := by
  unfold install at e
  simp only [Res.bind_eq_ok, Res.check_eq_ok, exists_const, Res.pure_eq, Res.ok.injEq] at e
  obtain ⟨file, -, fl, -, d1, -, d2, -, -, e⟩ := e
  have hs : w'.silos = upd w.silos sl.no (some { data := file, writable := true }) ∧ w'.holds = upd w.holds sl.no false := by
    rw [← e]
    unfold abandon putCache
    simp only
    split <;> exact ⟨rfl, rfl⟩
  refine ⟨fun n h => ?_, fun n h => ?_⟩
  · rw [hs.1]; exact upd_apart.1 n h
  · have h : n ≠ sl.no := fun hh => h (by rw [hh]; exact List.mem_singleton_self _)
    rw [hs.1, hs.2, upd_apart.2 n h]
    unfold upd
    rw [if_neg h]
    exact ⟨rfl, fun h => h⟩

theorem wsiloCommit_apart {env : Env} {w w' : World} {sl : Sl} {segd : Bool} {id : Bytes} {rid : Option Bytes}
    (e : wsiloCommit env w sl segd id rid = .ok w') : Apart [sl.no] w w' := by
  unfold wsiloCommit at e
  split at e
  · simp only [Res.bind_eq_ok] at e
    obtain ⟨⟨w1, r⟩, e1, e2⟩ := e
    simp only at e2
    have hh := appendLoop_holds _ e1
    by_cases hk : sl.no - w.cache.firstSpace = 0
    · rw [hk] at e1
      cases e1
      exact install_apart e2
    rcases appendLoop_inv _ (by omega) e1 with ⟨rfl, sn, f, d, h1, -, -, -, -, h6⟩ | ⟨rfl, h1, -⟩
    · rw [if_pos rfl] at e2
      simp only [Res.pure_eq, Res.ok.injEq] at e2
      have hw : w'.silos = w1.silos ∧ w'.holds = upd w1.holds sl.no false := by rw [← e2]; exact ⟨rfl, rfl⟩
      refine ⟨fun n h => ?_, fun n h => ⟨?_, fun h0 => ?_⟩⟩
      · rw [hw.1, h6]; exact upd_apart.1 n h
      · rw [hw.2, hh]
        unfold upd
        rw [if_neg (fun hh => h (by rw [hh]; exact List.mem_singleton_self _))]
      · rw [hw.1, h6, upd_apart.2 n (fun hh => by rw [hh, h1] at h0; cases h0)]
        exact h0
    · rw [if_neg (by simp)] at e2
      have := install_apart e2
      unfold Apart at this ⊢
      rw [h1, hh] at this
      exact this
  · exact install_apart e

theorem install_puts {env : Env} {w w' : World} {sl : Sl} {segd : Bool} {id : Bytes} {rid : Option Bytes} (e : install env w sl segd id rid = .ok w') :
    ∃ file, finalHold env sl = .ok file ∧ w.silos sl.no = none ∧ w'.silos = upd w.silos sl.no (some { data := file, writable := true }) := by
  unfold install at e
  simp only [Res.bind_eq_ok, Res.check_eq_ok, exists_const, Res.pure_eq, Res.ok.injEq] at e
  obtain ⟨file, e1, fl, e2, d1, e3, d2, e4, e5, e6⟩ := e
  refine ⟨file, e1, of_decide_eq_true e5, ?_⟩
  rw [← e6]
  unfold abandon putCache
  simp only
  split <;> rfl

/-- Committing a silo adds its record to the archive, and the warcinfo record if the silo is installed. -/
theorem wsiloCommit_ghosts {env : Env} (he : EnvOk env) {G : Nat → Option Silo} {w w' : World} {ops : List IdxOp} {A : List Item} (ha : ArchInv env (withGhosts G w) ops A) {sl : Sl} {content : Bytes}
    (hr : Ready env sl content) (hG : G sl.no = none) {segd : Bool} {rid : Option Bytes} (hrid : ∀ k, rid = some k → ∀ c ∈ k, isHex c) (hseg : segd = false → rid = none)
    (htext : segd = false → (headerSerialize env.pfx sl.hd).length + 84 ≤ env.ps)
    (e : wsiloCommit env w sl segd sl.hd.id rid = .ok w') :
    ∃ fl is x X, commitFlags sl segd rid = .ok fl ∧ ArchInv env (withGhosts G w') (ops ++ is) (A ++ x :: X) ∧ Made x sl.hd fl rid content ∧
      Grown (withGhosts G w).silos (withGhosts G w').silos ∧ (∀ y ∈ X, FlWarcinfo y.entry.flags = true ∧ infoHdr env sl.no = .ok y.hdr) ∧
      LayStep w.silos w'.silos (x :: X) ∧ (∀ y ∈ X, InfoItem env y) ∧ (segd = true → x.entry.silo = sl.no) ∧
      ∀ y ∈ x :: X, w'.silos y.entry.silo ≠ none := by
  have inst : ∀ {w1}, ArchInv env (withGhosts G w1) ops A → w1.silos = w.silos → install env w1 sl segd sl.hd.id rid = .ok w' →
    ∃ fl is x X, commitFlags sl segd rid = .ok fl ∧ ArchInv env (withGhosts G w') (ops ++ is) (A ++ x :: X) ∧ Made x sl.hd fl rid content ∧
      Grown (withGhosts G w).silos (withGhosts G w').silos ∧ (∀ y ∈ X, FlWarcinfo y.entry.flags = true ∧ infoHdr env sl.no = .ok y.hdr) ∧
      LayStep w.silos w'.silos (x :: X) ∧ (∀ y ∈ X, InfoItem env y) ∧ (segd = true → x.entry.silo = sl.no) ∧
      ∀ y ∈ x :: X, w'.silos y.entry.silo ≠ none := by
    intro w1 ha1 hs e
    obtain ⟨fl, is, x, y, h1, h2, h3, h4, h5, h6, -, -, ⟨f, hf, -⟩, h7, h8, h9, h10, -⟩ := install_adds he ha1 hr hrid (ghosts_install hG e)
    have hg : (withGhosts G w1).silos = (withGhosts G w).silos := by unfold withGhosts; simp only [hs]
    have hne : w'.silos sl.no ≠ none := by
      intro h
      unfold withGhosts at hf
      simp only [h, hG, Option.none_or] at hf
      cases hf
    refine ⟨fl, is, x, [y], h1, h2, h3, by rw [← hg]; exact h6, ?_, ?_, ?_, fun _ => h9, ?_⟩
    · intro z hz
      rw [List.mem_singleton] at hz
      rw [hz]
      exact ⟨h4, h5⟩
    · obtain ⟨file, p1, p2⟩ := h7
      obtain ⟨file', q1, q2, q3⟩ := install_puts e
      rw [p1] at q1
      cases q1
      rw [q3, ← hs]
      exact p2 _ q2
    · intro z hz
      rw [List.mem_singleton] at hz
      rw [hz]
      exact h8
    · intro z hz
      rcases List.mem_cons.1 hz with rfl | hz
      · rw [h9]; exact hne
      · rw [List.mem_singleton] at hz
        rw [hz, h10]; exact hne
  unfold wsiloCommit at e
  split at e
  · rename_i hs
    simp only [Res.bind_eq_ok] at e
    obtain ⟨⟨w1, r⟩, e1, e2⟩ := e
    simp only at e2
    by_cases hk : sl.no - w.cache.firstSpace = 0
    · rw [hk] at e1
      cases e1
      exact inst ha rfl e2
    rcases appendLoop_inv _ (by omega) e1 with ⟨rfl, sn, h⟩ | ⟨rfl, h1, h2⟩
    · rw [if_pos rfl] at e2
      simp only [Res.pure_eq, Res.ok.injEq] at e2
      obtain ⟨is, x, a1, a2, a3, a4, a5⟩ := appended_adds he ha hr (htext hs.1) (ghosts_appended (G := G) h)
      have hw : w'.silos = w1.silos ∧ w'.dir = w1.dir := by rw [← e2]; exact ⟨rfl, rfl⟩
      have hg : (withGhosts G w').silos = (withGhosts G w1).silos := by unfold withGhosts; simp only [hw.1]
      refine ⟨sl.idx, is, x, [], ?_, archInv_same a1 hw.2 hg, ?_, by rw [hg]; exact a3, fun y hy => (by cases hy), ?_, fun y hy => (by cases hy), fun h => (by rw [hs.1] at h; cases h), ?_⟩
      · unfold commitFlags
        rw [if_pos hs.1]
      · rw [hseg hs.1]; exact a2
      · obtain ⟨f, d, b1, -, -, -, -, b6⟩ := h
        have hGw : (withGhosts G w).silos sn = w.silos sn := by unfold withGhosts; simp only [b1, Option.some_or]
        have hGw1 : (withGhosts G w1).silos sn = w1.silos sn := by
          unfold withGhosts
          simp only [b6]
          unfold upd
          simp
        have k := a4 w.silos hGw.symm
        rw [hGw1] at k
        rw [hw.1, b6]
        rw [b6] at k
        unfold upd at k ⊢
        simpa using k
      · intro z hz
        rw [List.mem_singleton] at hz
        obtain ⟨f, d, -, -, -, -, -, b6⟩ := h
        rw [hz, a5, hw.1, b6]
        unfold upd
        simp
    · rw [if_neg (by simp)] at e2
      exact inst (archInv_same ha h2 (by unfold withGhosts; simp only [h1])) h1 e2
  · exact inst ha rfl e

/-- The same when no silo is missing. -/
theorem wsiloCommit_adds {env : Env} (he : EnvOk env) {w w' : World} {ops : List IdxOp} {A : List Item} (ha : ArchInv env w ops A) {sl : Sl} {content : Bytes}
    (hr : Ready env sl content) {segd : Bool} {rid : Option Bytes} (hrid : ∀ k, rid = some k → ∀ c ∈ k, isHex c) (hseg : segd = false → rid = none)
    (htext : segd = false → (headerSerialize env.pfx sl.hd).length + 84 ≤ env.ps)
    (e : wsiloCommit env w sl segd sl.hd.id rid = .ok w') :
    ∃ fl is x X, commitFlags sl segd rid = .ok fl ∧ ArchInv env w' (ops ++ is) (A ++ x :: X) ∧ Made x sl.hd fl rid content ∧
      Grown w.silos w'.silos ∧ (∀ y ∈ X, FlWarcinfo y.entry.flags = true ∧ infoHdr env sl.no = .ok y.hdr) ∧
      LayStep w.silos w'.silos (x :: X) ∧ (∀ y ∈ X, InfoItem env y) ∧ (segd = true → x.entry.silo = sl.no) := by
  have h := wsiloCommit_ghosts he (G := fun _ => none) (by rw [ghosts_none]; exact ha) hr rfl hrid hseg htext e
  simp only [ghosts_none] at h
  obtain ⟨fl, is, x, X, c1, c2, c3, c4, c5, c6, c7, c8, -⟩ := h
  exact ⟨fl, is, x, X, c1, c2, c3, c4, c5, c6, c7, c8⟩

end Verif.Props
