/-
Reindexing the silos of an archive.
-/
import Verif.Model.ReindexKill
import Verif.Props.Store
import Verif.Props.Reindex

namespace Verif.Props
open Verif Header Gzip Ident Index Wsilo Segjob Getjob Spec Inflate
open _root_.Verif.Reindex (Call oneRecord records reindexSilo reindexSilos insertCalls newSeg addSeg parentOf afterSlash)
open _root_.Verif.Commit (upd Silo)

/-- A call of `IDX_Insert` as an operation on the index. -/
def toIns (c : Call) : Ins := { id := c.id, flags := c.flags, silo := c.silo, off := c.off, cont := c.cont }

theorem insertCalls_runOps (cs : List Call) : ∀ d, insertCalls cs d = runOps d (cs.map fun c => .insert (toIns c)) := by
  induction cs with
  | nil => intro d; rfl
  | cons c cs ih =>
    intro d
    simp only [insertCalls, List.map_cons, runOps, toIns]
    cases idxInsert d c.id c.flags c.silo c.off c.cont with
    | ok d1 => simp only [Res.ok_bind]; exact ih d1
    | fail => rfl
    | ub => rfl

theorem inserts_calls (cs : List Call) : inserts (cs.map fun c => .insert (toIns c)) = cs.map toIns := by
  induction cs with
  | nil => rfl
  | cons c cs ih => simp [inserts, ih]

/-! ### One record -/

/-- What a record amounts to: an index entry, or a segment for the list. -/
def kindOf (x : Item) : Option (Call ⊕ Reindex.Seg) :=
  match Reindex.typeFlag x.hdr, headerGetNumber x.hdr b!"WARC-Segment-Number" with
  | .ok flg, .ok im =>
    if im < 0 then some (.inl ⟨x.hdr.id, flg, x.entry.silo, x.entry.off, none⟩)
    else
      match newSeg x.hdr flg x.entry.off im.toNat x.entry.silo with
      | .ok s => some (.inr s)
      | _ => none
  | _, _ => none

theorem oneRecord_kind {k : Nat} {x : Item} {κ : Call ⊕ Reindex.Seg} (h : kindOf x = some κ) (segs : List Reindex.Seg) :
    oneRecord k x.entry.silo segs x.entry.off x.hdr =
      match κ with
      | .inl c => .ok ([c], segs)
      | .inr s => addSeg k segs s := by
  unfold kindOf at h
  unfold oneRecord
  split at h
  · rename_i flg im h1 h2
    rw [h1, h2]
    simp only [Res.ok_bind]
    split at h
    · rename_i him
      cases h
      rw [if_pos him]
      rfl
    · rename_i him
      rw [if_neg him]
      split at h
      · rename_i s hs
        cases h
        rw [hs]
        rfl
      · cases h
  · cases h

/-- Records one after the other. -/
def proc (k : Nat) : List Item → List Reindex.Seg → Res (List Call × List Reindex.Seg)
  | [], segs => .ok ([], segs)
  | x :: l, segs => do
    let r ← oneRecord k x.entry.silo segs x.entry.off x.hdr
    let q ← proc k l r.2
    return (r.1 ++ q.1, q.2)

theorem proc_append (k : Nat) (a b : List Item) : ∀ segs C S, proc k (a ++ b) segs = .ok (C, S) →
    ∃ C1 S1 C2, proc k a segs = .ok (C1, S1) ∧ proc k b S1 = .ok (C2, S) ∧ C = C1 ++ C2 := by
  induction a with
  | nil => intro segs C S h; exact ⟨[], segs, C, rfl, h, rfl⟩
  | cons x a ih =>
    intro segs C S h
    simp only [List.cons_append, proc, Res.bind_eq_ok, Res.pure_eq, Res.ok.injEq, Prod.mk.injEq] at h
    obtain ⟨⟨c0, s0⟩, e0, ⟨c1, s1⟩, e1, rfl, rfl⟩ := h
    obtain ⟨C1, S1, C2, i1, i2, i3⟩ := ih _ _ _ e1
    refine ⟨c0 ++ C1, S1, C2, ?_, i2, by simp only at i3 ⊢; rw [i3, List.append_assoc]⟩
    simp only [proc, e0, Res.ok_bind]
    simp only at i1
    rw [i1]
    rfl

theorem records_proc {k n : Nat} (X : List Item) (hn : ∀ x ∈ X, x.entry.silo = n) (g : Item → Int) : ∀ segs,
    records k n ((X.map (·.entry.off)).zip (X.map fun x => (x.hdr, g x))) segs = proc k X segs := by
  induction X with
  | nil => intro segs; rfl
  | cons x X ih =>
    intro segs
    simp only [List.map_cons, List.zip_cons_cons, records, proc, hn x (by simp), ih fun y hy => hn y (by simp [hy])]

def callsL (L : List Item) : List Call := L.filterMap fun x => (kindOf x).bind Sum.getLeft?
def segsL (L : List Item) : List Reindex.Seg := L.filterMap fun x => (kindOf x).bind Sum.getRight?

theorem proc_meet {k : Nat} (L : List Item) : ∀ {segs S : List Reindex.Seg} {C : List Call}, (∀ x ∈ L, kindOf x ≠ none) →
    meet k (segsL L) segs = .ok (C, S) → ∃ C', proc k L segs = .ok (C', S) ∧ C'.Perm (callsL L ++ C) := by
  induction L with
  | nil =>
    intro segs S C _ h
    simp only [segsL, List.filterMap_nil, meet, Res.ok.injEq, Prod.mk.injEq] at h
    obtain ⟨rfl, rfl⟩ := h
    exact ⟨[], rfl, .refl _⟩
  | cons x L ih =>
    intro segs S C hk h
    cases hx : kindOf x with
    | none => exact absurd hx (hk x (by simp))
    | some κ =>
      have hk' : ∀ y ∈ L, kindOf y ≠ none := fun y hy => hk y (by simp [hy])
      cases κ with
      | inl c =>
        have e1 : segsL (x :: L) = segsL L := by simp [segsL, List.filterMap_cons, hx]
        have e2 : callsL (x :: L) = c :: callsL L := by simp [callsL, List.filterMap_cons, hx]
        rw [e1] at h
        obtain ⟨C', p1, p2⟩ := ih hk' h
        refine ⟨c :: C', ?_, ?_⟩
        · rw [proc, oneRecord_kind hx]
          simp only [Res.ok_bind, p1, Res.pure_eq, List.cons_append, List.nil_append]
        · rw [e2]
          exact List.Perm.cons _ p2
      | inr s =>
        have e1 : segsL (x :: L) = s :: segsL L := by simp [segsL, List.filterMap_cons, hx]
        have e2 : callsL (x :: L) = callsL L := by simp [callsL, List.filterMap_cons, hx]
        rw [e1] at h
        simp only [meet, Res.bind_eq_ok, Res.pure_eq, Res.ok.injEq, Prod.mk.injEq] at h
        obtain ⟨⟨c0, s0⟩, a1, ⟨c1, s1⟩, a2, rfl, rfl⟩ := h
        obtain ⟨C', p1, p2⟩ := ih hk' a2
        refine ⟨c0 ++ C', ?_, ?_⟩
        · rw [proc, oneRecord_kind hx]
          simp only [a1, Res.ok_bind]
          simp only at p1
          rw [p1]
          rfl
        · rw [e2]
          refine (List.Perm.append_left c0 p2).trans ?_
          rw [← List.append_assoc, ← List.append_assoc]
          exact List.Perm.append_right _ List.perm_append_comm

/-! ### Segments -/

/-- The list element for a segment. -/
def segOf (fid : Bytes) (n : Nat) (last : Bool) (x : Item) : Reindex.Seg :=
  { id := x.hdr.id, flg := x.entry.flags, parent := if n = 1 then x.hdr.id else fid ++ b!">", silo := x.entry.silo, off := x.entry.off, segno := n,
    used := decide (n = 1), done := last }

def segsOf (fid : Bytes) : Nat → List Item → List Reindex.Seg
  | _, [] => []
  | n, x :: l => segOf fid n l.isEmpty x :: segsOf fid (n + 1) l

theorem afterSlash_none {l : Bytes} (h : (47 : UInt8) ∉ l) : afterSlash l = none := by
  induction l with
  | nil => rfl
  | cons c l ih =>
    rw [afterSlash, ih fun hm => h (by simp [hm])]
    simp only
    rw [if_neg]
    intro hc
    exact h (by simp [hc])

theorem afterSlash_last {p l : Bytes} (h : (47 : UInt8) ∉ l) : afterSlash (p ++ [47] ++ l) = some l := by
  induction p with
  | nil =>
    show afterSlash (47 :: l) = some l
    rw [afterSlash, afterSlash_none h]
    rfl
  | cons c p ih =>
    show afterSlash (c :: (p ++ [47] ++ l)) = some l
    rw [afterSlash, ih]

theorem hex_not_slash {l : Bytes} (h : ∀ c ∈ l, isHex c = true) : (47 : UInt8) ∉ l ++ b!">" := by
  intro hm
  rcases List.mem_append.1 hm with hm | hm
  · exact absurd (h _ hm) (by decide)
  · exact absurd hm (by decide)

/-- A header with a type other than warcinfo. -/
def Typed (h : Hdr) : Prop := ∃ t, headerGet h b!"WARC-Type" = some t ∧ t ≠ b!"warcinfo"

theorem typeFlag_typed {h : Hdr} (ht : Typed h) : Reindex.typeFlag h = .ok (Wsilo.typeFlag h) := by
  obtain ⟨t, h1, h2⟩ := ht
  unfold Reindex.typeFlag Wsilo.typeFlag
  rw [h1]
  simp only [if_neg h2]
  rfl

theorem kind_plain {x : Item} (h : PlainHdr x) (ht : Typed x.hdr) :
    ∃ c, kindOf x = some (.inl c) ∧ (toIns c).entry = x.entry ∧ ∀ k, toIns c = k → (∀ a ∈ k.id, isHex a = true) ∧ k.cont = none := by
  obtain ⟨h1, h2, h3⟩ := h
  refine ⟨⟨x.hdr.id, Wsilo.typeFlag x.hdr, x.entry.silo, x.entry.off, none⟩, ?_, h2.symm, ?_⟩
  · unfold kindOf headerGetNumber
    rw [typeFlag_typed ht, h1]
    rfl
  · rintro k rfl
    exact ⟨h3, rfl⟩

theorem kind_info {env : Env} (he : EnvOk env) {x : Item} (h : InfoItem env x) :
    ∃ c, kindOf x = some (.inl c) ∧ (toIns c).entry = x.entry ∧ ∀ k, toIns c = k → (∀ a ∈ k.id, isHex a = true) ∧ k.cont = none := by
  obtain ⟨h2, h1, -⟩ := h
  have h3 := (infoHdr_ok he h1).2.1
  have hg : headerGet x.hdr b!"WARC-Type" = some b!"warcinfo" ∧ headerGet x.hdr b!"WARC-Segment-Number" = none := by
    unfold infoHdr at h1
    simp only [Res.bind_eq_ok] at h1
    obtain ⟨h1, e1, h2, e2, h3, e3, h4, e4, h5, e5, h6, e6, e7⟩ := h1
    have s0 : SortedF (headerNew env.idSize).fields := (neat_new _).1
    have i1 := headerSet_inv s0 e1
    have i2 := headerSet_inv i1.2.2.1 e2
    have i3 := headerSet_inv i2.2.2.1 e3
    have i4 := headerSet_inv i3.2.2.1 e4
    have i5 := headerSet_inv i4.2.2.1 e5
    have i6 := headerSet_inv i5.2.2.1 e6
    have i7 := (identSet_inv e7).1
    constructor
    · rw [get_of_fields i7, i6.2.2.2.1, if_neg (by decide), i5.2.2.2.1, if_neg (by decide), i4.2.2.2.1, if_neg (by decide), i3.2.2.2.1,
        if_pos (strcasecmp_refl _)]
    · rw [get_of_fields i7, i6.2.2.2.1, if_neg (by decide), i5.2.2.2.1, if_neg (by decide), i4.2.2.2.1, if_neg (by decide), i3.2.2.2.1,
        if_neg (by decide), i2.2.2.2.1, if_neg (by decide), i1.2.2.2.1, if_neg (by decide)]
      rfl
  refine ⟨⟨x.hdr.id, F_WARCINFO, x.entry.silo, x.entry.off, none⟩, ?_, h2.symm, ?_⟩
  · unfold kindOf headerGetNumber Reindex.typeFlag
    rw [hg.1, hg.2]
    rfl
  · rintro k rfl
    exact ⟨h3, rfl⟩

/-- A record with the header of segment `n` becomes an element of the list. -/
theorem kind_segment {env : Env} (he : EnvOk env) {fid : Bytes} (hfid : ∀ c ∈ fid, isHex c = true) {n : Nat} (hn : 1 ≤ n) (hn2 : n < 2 ^ 63) {x : Item} {last : Bool}
    (ht : Typed x.hdr) (h1 : headerGet x.hdr b!"WARC-Segment-Number" = some (dec n)) (h2 : n ≠ 1 → HasOrigin env.pfx x.hdr fid)
    (h3 : (headerGet x.hdr b!"WARC-Segment-Total-Length").isSome = last)
    (hflags : x.entry.flags = Wsilo.typeFlag x.hdr ||| F_SEGMENTED ||| (if n = 1 then F_FIRSTSEG else 0) ||| (if last then F_LASTSEG else 0)) :
    kindOf x = some (.inr (segOf fid n last x)) := by
  have hpar : parentOf x.hdr n = .ok (if n = 1 then x.hdr.id else fid ++ b!">") := by
    unfold parentOf
    by_cases e : n = 1
    · rw [if_neg (by omega), if_pos e]
    · rw [if_pos (by omega), if_neg e]
      have := h2 e
      unfold HasOrigin at this
      rw [this]
      obtain ⟨p, hp⟩ := he.slash
      have : b!"<" ++ env.pfx ++ fid ++ b!">" = (b!"<" ++ p) ++ [47] ++ (fid ++ b!">") := by
        rw [hp]; simp only [List.append_assoc]
      simp only [this, afterSlash_last (hex_not_slash hfid)]
  unfold kindOf
  rw [typeFlag_typed ht, number_dec h1 (by omega)]
  simp only
  rw [if_neg (by omega)]
  have hnew : newSeg x.hdr (Wsilo.typeFlag x.hdr) x.entry.off ((n : Int).toNat) x.entry.silo = .ok (segOf fid n last x) := by
    unfold newSeg
    rw [Int.toNat_natCast, hpar]
    simp only [Res.ok_bind, Res.pure_eq, h3, segOf, hflags]
    have : (if n > 1 then 0 else Reindex.F_FIRSTSEG) = if n = 1 then F_FIRSTSEG else 0 := by
      by_cases e : n = 1
      · rw [if_neg (by omega), if_pos e]; rfl
      · rw [if_pos (by omega), if_neg e]
    rw [this]
    rfl
  rw [hnew]

theorem kind_seg {env : Env} (he : EnvOk env) {fid : Bytes} (hfid : ∀ c ∈ fid, isHex c = true) {n : Nat} (hn : 1 ≤ n) (hn2 : n < 2 ^ 63) {x : Item} {l : List Item}
    (ht : Typed x.hdr) (h : SegHdrs env.pfx fid n (x :: l)) : kindOf x = some (.inr (segOf fid n l.isEmpty x)) := by
  obtain ⟨h1, h2, h3, h4, -⟩ := h
  exact kind_segment he hfid hn hn2 ht h1 (fun h => (h2 h).1) h3 (congrArg Entry.flags h4)

theorem segHdrs_typed {pfx fid : Bytes} {n : Nat} (hn : n ≠ 1) {x : Item} {l : List Item} (h : SegHdrs pfx fid n (x :: l)) : Typed x.hdr :=
  ⟨_, (h.2.1 hn).2, by decide⟩

/-- All segments of an object become elements of the list. -/
theorem kind_segs {env : Env} (he : EnvOk env) {fid : Bytes} (hfid : ∀ c ∈ fid, isHex c = true) (l : List Item) : ∀ {n : Nat}, 1 ≤ n → n + l.length < 2 ^ 63 →
    (n = 1 → ∀ x, l.head? = some x → Typed x.hdr) → SegHdrs env.pfx fid n l → segsL l = segsOf fid n l ∧ callsL l = [] ∧ ∀ x ∈ l, kindOf x ≠ none := by
  induction l with
  | nil => intro n _ _ _ _; exact ⟨rfl, rfl, fun x hx => (by cases hx)⟩
  | cons x l ih =>
    intro n h1 h2 h3 h4
    rw [List.length_cons] at h2
    have ht : Typed x.hdr := by
      by_cases e : n = 1
      · exact h3 e x rfl
      · exact segHdrs_typed e h4
    have hk := kind_seg he hfid h1 (by omega) ht h4
    obtain ⟨i1, i2, i3⟩ := ih (n := n + 1) (by omega) (by omega) (fun h => by omega) h4.2.2.2.2.2
    refine ⟨?_, ?_, ?_⟩
    · simp only [segsL, List.filterMap_cons, hk]
      unfold segsL at i1
      simp only [Option.bind_some, Sum.getRight?_inr, i1, segsOf]
    · simp only [callsL, List.filterMap_cons, hk]
      exact i2
    · intro y hy
      rcases List.mem_cons.1 hy with rfl | hy
      · rw [hk]; simp
      · exact i3 y hy

theorem segsOf_ne {fid : Bytes} {n : Nat} {x : Item} {l : List Item} : segsOf fid n (x :: l) = segOf fid n l.isEmpty x :: segsOf fid (n + 1) l := rfl

theorem segsOf_chain {k : Nat} {fid : Bytes} (hl : fid.length = k) (l : List Item) : ∀ {n : Nat} {x : Item}, (n = 1 → x.hdr.id = fid) →
    1 ≤ n → SegChain k fid n (segsOf fid n (x :: l)) := by
  have par : ∀ {n : Nat} {x : Item} {b : Bool}, (n = 1 → x.hdr.id = fid) → (segOf fid n b x).parent.take k = fid := by
    intro n x b h
    unfold segOf
    simp only
    split
    · rename_i e
      rw [h e, List.take_of_length_le (by omega)]
    · rw [List.take_left' hl]
  induction l with
  | nil =>
    intro n x h h1
    exact ⟨rfl, par h, rfl, rfl⟩
  | cons y l ih =>
    intro n x h h1
    exact ⟨rfl, par h, rfl, rfl, ih (fun e => by omega) (by omega)⟩

theorem links_entries {pfx fid : Bytes} (l : List Item) : ∀ {n : Nat} {x : Item}, SegHdrs pfx fid n (x :: l) →
    (links (segsOf fid n (x :: l))).map (fun c => (toIns c).entry) = (x :: l).map (·.entry) := by
  induction l with
  | nil =>
    intro n x h
    obtain ⟨-, -, -, h4, -⟩ := h
    simp only [segsOf, links, List.map_cons, List.map_nil, List.cons.injEq, and_true]
    have hf := congrArg Entry.flags h4
    refine Eq.trans ?_ h4.symm
    simp only [toIns, segOf]
    rw [hf]
    rfl
  | cons y l ih =>
    intro n x h
    obtain ⟨-, -, -, h4, -, h5⟩ := h
    have := ih h5
    simp only [segsOf, links, List.map_cons, List.cons.injEq] at this ⊢
    refine ⟨?_, this⟩
    have hf := congrArg Entry.flags h4
    refine Eq.trans ?_ h4.symm
    simp only [toIns, segOf]
    rw [hf]
    rfl

theorem links_hex {pfx fid : Bytes} (l : List Item) : ∀ {n : Nat} {x : Item}, SegHdrs pfx fid n (x :: l) →
    ∀ c ∈ links (segsOf fid n (x :: l)), (∀ a ∈ c.id, isHex a = true) ∧ ∀ k, c.cont = some k → ∀ a ∈ k, isHex a = true := by
  induction l with
  | nil =>
    intro n x h c hc
    obtain ⟨-, -, -, -, h5, -⟩ := h
    simp only [segsOf, links, List.mem_singleton] at hc
    subst hc
    exact ⟨h5, fun k hk => (by cases hk)⟩
  | cons y l ih =>
    intro n x h c hc
    obtain ⟨-, -, -, -, h5, h6⟩ := h
    simp only [segsOf, links, List.mem_cons] at hc
    rcases hc with rfl | hc
    · refine ⟨h5, fun k hk => ?_⟩
      cases hk
      exact h6.2.2.2.2.1
    · exact ih h6 c (by simpa only [segsOf] using hc)

/-! ### All silos -/

theorem perm_map_lift {α β : Type} {f : α → β} {l m : List β} (h : l.Perm m) : ∀ A : List α, m = A.map f → ∃ A' : List α, A'.Perm A ∧ A'.map f = l := by
  induction h with
  | nil =>
    intro A hA
    exact ⟨A, .refl _, hA.symm⟩
  | cons x _ ih =>
    intro A hA
    cases A with
    | nil => cases hA
    | cons a A =>
      simp only [List.map_cons, List.cons.injEq] at hA
      obtain ⟨A', p, q⟩ := ih A hA.2
      exact ⟨a :: A', p.cons _, by rw [List.map_cons, q, hA.1]⟩
  | swap x y l =>
    intro A hA
    cases A with
    | nil => cases hA
    | cons a A =>
      cases A with
      | nil => cases hA
      | cons b A =>
        simp only [List.map_cons, List.cons.injEq] at hA
        obtain ⟨rfl, rfl, rfl⟩ := hA
        exact ⟨b :: a :: A, List.Perm.swap _ _ _, rfl⟩
  | trans _ _ i1 i2 =>
    intro A hA
    obtain ⟨A1, p1, q1⟩ := i2 A hA
    obtain ⟨A2, p2, q2⟩ := i1 A1 q1.symm
    exact ⟨A2, p2.trans p1, q2⟩

theorem siloBytes_length (l : List Rec) : l.length ≤ (siloBytes l).length := by
  induction l with
  | nil => simp
  | cons r l ih =>
    have : siloBytes (r :: l) = r.bytes ++ siloBytes l := by simp [siloBytes]
    rw [this, List.length_append, List.length_cons]
    have : 24 ≤ r.bytes.length := by
      unfold Rec.bytes
      rw [List.length_append]
      have : separator.length = 24 := by decide
      omega
    omega

/-- An act as an operation on the index. -/
def toOp (sort : Nat) : _root_.Verif.Reindex.Act → IdxOp
  | .insert c => .insert (toIns c)
  | .resort => .housekeep sort

theorem acts_runOps (sort : Nat) (as : List _root_.Verif.Reindex.Act) : ∀ d, _root_.Verif.Reindex.acts sort as d = runOps d (as.map (toOp sort)) := by
  induction as with
  | nil => intro d; rfl
  | cons a as ih =>
    intro d
    cases a with
    | insert c =>
      simp only [_root_.Verif.Reindex.acts, List.map_cons, toOp, runOps, toIns]
      cases idxInsert d c.id c.flags c.silo c.off c.cont with
      | ok d1 => simp only [Res.ok_bind]; exact ih d1
      | fail => rfl
      | ub => rfl
    | resort =>
      simp only [_root_.Verif.Reindex.acts, List.map_cons, toOp, runOps]
      cases idxResort sort d with
      | ok d1 => simp only [Res.ok_bind]; exact ih d1
      | fail => rfl
      | ub => rfl

/-- The operations on the index that reindexing the silos `ns` amounts to. -/
theorem reindexSilos_acts {ps : Nat} {pfx : Bytes} {k sort fuel : Nat} (hsort : sort % 32 = 0 ∧ 0 < sort) {silos : Nat → Option Silo} {Y : Nat → List Item}
    (ns : List Nat) : ∀ {segs S : List Reindex.Seg} {C : List Call},
    (∀ n ∈ ns, ∃ f, silos n = some f ∧ f.data = siloBytes ((Y n).map (·.record)) ∧ (Y n).map (·.entry.off) = offsets 0 ((Y n).map (·.record)) ∧
      f.data.length < fuel ∧ ∀ x ∈ Y n, x.entry.silo = n ∧ x.record.Complete pfx x.hdr ∧ x.record.Fits ps) →
    proc k (ns.flatMap Y) segs = .ok (C, S) →
    ∃ ops, inserts ops = C.map toIns ∧ (∀ o ∈ ops, (∃ c ∈ C, o = .insert (toIns c)) ∨ o = .housekeep sort) ∧
      (∀ d d', runOps d ops = .ok d' → reindexSilos ps pfx k sort fuel silos ns d segs = .ok (d', S)) ∧
      ∃ as, _root_.Verif.Reindex.silosActs ps pfx k fuel silos ns segs = .ok (as, S) ∧ ops = as.map (toOp sort) := by
  induction ns with
  | nil =>
    intro segs S C _ h
    simp only [List.flatMap_nil, proc, Res.ok.injEq, Prod.mk.injEq] at h
    obtain ⟨rfl, rfl⟩ := h
    refine ⟨[], rfl, fun o ho => (by cases ho), fun d d' h => ?_, [], rfl, rfl⟩
    cases h
    rfl
  | cons n ns ih =>
    intro segs S C hY h
    rw [List.flatMap_cons] at h
    obtain ⟨C1, S1, C2, p1, p2, rfl⟩ := proc_append k _ _ _ _ _ h
    obtain ⟨f, f1, f2, f3, f4, f5⟩ := hY n (by simp)
    obtain ⟨ops, o1, o2, o3, as, o4, o5⟩ := ih (fun m hm => hY m (by simp [hm])) p2
    have hlen := siloBytes_length ((Y n).map (·.record))
    rw [← f2, List.length_map] at hlen
    have hscan : Rsilo.scanHeaders ps pfx fuel (Rsilo.rsOpen f.data 0) =
        .ok (((Y n).map (·.entry.off)).zip ((Y n).map fun x => (x.hdr, (x.record.bgz.length : Int)))) := by
      have := C23_enumerate_headers ps pfx ((Y n).map fun x => (x.record, x.hdr)) (by
        intro z hz
        obtain ⟨x, hx, rfl⟩ := List.mem_map.1 hz
        exact (f5 x hx).2) fuel (by rw [List.length_map]; omega)
      simp only [List.map_map, Function.comp_def] at this
      rw [f2, this, f3]
    refine ⟨C1.map (fun c => .insert (toIns c)) ++ .housekeep sort :: ops, ?_, ?_, ?_, C1.map _root_.Verif.Reindex.Act.insert ++ .resort :: as, ?_, ?_⟩
    · rw [inserts_append, inserts_calls, List.map_append]
      simp only [inserts, o1]
    · intro o ho
      rcases List.mem_append.1 ho with ho | ho
      · obtain ⟨c, hc, rfl⟩ := List.mem_map.1 ho
        exact .inl ⟨c, List.mem_append_left _ hc, rfl⟩
      · rcases List.mem_cons.1 ho with rfl | ho
        · exact .inr rfl
        · rcases o2 o ho with ⟨c, hc, e⟩ | e
          · exact .inl ⟨c, List.mem_append_right _ hc, e⟩
          · exact .inr e
    · intro d d' hr
      rw [runOps_append] at hr
      simp only [Res.bind_eq_ok] at hr
      obtain ⟨d1, r1, r2⟩ := hr
      simp only [runOps, Res.bind_eq_ok] at r2
      obtain ⟨d2, r2, r3⟩ := r2
      rw [reindexSilos, f1]
      simp only [reindexSilo, hscan, Res.ok_bind, records_proc _ (fun x hx => (f5 x hx).1), p1, insertCalls_runOps, r1, r2, Res.pure_eq]
      exact o3 _ _ r3
    · rw [_root_.Verif.Reindex.silosActs, f1]
      simp only [_root_.Verif.Reindex.siloActs, hscan, Res.ok_bind, records_proc _ (fun x hx => (f5 x hx).1), p1, o4, Res.pure_eq, List.append_assoc,
        List.singleton_append]
    · rw [o5, List.map_append, List.map_map, List.map_cons]
      rfl

theorem reindexSilos_ops {ps : Nat} {pfx : Bytes} {k sort fuel : Nat} (hsort : sort % 32 = 0 ∧ 0 < sort) {silos : Nat → Option Silo} {Y : Nat → List Item}
    (ns : List Nat) : ∀ {segs S : List Reindex.Seg} {C : List Call},
    (∀ n ∈ ns, ∃ f, silos n = some f ∧ f.data = siloBytes ((Y n).map (·.record)) ∧ (Y n).map (·.entry.off) = offsets 0 ((Y n).map (·.record)) ∧
      f.data.length < fuel ∧ ∀ x ∈ Y n, x.entry.silo = n ∧ x.record.Complete pfx x.hdr ∧ x.record.Fits ps) →
    proc k (ns.flatMap Y) segs = .ok (C, S) →
    ∃ ops, inserts ops = C.map toIns ∧ (∀ o ∈ ops, (∃ c ∈ C, o = .insert (toIns c)) ∨ o = .housekeep sort) ∧
      ∀ d d', runOps d ops = .ok d' → reindexSilos ps pfx k sort fuel silos ns d segs = .ok (d', S) := by
  intro segs S C hY h
  obtain ⟨ops, h1, h2, h3, -⟩ := reindexSilos_acts hsort ns hY h
  exact ⟨ops, h1, h2, h3⟩

end Verif.Props
