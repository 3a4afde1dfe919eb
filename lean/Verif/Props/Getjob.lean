/-
Properties C33, C34, C36: getting objects from an archive.
-/
import Verif.Spec.Archive
import Verif.Model.Getjob
import Verif.Props.Rsilo
import Verif.Props.Gzip
import Verif.Props.Ident
import Verif.Props.Index
import Verif.Proofs.Stored

namespace Verif.Props
open Verif Header Index Rsilo Gzip Wsilo Getjob Spec Inflate

theorem testBit_flag (fl b : Nat) : fl.testBit b = flagBit b fl := by
  rw [flagBit, Nat.testBit_eq_decide_div_mod_eq]
  by_cases h : fl / 2 ^ b % 2 = 1 <;> simp [h]

/-- The reader's view of an item. -/
def gseg (data : Bytes) (x : Item) (segno : Nat) : GSeg :=
  { rs := atBody data x.entry.off x.record, hdr := x.hdr, flag := x.entry.flags, cont := x.entry.cont, segno := segno }

theorem openRec_at {ps : Nat} {pfx : Bytes} {w : World} {x : Item} (hx : x.At ps pfx w.silos) :
    ∃ f pre post, w.silos x.entry.silo = some f ∧ f.data = pre ++ x.record.bytes ++ post ∧ pre.length = x.entry.off ∧
      openRec ps pfx w x.entry.silo x.entry.off = .ok (x.hdr, atBody f.data x.entry.off x.record) := by
  obtain ⟨⟨f, pre, post, h1, h2, h3⟩, h4, h5⟩ := hx
  refine ⟨f, pre, post, h1, h2, h3, ?_⟩
  unfold openRec
  rw [h1]
  simp only
  have := readHeader_rec (post := post) (pre := pre) h4 h5 0
  rw [← h2, h3] at this
  rw [show rsOpen f.data x.entry.off = { file := f.data, pos := x.entry.off, bodylen := 0, whr := .head } from rfl, this]
  rfl

/-- Delivery to the callback when all entries but one are skipped. -/
theorem deliver_take {ps : Nat} {pfx : Bytes} {idSize : Nat} {w : World} {gj : GJ} {t : Entry} {s : GSeg}
    (es : List Entry) (ht : t ∈ es) (hv : verdict ps pfx idSize w gj t = .ok (.take s))
    (ho : ∀ e ∈ es, e ≠ t → verdict ps pfx idSize w gj e = .ok .skip) :
    Spec.deliver (getjobIter ps pfx idSize w) es (.ok gj) = (.ok { gj with segs := gj.segs ++ [s] }, 1) := by
  induction es with
  | nil => cases ht
  | cons e es ih =>
    by_cases he : e = t
    · subst he
      simp [Spec.deliver, getjobIter, hv]
    · have hs := ho e (by simp) he
      simp only [Spec.deliver, getjobIter, hs, if_true]
      exact ih (by rcases List.mem_cons.1 ht with h | h; exact absurd h.symm he; exact h) (fun x hx => ho x (by simp [hx]))

theorem deliver_skip {ps : Nat} {pfx : Bytes} {idSize : Nat} {w : World} {gj : GJ}
    (es : List Entry) (ho : ∀ e ∈ es, verdict ps pfx idSize w gj e = .ok .skip) :
    Spec.deliver (getjobIter ps pfx idSize w) es (.ok gj) = (.ok gj, 0) := by
  induction es with
  | nil => rfl
  | cons e es ih =>
    have hs := ho e (by simp)
    simp only [Spec.deliver, getjobIter, hs, if_true]
    exact ih (fun x hx => ho x (by simp [hx]))

theorem deliver_error {ps : Nat} {pfx : Bytes} {idSize : Nat} {w : World} {gj : GJ} {er : GErr}
    (es : List Entry) (he : ∃ e ∈ es, verdict ps pfx idSize w gj e ≠ .ok .skip)
    (ho : ∀ e ∈ es, verdict ps pfx idSize w gj e = .ok .skip ∨ verdict ps pfx idSize w gj e = .ok (.error er)) :
    Spec.deliver (getjobIter ps pfx idSize w) es (.ok gj) = (.ok { gj with err := er }, -1) := by
  induction es with
  | nil => obtain ⟨e, h, -⟩ := he; cases h
  | cons e es ih =>
    rcases ho e (by simp) with hs | hs
    · simp only [Spec.deliver, getjobIter, hs, if_true]
      refine ih ?_ (fun x hx => ho x (by simp [hx]))
      obtain ⟨e', h1, h2⟩ := he
      rcases List.mem_cons.1 h1 with rfl | h1
      · exact absurd hs h2
      · exact ⟨e', h1, h2⟩
    · simp [Spec.deliver, getjobIter, hs]

theorem sameId_iff {a b : Bytes} : strcasecmp a b = .eq ↔ SameId a b := strcasecmp_eq

/-! ### The verdicts -/

theorem verdict_first {ps : Nat} {pfx : Bytes} {idSize : Nat} {w : World} {id : Bytes} {er : GErr} {x : Item} (hx : x.At ps pfx w.silos) :
    ∃ f pre post, w.silos x.entry.silo = some f ∧ f.data = pre ++ x.record.bytes ++ post ∧ pre.length = x.entry.off ∧
    verdict ps pfx idSize w { id := id, err := er, segs := [] } x.entry =
      .ok (if ¬ SameId x.hdr.id id then .skip
        else if FlWarcinfo x.entry.flags then .error .isWarcinfo
        else if FlSegmented x.entry.flags ∧ FlFirst x.entry.flags = false then .error .isContinuation
        else .take (gseg f.data x 1)) := by
  obtain ⟨f, pre, post, h1, h2, h3, h4⟩ := openRec_at hx
  refine ⟨f, pre, post, h1, h2, h3, ?_⟩
  unfold verdict
  rw [h4]
  have e1 : isWarcinfo x.entry.flags = flagBit 1 x.entry.flags := testBit_flag _ _
  have e2 : isSegmented x.entry.flags = flagBit 4 x.entry.flags := testBit_flag _ _
  have e3 : isFirstseg x.entry.flags = flagBit 5 x.entry.flags := testBit_flag _ _
  simp only [Res.ok_bind, List.getLast?_nil, Res.pure_eq, firstVerdict, FlWarcinfo, FlSegmented, FlFirst, gseg, e1, e2, e3]
  by_cases hs : SameId x.hdr.id id
  · have hc := sameId_iff.2 hs
    by_cases hw : flagBit 1 x.entry.flags = true
    · simp [hs, hc, hw]
    · by_cases h4 : flagBit 4 x.entry.flags = true ∧ flagBit 5 x.entry.flags = false
      · simp [hs, hc, hw, h4]
      · simp only [hs, hc, hw, h4, if_false, not_true_eq_false, and_true, Bool.false_eq_true, ne_eq]
  · have hc := mt sameId_iff.1 hs
    simp [hs, hc]

theorem originIs_of {pfx : Bytes} {idSize : Nat} {id o : Bytes} {h : Hdr} (ho : HasOrigin pfx h o) (hl : o.length = idSize)
    (hi : id.length = idSize) : originIs pfx idSize id h = .ok (decide (SameId o id)) := by
  unfold originIs
  rw [ho]
  have he : (b!"<" ++ pfx ++ o ++ b!">") = 60 :: (pfx ++ (o ++ [62])) := by simp
  rw [he]
  simp only [expect, if_true, Res.ok_bind, List.take_left, List.drop_left, decide_true, Res.check_true]
  rw [decide_eq_true (by simp; omega), Res.access_true, Res.ok_bind]
  have hd : (o ++ [62]).drop idSize = ([62] : Bytes) := by rw [← hl, List.drop_left]
  rw [hd]
  simp only [decide_true, Res.check_true, Res.ok_bind, Res.pure_eq]
  congr 1
  unfold strncasecmpEq SameId
  rw [← hl, List.take_left, hl, ← hi, List.take_length]
  rw [Bool.eq_iff_iff, beq_iff_eq]
  exact decide_eq_true_iff.symm

theorem verdict_next {ps : Nat} {pfx : Bytes} {idSize : Nat} {w : World} {id o : Bytes} {er : GErr} {segs : List GSeg} {last : GSeg}
    {x : Item} (hx : x.At ps pfx w.silos) (hl : segs.getLast? = some last) (hw : FlWarcinfo x.entry.flags = true → ¬ SameId x.hdr.id id)
    (ho : HasOrigin pfx x.hdr o) (hol : o.length = idSize) (hi : id.length = idSize) :
    ∃ f pre post, w.silos x.entry.silo = some f ∧ f.data = pre ++ x.record.bytes ++ post ∧ pre.length = x.entry.off ∧
    (¬ SameId o id → verdict ps pfx idSize w { id := id, err := er, segs := segs } x.entry = .ok .skip) ∧
    (SameId o id → ∀ n : Nat, headerGetNumber x.hdr b!"WARC-Segment-Number" = .ok (n : Int) → n < 2 ^ 32 → last.segno + 1 < 2 ^ 32 →
      verdict ps pfx idSize w { id := id, err := er, segs := segs } x.entry =
        if n = last.segno + 1 then .ok (.take (gseg f.data x n)) else .ok (.error .outOfOrder)) := by
  obtain ⟨f, pre, post, h1, h2, h3, h4⟩ := openRec_at hx
  have hno : ¬ (isWarcinfo x.entry.flags = true ∧ strcasecmp x.hdr.id id = .eq) := by
    rintro ⟨a, b⟩
    exact hw (by rw [FlWarcinfo, ← testBit_flag]; exact a) (sameId_iff.1 b)
  refine ⟨f, pre, post, h1, h2, h3, ?_, ?_⟩
  · intro hs
    unfold verdict
    rw [h4]
    simp only [Res.ok_bind, hl, if_neg hno]
    unfold nextVerdict
    rw [originIs_of ho hol hi, decide_eq_false hs]
    simp
  · intro hs n hn hn2 hl2
    unfold verdict
    rw [h4]
    simp only [Res.ok_bind, hl, if_neg hno]
    unfold nextVerdict
    rw [originIs_of ho hol hi, decide_eq_true hs]
    simp only [Res.ok_bind, Bool.true_eq_false, if_false, hn]
    rw [decide_eq_true (by omega), Res.check_true, Res.ok_bind, Int.toNat_natCast, Nat.mod_eq_of_lt hn2, Nat.mod_eq_of_lt hl2]
    by_cases h : n = last.segno + 1
    · simp [h, gseg]
    · simp [h]

/-! ### The search for the segments -/

/-- An item and what the reader has of it. -/
def GotItem (w : World) (x : Item) (n : Nat) (g : GSeg) : Prop :=
  ∃ f pre post, w.silos x.entry.silo = some f ∧ f.data = pre ++ x.record.bytes ++ post ∧ pre.length = x.entry.off ∧ g = gseg f.data x n

/-- The items have been found, numbered from `n` on. -/
inductive GotItems (w : World) : Nat → List Item → List GSeg → Prop where
  | nil {n} : GotItems w n [] []
  | cons {n x g xs gs} : GotItem w x n g → GotItems w (n + 1) xs gs → GotItems w n (x :: xs) (g :: gs)

/-- The rest of an object: after segment number `n`, `x`, come the segments `ys`; the last one, and only the
last one, is marked as such, and each is found under the previous one's continuation field. -/
def Linked (pfx : Bytes) (A : List Item) (id : Bytes) : Nat → Item → List Item → Prop
  | _, x, [] => FlLast x.entry.flags = true
  | n, x, y :: ys => FlLast x.entry.flags = false ∧ Matches x.entry.cont y.entry = true ∧ y ∈ A ∧
      FlSegmented y.entry.flags = true ∧ FlWarcinfo y.entry.flags = false ∧ n + 1 < 2 ^ 32 ∧
      headerGetNumber y.hdr b!"WARC-Segment-Number" = .ok ((n + 1 : Nat) : Int) ∧
      (∃ o, HasOrigin pfx y.hdr o ∧ SameId o id) ∧ Linked pfx A id (n + 1) y ys

/-- The continuation field of `x` leads to `y` and to no other segment of the object, and all records that
share it are continuation segments. -/
def OnlyNext (pfx : Bytes) (idSize : Nat) (A : List Item) (id : Bytes) (x y : Item) : Prop :=
  ∀ z ∈ A, Matches x.entry.cont z.entry = true →
    (FlWarcinfo z.entry.flags = true → ¬ SameId z.hdr.id id) ∧
    ∃ o, HasOrigin pfx z.hdr o ∧ o.length = idSize ∧ (SameId o id → z.entry = y.entry)

/-- `OnlyNext` along the chain. -/
def OnlyChain (pfx : Bytes) (idSize : Nat) (A : List Item) (id : Bytes) : Item → List Item → Prop
  | _, [] => True
  | x, y :: ys => OnlyNext pfx idSize A id x y ∧ OnlyChain pfx idSize A id y ys

/-- Looking up the continuation fields works. -/
def FindsChain (d : Dir) (A : List Item) : Item → List Item → Prop
  | _, [] => True
  | x, y :: ys => Finds d A x.entry.cont ∧ FindsChain d A y ys

theorem getLoop_chain {ps : Nat} {pfx : Bytes} {idSize : Nat} {w : World} {A : List Item} {id : Bytes} (hid : id.length = idSize)
    (hA : ∀ x ∈ A, x.At ps pfx w.silos) (ys : List Item) : ∀ (fuel n : Nat) (x : Item) (g : GSeg) (segs : List GSeg),
    ys.length ≤ fuel → GotItem w x n g → Linked pfx A id n x ys → OnlyChain pfx idSize A id x ys → FindsChain w.dir A x ys → ys ≠ [] →
    ∃ gs, GotItems w (n + 1) ys gs ∧
      getLoop ps pfx idSize w fuel g.cont { id := id, err := .notFound, segs := segs ++ [g] } =
        .ok (.job { id := id, err := .notFound, segs := segs ++ [g] ++ gs }) := by
  induction ys with
  | nil => intro _ _ _ _ _ _ _ _ _ _ h; exact absurd rfl h
  | cons y ys ih =>
    intro fuel n x g segs hf hg hl ho hfc _
    obtain ⟨fuel, rfl⟩ : ∃ k, fuel = k + 1 := ⟨fuel - 1, by simp at hf; omega⟩
    obtain ⟨fx, prex, postx, x1, x2, x3, rfl⟩ := hg
    obtain ⟨l1, l2, l3, l4, l5, l6, l7, ⟨oy, l8, l9⟩, l10⟩ := hl
    obtain ⟨o1, o2⟩ := ho
    obtain ⟨⟨es, hes, hiter⟩, hfc⟩ := hfc
    obtain ⟨-, oy', hoy, hoyl, -⟩ := o1 y l3 l2
    have hoo : oy = oy' := by
      unfold HasOrigin at l8 hoy
      rw [l8] at hoy
      have := Option.some.inj hoy
      simpa using this
    subst hoo
    obtain ⟨fy, prey, posty, y1, y2, y3, -, y5⟩ := verdict_next (er := .notFound) (idSize := idSize) (id := id)
      (segs := segs ++ [gseg fx.data x n]) (last := gseg fx.data x n) (hA y l3) (by simp) (by rw [l5]; intro h; cases h) l8 hoyl hid
    have hn32 : n + 1 < 2 ^ 32 := l6
    have hv := y5 l9 (n + 1) l7 hn32 (by simpa [gseg] using hn32)
    rw [if_pos (by simp [gseg])] at hv
    have hmem : y.entry ∈ es := (hes _).2 ⟨l2, y, l3, rfl⟩
    have hskip : ∀ e ∈ es, e ≠ y.entry →
        verdict ps pfx idSize w { id := id, err := .notFound, segs := segs ++ [gseg fx.data x n] } e = .ok .skip := by
      intro e he hne
      obtain ⟨m1, z, m2, rfl⟩ := (hes e).1 he
      obtain ⟨q1, o, q2, q3, q4⟩ := o1 z m2 m1
      obtain ⟨_, _, _, -, -, -, z4, -⟩ := verdict_next (er := .notFound) (idSize := idSize) (id := id)
        (segs := segs ++ [gseg fx.data x n]) (last := gseg fx.data x n) (hA z m2) (by simp) q1 q2 q3 hid
      exact z4 (fun h => hne (q4 h))
    have hdel := deliver_take es hmem hv hskip
    obtain ⟨r, r1, r2, r3⟩ := hiter _ (getjobIter ps pfx idSize w) (.ok { id := id, err := .notFound, segs := segs ++ [gseg fx.data x n] })
    rw [hdel] at r2 r3
    have hpos : ¬ r.2 ≤ 0 := by have := r3.2 (by simp); omega
    have hgot : GotItem w y (n + 1) (gseg fy.data y (n + 1)) := ⟨fy, prey, posty, y1, y2, y3, rfl⟩
    have hstep : getLoop ps pfx idSize w (fuel + 1) (gseg fx.data x n).cont { id := id, err := .notFound, segs := segs ++ [gseg fx.data x n] } =
        if FlLast y.entry.flags then .ok (.job { id := id, err := .notFound, segs := segs ++ [gseg fx.data x n] ++ [gseg fy.data y (n + 1)] })
        else getLoop ps pfx idSize w fuel (gseg fy.data y (n + 1)).cont { id := id, err := .notFound, segs := segs ++ [gseg fx.data x n] ++ [gseg fy.data y (n + 1)] } := by
      rw [getLoop, show (gseg fx.data x n).cont = x.entry.cont from rfl, r1]
      simp only [Res.ok_bind, r2, if_neg hpos, List.getLast?_append, List.getLast?_singleton, Option.some_or]
      have e1 : isWarcinfo (gseg fy.data y (n + 1)).flag = false := (testBit_flag _ _).trans l5
      have e2 : isSegmented (gseg fy.data y (n + 1)).flag = true := (testBit_flag _ _).trans l4
      have e3 : isLastseg (gseg fy.data y (n + 1)).flag = FlLast y.entry.flags := testBit_flag _ _
      rw [e1, e2, e3]
      simp only [Bool.not_false, Res.check_true, Res.ok_bind, Bool.true_eq_false, if_false, Res.pure_eq]
    rw [hstep]
    cases ys with
    | nil =>
      have hlast : FlLast y.entry.flags = true := l10
      exact ⟨[gseg fy.data y (n + 1)], .cons hgot .nil, by rw [if_pos hlast]⟩
    | cons z zs =>
      have hlast : FlLast y.entry.flags = false := l10.1
      obtain ⟨gs, g1, g2⟩ := ih fuel (n + 1) y (gseg fy.data y (n + 1)) (segs ++ [gseg fx.data x n]) (by simp at hf ⊢; omega) hgot l10 o2 hfc
        (by simp)
      refine ⟨gseg fy.data y (n + 1) :: gs, .cons hgot g1, ?_⟩
      rw [hlast]
      simp only [Bool.false_eq_true, if_false]
      rw [g2]
      simp

/-- The items `x :: ys` of the archive `A` are the object with bare ID `id`: a single record that is not
segmented, or a chain of segments. -/
def IsObject (pfx : Bytes) (A : List Item) (id : Bytes) (x : Item) (ys : List Item) : Prop :=
  x ∈ A ∧ SameId x.hdr.id id ∧ Matches id x.entry = true ∧ FlWarcinfo x.entry.flags = false ∧
  (ys = [] ∧ FlSegmented x.entry.flags = false ∧ FlFirst x.entry.flags = false ∧ FlLast x.entry.flags = false ∧ x.entry.cont = b!"00000000" ∨
    ys ≠ [] ∧ FlSegmented x.entry.flags = true ∧ FlFirst x.entry.flags = true ∧ Linked pfx A id 1 x ys)

/-- No other record of the archive has the object's ID. -/
def OnlyFirst (A : List Item) (id : Bytes) (x : Item) : Prop :=
  ∀ y ∈ A, Matches id y.entry = true → SameId y.hdr.id id → y.entry = x.entry

theorem getjobNew_object {ps : Nat} {pfx : Bytes} {idSize : Nat} {w : World} {A : List Item} {id q : Bytes} {x : Item} {ys : List Item} {fuel : Nat}
    (hA : ∀ x ∈ A, x.At ps pfx w.silos) (hq : idxValidId pfx idSize q = .ok id)
    (hobj : IsObject pfx A id x ys) (hfirst : OnlyFirst A id x) (hchain : OnlyChain pfx idSize A id x ys)
    (hfind : Finds w.dir A id) (hfc : FindsChain w.dir A x ys) (hfuel : ys.length < fuel) :
    ∃ gs, GotItems w 1 (x :: ys) gs ∧ getjobNew ps pfx idSize fuel w q = .ok (.job { id := id, err := .notFound, segs := gs }) := by
  have hid : id.length = idSize := ((C11_valid_id pfx idSize q id).1 hq).2.2
  obtain ⟨h1, h2, h3, h4, h5⟩ := hobj
  obtain ⟨fuel, rfl⟩ : ∃ k, fuel = k + 1 := ⟨fuel - 1, by omega⟩
  obtain ⟨es, hes, hiter⟩ := hfind
  obtain ⟨fx, prex, postx, x1, x2, x3, x4⟩ := verdict_first (idSize := idSize) (id := id) (er := .notFound) (hA x h1)
  have hv : verdict ps pfx idSize w { id := id, err := .notFound, segs := [] } x.entry = .ok (.take (gseg fx.data x 1)) := by
    rw [x4]
    rw [if_neg (by simpa using h2), h4]
    rcases h5 with ⟨-, h5, -⟩ | ⟨-, -, h5, -⟩ <;> simp [h5]
  have hmem : x.entry ∈ es := (hes _).2 ⟨h3, x, h1, rfl⟩
  have hskip : ∀ e ∈ es, e ≠ x.entry → verdict ps pfx idSize w { id := id, err := .notFound, segs := [] } e = .ok .skip := by
    intro e he hne
    obtain ⟨m1, z, m2, rfl⟩ := (hes e).1 he
    obtain ⟨_, _, _, -, -, -, z4⟩ := verdict_first (idSize := idSize) (id := id) (er := .notFound) (hA z m2)
    rw [z4, if_pos (fun h => hne (hfirst z m2 m1 h))]
  have hdel := deliver_take es hmem hv hskip
  obtain ⟨r, r1, r2, r3⟩ := hiter _ (getjobIter ps pfx idSize w) (.ok { id := id, err := .notFound, segs := [] })
  rw [hdel] at r2 r3
  have hpos : ¬ r.2 ≤ 0 := by have := r3.2 (by simp); omega
  have hgot : GotItem w x 1 (gseg fx.data x 1) := ⟨fx, prex, postx, x1, x2, x3, rfl⟩
  have e1 : isWarcinfo (gseg fx.data x 1).flag = false := (testBit_flag _ _).trans h4
  have e2 : isSegmented (gseg fx.data x 1).flag = FlSegmented x.entry.flags := testBit_flag _ _
  have e3 : isLastseg (gseg fx.data x 1).flag = FlLast x.entry.flags := testBit_flag _ _
  have e4 : isFirstseg (gseg fx.data x 1).flag = FlFirst x.entry.flags := testBit_flag _ _
  rcases h5 with ⟨rfl, k1, k2, k3, k4⟩ | ⟨k0, k1, k2, k3⟩
  · refine ⟨[gseg fx.data x 1], .cons hgot .nil, ?_⟩
    unfold getjobNew
    rw [hq]
    simp only
    rw [getLoop, r1]
    simp only [Res.ok_bind, r2, if_neg hpos, List.nil_append, List.getLast?_singleton]
    rw [e1, e2, k1]
    simp only [Bool.not_false, Res.check_true, Res.ok_bind, if_true, plainOk]
    rw [e3, e4, k2, k3, show (gseg fx.data x 1).cont = b!"00000000" from k4]
    simp
  · have hlast : FlLast x.entry.flags = false := by
      cases ys with
      | nil => exact absurd rfl k0
      | cons y ys => exact k3.1
    obtain ⟨gs, g1, g2⟩ := getLoop_chain hid hA ys fuel 1 x (gseg fx.data x 1) [] (by omega) hgot k3 hchain hfc k0
    refine ⟨gseg fx.data x 1 :: gs, .cons hgot g1, ?_⟩
    unfold getjobNew
    rw [hq]
    simp only
    rw [getLoop, r1]
    simp only [Res.ok_bind, r2, if_neg hpos, List.nil_append, List.getLast?_singleton]
    rw [e1, e2, e3, k1, hlast]
    simp only [Bool.not_false, Res.check_true, Res.ok_bind, Bool.true_eq_false, Bool.false_eq_true, if_false]
    simpa using g2

/-! ### Reading the segments found -/

theorem gseg_file {w : World} {x : Item} {n : Nat} {g : GSeg} (h : GotItem w x n g) :
    ∃ pre post, g.rs = atBody (pre ++ x.record.bytes ++ post) pre.length x.record ∧ g.hdr = x.hdr ∧ g.flag = x.entry.flags ∧ g.segno = n := by
  obtain ⟨f, pre, post, h1, h2, h3, rfl⟩ := h
  exact ⟨pre, post, by rw [← h2, h3]; rfl, rfl, rfl, rfl⟩

theorem deliver_append {σ : Type} (f : ByteIter σ) (a b : List Bytes) (s : σ) :
    Rsilo.deliver f (a ++ b) s = (do
      let r ← Rsilo.deliver f a s
      if r.2 then Rsilo.deliver f b r.1 else pure r) := by
  induction a generalizing s with
  | nil => simp [Rsilo.deliver]
  | cons c a ih =>
    rw [List.cons_append, Rsilo.deliver, Rsilo.deliver]
    cases f s c with
    | fail => rfl
    | ub => rfl
    | ok r =>
      simp only [Res.ok_bind]
      by_cases h : r.2 = 0
      · simp only [h, ne_eq, not_true_eq_false, if_false]
        exact ih r.1
      · simp [h]

/-- C33: plain iteration hands the callback the contents of the items in order, in the pieces zlib makes,
until it is not content. -/
theorem iterPlain_items {σ : Type} {pfx : Bytes} {w : World} {n : Nat} {xs : List Item} {gs : List GSeg} (hg : GotItems w n xs gs)
    (hc : ∀ x ∈ xs, x.record.Complete pfx x.hdr) (cut : Bytes → List Bytes) (f : ByteIter σ) : ∀ s : σ,
    iterPlain cut f gs s = (do
      let r ← Rsilo.deliver f (xs.flatMap (fun x => cut x.record.data)) s
      pure r.1) := by
  induction hg with
  | nil => intro s; rfl
  | cons h1 h2 ih =>
    intro s
    obtain ⟨pre, post, e, -⟩ := gseg_file h1
    rename_i x g xs gs
    have hx := hc x (by simp)
    have hb := member_length hx.body
    rw [iterPlain, e, readChunk_rec hx, List.flatMap_cons, deliver_append]
    cases hd : Rsilo.deliver f (cut x.record.data) s with
    | fail => rfl
    | ub => rfl
    | ok r =>
      simp only [Res.ok_bind, Res.pure_eq]
      cases hr : r.2 with
      | true =>
        simp only [if_true]
        rw [if_neg (by omega), ih (fun x hx => hc x (by simp [hx]))]
        rfl
      | false => simp

theorem chunks_deliver {σ : Type} (f : σ → Bytes → σ × Int) (cs : List Bytes) : ∀ (s g : Stitch σ),
    stitchChunks f cs s = .ok g → g.retval = 0 → Rsilo.deliver (stitchIter f) cs s = .ok (g, true) := by
  induction cs with
  | nil => intro s g h _; simp only [stitchChunks, Res.pure_eq, Res.ok.injEq] at h; rw [h]; rfl
  | cons c cs ih =>
    intro s g h h0
    rw [stitchChunks, Res.bind_eq_ok] at h
    obtain ⟨g1, e1, e2⟩ := h
    rw [Rsilo.deliver, stitchIter, e1]
    simp only [Res.ok_bind, Res.pure_eq]
    by_cases h1 : g1.retval = 0
    · simp only [h1, ne_eq, not_true_eq_false, if_false] at e2 ⊢
      exact ih g1 g e2 h0
    · simp only [ne_eq, h1, not_false_eq_true, if_true, Res.pure_eq, Res.ok.injEq] at e2
      exact absurd (e2 ▸ h0) h1

theorem readGZ_rec {σ : Type} {ps : Nat} (hps : 0 < ps) {pfx pre post : Bytes} {r : Rec} {h : Hdr} (hc : r.Complete pfx h)
    (f : ByteIter σ) (s s' : σ) (hd : Rsilo.deliver f (pieces (32 * ps) (r.bgz.length + 1) r.bgz) s = .ok (s', true)) :
    ∃ rs, readGZChunk ps f (atBody (pre ++ r.bytes ++ post) pre.length r) s = .ok (s', rs, r.bgz.length % 2 ^ 32) := by
  have hb := member_length hc.body
  have hne : r.bgz ≠ [] := by intro h0; rw [h0] at hb; simp at hb
  have h1 := (gzLoop_pieces ps hps f (r.bgz.length + 1) (pre ++ r.bytes ++ post) (pre ++ r.hgz) r.bgz (separator ++ post)
    (by simp only [Rec.bytes, List.append_assoc]) hne (by omega) s 0).1 _ hd
  rw [Nat.zero_add, List.length_append] at h1
  refine ⟨atCrlf (pre ++ r.bytes ++ post) pre.length r 0, ?_⟩
  unfold readGZChunk
  rw [show (atBody (pre ++ r.bytes ++ post) pre.length r).whr = .body from rfl]
  simp only [decide_true, Res.check_true, Res.ok_bind]
  rw [show (atBody (pre ++ r.bytes ++ post) pre.length r).bodylen.toNat = r.bgz.length from rfl]
  unfold atBody
  rw [h1]
  rfl

theorem iterStitch_items {ps : Nat} (hps : 0 < ps) {pfx : Bytes} {w : World} {n : Nat} {xs : List Item} {gs : List GSeg} (hg : GotItems w n xs gs)
    (hc : ∀ x ∈ xs, x.record.Complete pfx x.hdr) (hl : ∀ x ∈ xs, x.record.bgz.length % 2 ^ 32 ≠ 0) {σ : Type} (f : σ → Bytes → σ × Int) :
    ∀ s g : Stitch σ, stitchSegs f (xs.map (fun x => pieces (32 * ps) (x.record.bgz.length + 1) x.record.bgz)) s = .ok g → g.retval = 0 →
    iterStitch ps f gs s = .ok g := by
  induction hg with
  | nil => intro s g h _; simpa [stitchSegs, iterStitch] using h
  | cons h1 h2 ih =>
    intro s g h h0
    obtain ⟨pre, post, e, -⟩ := gseg_file h1
    rename_i x g0 xs gs
    rw [List.map_cons, stitchSegs, Res.bind_eq_ok] at h
    obtain ⟨g1, e1, e2⟩ := h
    have hr : g1.retval = 0 := by
      by_cases hr : g1.retval = 0
      · exact hr
      · simp only [ne_eq, hr, not_false_eq_true, if_true, Res.pure_eq, Res.ok.injEq] at e2
        exact absurd (e2 ▸ h0) hr
    simp only [hr, ne_eq, not_true_eq_false, if_false] at e2
    obtain ⟨rs, e3⟩ := readGZ_rec hps (pre := pre) (post := post) (hc x (by simp)) (stitchIter f) s g1 (chunks_deliver f _ s g1 e1 hr)
    rw [iterStitch, e, e3]
    simp only [Res.ok_bind]
    rw [if_neg (hl x (by simp))]
    exact ih (fun x hx => hc x (by simp [hx])) (fun x hx => hl x (by simp [hx])) g1 g e2 h0

theorem gotItems_hdr {w : World} {n : Nat} {xs : List Item} {gs : List GSeg} (hg : GotItems w n xs gs) : gs.map (·.hdr) = xs.map (·.hdr) := by
  induction hg with
  | nil => rfl
  | cons h _ ih =>
    obtain ⟨_, _, _, e, _⟩ := gseg_file h
    simp [e, ih]

theorem deliver_collectFn (cs : List Bytes) (s : Bytes) :
    Rsilo.deliver (fun s d => .ok (collect s d)) cs s = .ok (s ++ cs.flatten, true) := deliver_collectIter cs s

/-! ### C33 -/

/-- An object of the archive can be looked up: it is the only one with its ID, no other records come in
between its segments, and the index works for the keys in question (which C03 establishes). -/
structure Gettable (ps : Nat) (pfx : Bytes) (idSize : Nat) (w : World) (A : List Item) (id : Bytes) (x : Item) (ys : List Item) : Prop where
  there : ∀ x ∈ A, x.At ps pfx w.silos
  object : IsObject pfx A id x ys
  first : OnlyFirst A id x
  chain : OnlyChain pfx idSize A id x ys
  find : Finds w.dir A id
  finds : FindsChain w.dir A x ys

theorem linked_mem {pfx : Bytes} {A : List Item} {id : Bytes} (ys : List Item) : ∀ (n : Nat) (x : Item), Linked pfx A id n x ys → ∀ y ∈ ys, y ∈ A := by
  induction ys with
  | nil => intro _ _ _ y hy; cases hy
  | cons z zs ih =>
    intro n x h y hy
    rcases List.mem_cons.1 hy with rfl | hy
    · exact h.2.2.1
    · exact ih _ _ h.2.2.2.2.2.2.2.2 y hy

theorem object_mem {pfx : Bytes} {A : List Item} {id : Bytes} {x : Item} {ys : List Item} (h : IsObject pfx A id x ys) : ∀ y ∈ x :: ys, y ∈ A := by
  intro y hy
  rcases List.mem_cons.1 hy with rfl | hy
  · exact h.1
  · rcases h.2.2.2.2 with ⟨rfl, -⟩ | ⟨-, -, -, h⟩
    · cases hy
    · exact linked_mem _ _ _ h y hy

/-- C33: getting an object, by its bare ID or its URI and in upper or lower case, finds exactly its segments
in order, whatever else is in the archive, and plain iteration delivers the contents of the segments, one
after the other, in the pieces zlib makes, to any callback. -/
theorem C33_get_partial {ps : Nat} {pfx : Bytes} {idSize : Nat} {w : World} {A : List Item} {id q : Bytes} {x : Item} {ys : List Item} {fuel : Nat}
    (hg : Gettable ps pfx idSize w A id x ys) (hq : idxValidId pfx idSize q = .ok id) (hfuel : ys.length < fuel) :
    ∃ gj, getjobNew ps pfx idSize fuel w q = .ok (.job gj) ∧ gj.segs.map (·.hdr) = (x :: ys).map (·.hdr) ∧
      (∀ cut : Bytes → List Bytes, (∀ b, (cut b).flatten = b) →
        getjobIterate ps cut gj collect [] false = .ok ((x :: ys).map (·.record.data)).flatten) ∧
      (∀ (σ : Type) (cut : Bytes → List Bytes) (f : σ → Bytes → σ × Int) (s : σ),
        getjobIterate ps cut gj f s false = (do
          let r ← Rsilo.deliver (fun s d => .ok (f s d)) ((x :: ys).flatMap (fun x => cut x.record.data)) s
          pure r.1)) := by
  obtain ⟨gs, g1, g2⟩ := getjobNew_object hg.there hq hg.object hg.first hg.chain hg.find hg.finds hfuel
  have hc : ∀ y ∈ x :: ys, y.record.Complete pfx y.hdr := fun y hy => (hg.there y (object_mem hg.object y hy)).2.1
  refine ⟨_, g2, gotItems_hdr g1, ?_, ?_⟩
  · intro cut hcut
    unfold getjobIterate
    rw [if_pos rfl]
    simp only
    rw [iterPlain_items g1 hc, deliver_collectFn]
    simp only [Res.ok_bind, Res.pure_eq, List.nil_append]
    congr 1
    induction x :: ys with
    | nil => rfl
    | cons y ys ih => rw [List.flatMap_cons, List.flatten_append, hcut, ih]; rfl
  · intro σ cut f s
    unfold getjobIterate
    rw [if_pos rfl]
    simp only
    rw [iterPlain_items g1 hc]

theorem pieces_cut {n fuel : Nat} {gz : Bytes} (hn : 24 ≤ n) (h24 : 24 ≤ gz.length) (hf : gz.length < fuel) : Cut gz (pieces n fuel gz) := by
  obtain ⟨fuel, rfl⟩ : ∃ k, fuel = k + 1 := ⟨fuel - 1, by omega⟩
  refine ⟨pieces_flatten n (by omega) _ _ (by omega), ?_⟩
  rw [pieces, if_neg (by intro h; rw [h] at h24; simp at h24)]
  exact ⟨_, _, rfl, by rw [List.length_take]; omega⟩

/-- C33, gzip: an object of one segment is delivered as stored; several segments, if they are archived
segments shorter than 4 GiB, are delivered as one gzip member with the concatenated contents. -/
theorem C33_get_gzip {ps : Nat} {pfx : Bytes} {idSize : Nat} {w : World} {A : List Item} {id q : Bytes} {x : Item} {ys : List Item} {fuel : Nat}
    (hg : Gettable ps pfx idSize w A id x ys) (hq : idxValidId pfx idSize q = .ok id) (hfuel : ys.length < fuel) (cut : Bytes → List Bytes) :
    ∃ gj, getjobNew ps pfx idSize fuel w q = .ok (.job gj) ∧
      (ys = [] → getjobIterate ps cut gj collect [] true = .ok x.record.bgz) ∧
      (ys ≠ [] → (∀ y ∈ x :: ys, Segment y.record.bgz y.record.data ∧ y.record.data.length < 2 ^ 32 ∧ y.record.bgz.length % 2 ^ 32 ≠ 0) →
        ∃ out, getjobIterate ps cut gj collect [] true = .ok out ∧ gunzip out = some ((x :: ys).map (·.record.data)).flatten) := by
  obtain ⟨gs, g1, g2⟩ := getjobNew_object hg.there hq hg.object hg.first hg.chain hg.find hg.finds hfuel
  have hc : ∀ y ∈ x :: ys, y.record.Complete pfx y.hdr := fun y hy => (hg.there y (object_mem hg.object y hy)).2.1
  have hps : 0 < ps := by
    have := (hg.there x hg.object.1).2.2.packed
    omega
  refine ⟨_, g2, ?_, ?_⟩
  · rintro rfl
    cases g1 with
    | cons h h2 =>
      cases h2
      rename_i g
      obtain ⟨pre, post, e, -⟩ := gseg_file h
      unfold getjobIterate
      rw [if_neg (by simp)]
      simp only
      obtain ⟨rs, e3⟩ := readGZ_rec hps (pre := pre) (post := post) (hc x (by simp)) (fun s d => .ok (collect s d)) [] x.record.bgz (by
        rw [deliver_collectFn, pieces_flatten _ (by omega) _ _ (by omega)]
        rfl)
      rw [e, e3]
      rfl
  · intro hy hs
    have hcut : ∀ y ∈ x :: ys, Cut y.record.bgz (pieces (32 * ps) (y.record.bgz.length + 1) y.record.bgz) := by
      intro y hy
      have := member_length (hc y hy).body
      exact pieces_cut (by omega) (by omega) (by omega)
    obtain ⟨out, o1, o2⟩ := C20_stitch_partial ((x :: ys).map (fun y => (y.record.bgz, y.record.data, pieces (32 * ps) (y.record.bgz.length + 1) y.record.bgz))) (by
      intro s hs'
      obtain ⟨y, hy, rfl⟩ := List.mem_map.1 hs'
      exact ⟨(hs y hy).1, (hs y hy).2.1, hcut y hy⟩)
    obtain ⟨g, n, body, ts, k1, k2, -⟩ := stitchSegs_done
      ((x :: ys).map (fun y => (y.record.bgz, y.record.data, pieces (32 * ps) (y.record.bgz.length + 1) y.record.bgz))) (stitchNew collect ([] : Bytes)) (by
      intro s hs'
      obtain ⟨y, hy, rfl⟩ := List.mem_map.1 hs'
      exact ⟨(hs y hy).1, hcut y hy⟩) rfl rfl rfl (by decide)
    rw [List.map_map] at k1 o1 o2
    refine ⟨out, ?_, by rw [o2]; rfl⟩
    have hit := iterStitch_items hps g1 hc (fun y hy => (hs y hy).2.2) collect _ g k1 k2
    have hall : stitchAll ((x :: ys).map (fun y => pieces (32 * ps) (y.record.bgz.length + 1) y.record.bgz)) = .ok (stitchFini collect g).1 := by
      show (stitchSegs collect _ (stitchNew collect []) >>= fun gs => pure (stitchFini collect gs).1) = _
      rw [show (x :: ys).map (fun y => pieces (32 * ps) (y.record.bgz.length + 1) y.record.bgz) = _ from rfl]
      exact (congrArg (· >>= fun gs => pure (stitchFini collect gs).1) k1).trans rfl
    have ho : (stitchFini collect g).1 = out := by
      have := hall.symm.trans o1
      exact Res.ok.inj this
    unfold getjobIterate
    rw [if_neg (by simp)]
    simp only
    cases g1 with
    | cons h h2 =>
      cases h2 with
      | nil => exact absurd rfl hy
      | cons h3 h4 =>
        simp only
        rw [hit]
        simp only [Res.ok_bind, Res.pure_eq, ho]

/-! ### The index of any history serves -/

/-- After any inserts and housekeeping runs, looking up a key for which the search of the sorted file is
safe finds what was inserted (C03). -/
theorem finds_history (ops : List IdxOp) (hv : ∀ o ∈ ops, o.Valid) (hb : (inserts ops).length < 2 ^ 31) (hne : inserts ops ≠ [])
    {d : Dir} (hd : runOps {} ops = .ok d) {A : List Item} (hA : ∀ e, (∃ x ∈ A, x.entry = e) ↔ ∃ i ∈ inserts ops, i.entry = e)
    {k : Bytes} (hk : ∀ c ∈ k, isHex c) (hk8 : 8 ≤ k.length) (hs : ∀ F, d.sorted = some F → SeekSafe F k) : Finds d A k := by
  obtain ⟨d', h1, h2⟩ := C03_housekept_lookup_partial ops hv hb k hk hk8
  rw [hd] at h1
  cases h1
  obtain ⟨es, e1, e2⟩ := h2 hs
  refine ⟨es, fun e => by rw [e1, hA], fun σ f s => ?_⟩
  obtain ⟨r, r1, r2, r3⟩ := e2 σ f s
  exact ⟨r, r1, r2, by rw [r3 hne]⟩

/-! ### C34 -/

/-- C34: getting a well-formed ID that no record of the archive has is answered with "ID not found",
whatever else is in the archive, in particular if other records share the 24 digits of the index key. -/
theorem C34_not_found {ps : Nat} {pfx : Bytes} {idSize : Nat} {w : World} {A : List Item} {id q : Bytes} {fuel : Nat}
    (hA : ∀ x ∈ A, x.At ps pfx w.silos) (hq : idxValidId pfx idSize q = .ok id) (hfind : Finds w.dir A id)
    (hno : ∀ x ∈ A, ¬ SameId x.hdr.id id) : getjobNew ps pfx idSize (fuel + 1) w q = .ok (.error .notFound) := by
  obtain ⟨es, hes, hiter⟩ := hfind
  have hskip : ∀ e ∈ es, verdict ps pfx idSize w { id := id, err := .notFound, segs := [] } e = .ok .skip := by
    intro e he
    obtain ⟨m1, z, m2, rfl⟩ := (hes e).1 he
    obtain ⟨_, _, _, -, -, -, z4⟩ := verdict_first (idSize := idSize) (id := id) (er := .notFound) (hA z m2)
    rw [z4, if_pos (hno z m2)]
  obtain ⟨r, r1, r2, r3⟩ := hiter _ (getjobIter ps pfx idSize w) (.ok { id := id, err := .notFound, segs := [] })
  rw [deliver_skip es hskip] at r2 r3
  have hpos : r.2 ≤ 0 := by
    rcases Int.lt_or_le 0 r.2 with h | h
    · exact absurd (r3.1 h) (by simp)
    · exact h
  unfold getjobNew
  rw [hq]
  simp only
  rw [getLoop, r1]
  simp only [Res.ok_bind, r2, if_pos hpos, Res.pure_eq]

/-- C34, an archive without any index file. -/
theorem C34_empty {ps : Nat} {pfx : Bytes} {idSize : Nat} {w : World} {id q : Bytes} {fuel : Nat} (hw : w.dir = {})
    (hq : idxValidId pfx idSize q = .ok id) : getjobNew ps pfx idSize (fuel + 1) w q = .ok (.error .notFound) := by
  unfold getjobNew
  rw [hq]
  simp only
  have hx := ((C11_valid_id pfx idSize q id).1 hq).2.1
  obtain ⟨kb, hkb, -⟩ := idxKeyBin_spec 12 id hx
  rw [getLoop, hw]
  unfold idxIter
  simp only [Option.getD_some]
  rw [hkb, List.all_eq_true.2 hx]
  simp [idxFiles]

/-- C34, other requests that are not answered with an object: a malformed ID, the ID of a silo's warcinfo
record and the ID of a continuation segment are reported as such. -/
theorem C34_errors {ps : Nat} {pfx : Bytes} {idSize : Nat} {w : World} {A : List Item} {id q : Bytes} {fuel : Nat}
    (hA : ∀ x ∈ A, x.At ps pfx w.silos) :
    (∀ e, idxValidId pfx idSize q = .error e → getjobNew ps pfx idSize fuel w q = .ok (.error (.badId e))) ∧
    (idxValidId pfx idSize q = .ok id → Finds w.dir A id → ∀ x ∈ A, Matches id x.entry = true → SameId x.hdr.id id → OnlyFirst A id x →
      (FlWarcinfo x.entry.flags = true → getjobNew ps pfx idSize (fuel + 1) w q = .ok (.error .isWarcinfo)) ∧
      (FlWarcinfo x.entry.flags = false → FlSegmented x.entry.flags = true → FlFirst x.entry.flags = false →
        getjobNew ps pfx idSize (fuel + 1) w q = .ok (.error .isContinuation))) := by
  refine ⟨fun e he => by unfold getjobNew; rw [he], ?_⟩
  intro hq hfind x hx hm hs hfirst
  obtain ⟨es, hes, hiter⟩ := hfind
  obtain ⟨fx, prex, postx, x1, x2, x3, x4⟩ := verdict_first (idSize := idSize) (id := id) (er := .notFound) (hA x hx)
  rw [if_neg (by simpa using hs)] at x4
  have key : ∀ er, verdict ps pfx idSize w { id := id, err := .notFound, segs := [] } x.entry = .ok (.error er) →
      getjobNew ps pfx idSize (fuel + 1) w q = .ok (.error er) := by
    intro er hv
    obtain ⟨r, r1, r2, r3⟩ := hiter _ (getjobIter ps pfx idSize w) (.ok { id := id, err := .notFound, segs := [] })
    rw [deliver_error (er := er) es ⟨x.entry, (hes _).2 ⟨hm, x, hx, rfl⟩, by rw [hv]; simp⟩ (by
      intro e he
      obtain ⟨m1, z, m2, rfl⟩ := (hes e).1 he
      by_cases hz : SameId z.hdr.id id
      · rw [hfirst z m2 m1 hz]
        exact .inr hv
      · obtain ⟨_, _, _, -, -, -, z4⟩ := verdict_first (idSize := idSize) (id := id) (er := .notFound) (hA z m2)
        rw [z4, if_pos hz]
        exact .inl rfl)] at r2 r3
    have hpos : r.2 ≤ 0 := by
      rcases Int.lt_or_le 0 r.2 with h | h
      · exact absurd (r3.1 h) (by simp)
      · exact h
    unfold getjobNew
    rw [hq]
    simp only
    rw [getLoop, r1]
    simp only [Res.ok_bind, r2, if_pos hpos, Res.pure_eq]
  constructor
  · intro hw
    exact key _ (by rw [x4, if_pos hw])
  · intro hw h4 h5
    exact key _ (by rw [x4, if_neg (by rw [hw]; simp), if_pos ⟨h4, h5⟩])

/-! ### C36 -/

theorem sumLen_items {w : World} {n : Nat} {xs : List Item} {gs : List GSeg} (hg : GotItems w n xs gs)
    (hl : ∀ x ∈ xs, x.record.data ≠ [] ∧ headerGetNumber x.hdr b!"Content-Length" = .ok (x.record.data.length : Int)) :
    sumLen false gs = .ok (((xs.map (·.record.data)).flatten.length : Nat) : Int) := by
  induction hg with
  | nil => rfl
  | cons h h2 ih =>
    rename_i x g xs gs
    obtain ⟨_, _, e1, e2, -⟩ := gseg_file h
    obtain ⟨l1, l2⟩ := hl x (by simp)
    have hp := List.length_pos_iff.mpr l1
    rw [sumLen, ih (fun x hx => hl x (by simp [hx])), e2, l2]
    simp only [Bool.false_eq_true, if_false, Res.ok_bind]
    rw [decide_eq_true (by omega)]
    simp

/-- C36: the length announced for an object whose headers have the right `Content-Length` is the number of
bytes plain iteration delivers, and that announced for the gzip form of an object of one segment is the
number of bytes delivered in that form. -/
theorem C36_announced {ps : Nat} {pfx : Bytes} {idSize : Nat} {w : World} {A : List Item} {id q : Bytes} {x : Item} {ys : List Item} {fuel : Nat}
    (hg : Gettable ps pfx idSize w A id x ys) (hq : idxValidId pfx idSize q = .ok id) (hfuel : ys.length < fuel)
    (hl : ∀ y ∈ x :: ys, y.record.data ≠ [] ∧ headerGetNumber y.hdr b!"Content-Length" = .ok (y.record.data.length : Int))
    (cut : Bytes → List Bytes) (hcut : ∀ b, (cut b).flatten = b) :
    ∃ gj out, getjobNew ps pfx idSize fuel w q = .ok (.job gj) ∧ getjobIterate ps cut gj collect [] false = .ok out ∧
      totalLength gj false = .ok (out.length : Int) ∧ gjIsSegmented gj = decide (ys ≠ []) ∧
      (ys = [] → ∃ gz, getjobIterate ps cut gj collect [] true = .ok gz ∧ totalLength gj true = .ok (gz.length : Int)) := by
  obtain ⟨gs, g1, g2⟩ := getjobNew_object hg.there hq hg.object hg.first hg.chain hg.find hg.finds hfuel
  obtain ⟨gj, k1, -, k2, -⟩ := C33_get_partial hg hq hfuel
  rw [g2] at k1
  cases k1
  obtain ⟨gj, m1, m2, -⟩ := C33_get_gzip hg hq hfuel cut
  rw [g2] at m1
  cases m1
  refine ⟨_, _, g2, k2 cut hcut, sumLen_items g1 hl, ?_, ?_⟩
  · cases g1 with
    | cons h h2 =>
      cases h2 with
      | nil => rfl
      | cons h3 h4 => simp [gjIsSegmented]
  · intro hy
    refine ⟨_, m2 hy, ?_⟩
    subst hy
    cases g1 with
    | cons h h2 =>
      cases h2
      obtain ⟨pre, post, e1, e2, -⟩ := gseg_file h
      have hb := member_length ((hg.there x hg.object.1).2.1.body)
      unfold totalLength
      simp only [sumLen, if_true, e1]
      have : bodyLen (atBody (pre ++ x.record.bytes ++ post) pre.length x.record) = .ok (x.record.bgz.length : Int) := rfl
      rw [this]
      simp only [Res.ok_bind]
      rw [decide_eq_true (by omega)]
      simp

/-! ### C33 does not hold if other records share the continuation field -/

def exPfx : Bytes := b!"x/"
def exHdr (id : Bytes) (fs : List (Bytes × Bytes)) : Hdr := ⟨id, fs⟩
def exRec (h : Hdr) (data : Bytes) : Bytes := stored1 (headerSerialize exPfx h) ++ stored1 data ++ separator

/-- Two segments of one object, and a record without an origin. -/
def exX : Hdr := exHdr b!"aaaaaaaaaaaaaaaaaaaaaaaa" [(b!"Content-Length", b!"2")]
def exZ : Hdr := exHdr b!"bbbbbbbb0000000000000000" [(b!"Content-Length", b!"2")]
def exY : Hdr := exHdr b!"bbbbbbbb1000000000000000" [(b!"WARC-Segment-Number", b!"2"), (b!"WARC-Segment-Origin-ID", b!"<x/aaaaaaaaaaaaaaaaaaaaaaaa>")]

/-- An archive with the three records in silos of their own, indexed in the given order. -/
def exWorld (ops : List IdxOp) : World :=
  { dir := (runOps {} ops).toOption.getD {},
    silos := fun n => if n = 0 then some ⟨exRec exX b!"ab", false⟩ else if n = 1 then some ⟨exRec exY b!"cd", false⟩
      else if n = 2 then some ⟨exRec exZ b!"ef", false⟩ else none,
    holds := fun _ => false, cache := ⟨0, 0⟩, cacheFile := none }

def exInsX : IdxOp := .insert ⟨exX.id, 4 + 16 + 32, 0, 0, some exY.id⟩
def exInsY : IdxOp := .insert ⟨exY.id, 4 + 16 + 64, 1, 0, none⟩
def exInsZ : IdxOp := .insert ⟨exZ.id, 4, 2, 0, none⟩

set_option maxRecDepth 1000000 in
/-- C33 is false in general: with a record that has the same first 32 bits in its ID as the second segment
in front of it, the search for the second segment ends in an assertion failure.  The same records in the
other order are found. -/
theorem C33_counterexample_collision :
    getjobNew 4096 exPfx 24 3 (exWorld [exInsX, exInsZ, exInsY]) exX.id = .fail ∧
    (∃ gj, getjobNew 4096 exPfx 24 3 (exWorld [exInsX, exInsY, exInsZ]) exX.id = .ok (.job gj) ∧
      getjobIterate 4096 (fun b => [b]) gj collect [] false = .ok b!"abcd") := by
  refine ⟨by decide +kernel, (match getjobNew 4096 exPfx 24 3 (exWorld [exInsX, exInsY, exInsZ]) exX.id with | .ok (.job gj) => gj | _ => ⟨[], .notFound, []⟩),
    by decide +kernel, by decide +kernel⟩

set_option maxRecDepth 1000000 in
/-- The only copy of the second segment is gone, and there is a record that shares the 32 bits: assertion failure
instead of a report. -/
theorem C33_counterexample_missing :
    getjobNew 4096 exPfx 24 3 (exWorld [exInsX, exInsZ]) exX.id = .fail ∧
    getjobNew 4096 exPfx 24 3 (exWorld [exInsX]) exX.id = .ok (.error .notFound) := by
  decide +kernel

/-- Continuation segments with equal contents, hence equal IDs. -/
def exY2 : Hdr := exHdr b!"bbbbbbbb1000000000000000" [(b!"WARC-Segment-Number", b!"2"), (b!"WARC-Segment-Origin-ID", b!"<x/aaaaaaaaaaaaaaaaaaaaaaaa>")]
def exY3 : Hdr := exHdr b!"bbbbbbbb1000000000000000" [(b!"WARC-Segment-Number", b!"3"), (b!"WARC-Segment-Origin-ID", b!"<x/aaaaaaaaaaaaaaaaaaaaaaaa>")]

def exWorld3 (ops : List IdxOp) : World :=
  { dir := (runOps {} ops).toOption.getD {},
    silos := fun n => if n = 0 then some ⟨exRec exX b!"ab", false⟩ else if n = 1 then some ⟨exRec exY2 b!"cd", false⟩
      else if n = 2 then some ⟨exRec exY3 b!"cd", false⟩ else none,
    holds := fun _ => false, cache := ⟨0, 0⟩, cacheFile := none }

def exInsY2 : IdxOp := .insert ⟨exY2.id, 4 + 16, 1, 0, some exY3.id⟩
def exInsY3 : IdxOp := .insert ⟨exY3.id, 4 + 16 + 64, 2, 0, none⟩

set_option maxRecDepth 1000000 in
/-- C33 is false for an object with two continuation segments that have equal contents, as storing a long run of
one byte makes them: both are found under the one continuation field, and whichever comes first, the search
ends with "out of order". -/
theorem C33_counterexample_equal :
    getjobNew 4096 exPfx 24 4 (exWorld3 [exInsX, exInsY2, exInsY3]) exX.id = .ok (.error .outOfOrder) ∧
    getjobNew 4096 exPfx 24 4 (exWorld3 [exInsX, exInsY3, exInsY2]) exX.id = .ok (.error .outOfOrder) ∧
    getjobNew 4096 exPfx 24 4 (exWorld3 [exInsX, exInsY2, exInsY3, .housekeep 32]) exX.id = .ok (.error .outOfOrder) := by
  decide +kernel

/-- A record of an object whose content equals that of a continuation segment of another one. -/
def exV : Hdr := exHdr b!"bbbbbbbb1000000000000000" [(b!"Content-Length", b!"2")]

def exWorld4 (ops : List IdxOp) : World :=
  { dir := (runOps {} ops).toOption.getD {},
    silos := fun n => if n = 1 then some ⟨exRec exY2 b!"cd", false⟩ else if n = 2 then some ⟨exRec exV b!"cd", false⟩ else none,
    holds := fun _ => false, cache := ⟨0, 0⟩, cacheFile := none }

set_option maxRecDepth 1000000 in
/-- An object with the content of a continuation segment is stored under the ID of that segment, and it
depends on the order in the index whether it can be retrieved. -/
theorem C32_counterexample_segment_content :
    getjobNew 4096 exPfx 24 4 (exWorld4 [exInsY2, .insert ⟨exV.id, 4, 2, 0, none⟩]) exV.id = .ok (.error .isContinuation) ∧
    ∃ gj, getjobNew 4096 exPfx 24 4 (exWorld4 [.insert ⟨exV.id, 4, 2, 0, none⟩, exInsY2]) exV.id = .ok (.job gj) := by
  refine ⟨by decide +kernel, (match getjobNew 4096 exPfx 24 4 (exWorld4 [.insert ⟨exV.id, 4, 2, 0, none⟩, exInsY2]) exV.id with | .ok (.job gj) => gj | _ => ⟨[], .notFound, []⟩),
    by decide +kernel⟩

/-! ### The hypotheses are met: an object of two segments, and a segment of another object that shares the continuation field -/

def exW : Hdr := exHdr b!"bbbbbbbb0000000000000000" [(b!"WARC-Segment-Number", b!"2"), (b!"WARC-Segment-Origin-ID", b!"<x/cccccccccccccccccccccccc>")]
def exIns : List Ins := [⟨exX.id, 52, 0, 0, some exY.id⟩, ⟨exW.id, 84, 1, 0, none⟩, ⟨exY.id, 84, 2, 0, none⟩]
def exItem (i : Ins) (h : Hdr) (d : Bytes) : Item := ⟨i.entry, storedRec (headerSerialize exPfx h) d, h⟩
def exA : List Item := [exItem ⟨exX.id, 52, 0, 0, some exY.id⟩ exX b!"ab", exItem ⟨exW.id, 84, 1, 0, none⟩ exW b!"ef", exItem ⟨exY.id, 84, 2, 0, none⟩ exY b!"cd"]

def exWorld2 : World :=
  { dir := (runOps {} (exIns.map .insert)).toOption.getD {},
    silos := fun n => (exA[n]?).map (fun x => ⟨x.record.bytes, false⟩),
    holds := fun _ => false, cache := ⟨0, 0⟩, cacheFile := none }

theorem exIns_valid : ∀ o ∈ exIns.map IdxOp.insert, o.Valid := by
  intro o ho
  simp only [exIns, List.map_cons, List.map_nil, List.mem_cons, List.not_mem_nil, or_false] at ho
  rcases ho with rfl | rfl | rfl
  · exact ⟨by decide, by decide, by decide, by decide, by intro k hk; cases hk; decide⟩
  · exact ⟨by decide, by decide, by decide, by decide, by intro k hk; cases hk⟩
  · exact ⟨by decide, by decide, by decide, by decide, by intro k hk; cases hk⟩

theorem exFinds (k : Bytes) (hk : ∀ c ∈ k, isHex c) (hk8 : 8 ≤ k.length) : Finds exWorld2.dir exA k := by
  have hd : runOps {} (exIns.map .insert) = .ok exWorld2.dir := by decide +kernel
  refine finds_history _ exIns_valid (by decide) (by decide) hd ?_ hk hk8 ?_
  · intro e
    simp [exA, exItem, inserts, exIns]
  · intro F hF
    have : exWorld2.dir.sorted = none := by decide +kernel
    rw [this] at hF
    cases hF

theorem exAt : ∀ x ∈ exA, x.At 4096 exPfx exWorld2.silos := by
  intro x hx
  simp only [exA, List.mem_cons, List.not_mem_nil, or_false] at hx
  rcases hx with rfl | rfl | rfl <;>
  refine ⟨⟨_, [], [], rfl, by simp [exItem], rfl⟩, storedRec_complete (by decide +kernel) (by decide +kernel) (by decide +kernel) (by decide +kernel), ?_⟩ <;>
  · constructor
    · show (headerSerialize _ _).length ≤ 4096
      decide +kernel
    · show (storedSegment _).length + 24 ≤ 4096
      rw [storedSegment_length]
      decide +kernel

example : Gettable 4096 exPfx 24 exWorld2 exA exX.id (exItem ⟨exX.id, 52, 0, 0, some exY.id⟩ exX b!"ab") [exItem ⟨exY.id, 84, 2, 0, none⟩ exY b!"cd"] := by
  refine ⟨exAt, ⟨by simp [exA], by decide, by decide, by decide, .inr ⟨by simp, by decide, by decide, by decide, by decide, by simp [exA], by decide, by decide, by decide,
    by decide, ⟨exX.id, by unfold HasOrigin; decide, rfl⟩, by show FlLast _ = true; decide⟩⟩, ?_, ⟨?_, trivial⟩, exFinds _ (by decide) (by decide), ⟨exFinds _ (by decide) (by decide), trivial⟩⟩
  · intro y hy hm _
    simp only [exA, List.mem_cons, List.not_mem_nil, or_false] at hy
    rcases hy with rfl | rfl | rfl
    · rfl
    · exact absurd hm (by decide)
    · exact absurd hm (by decide)
  · intro z hz hm
    simp only [exA, List.mem_cons, List.not_mem_nil, or_false] at hz
    rcases hz with rfl | rfl | rfl
    · exact absurd hm (by decide)
    · exact ⟨by decide, b!"cccccccccccccccccccccccc", by unfold HasOrigin; decide, by decide, by decide⟩
    · exact ⟨by decide, exX.id, by unfold HasOrigin; decide, by decide, fun _ => rfl⟩

end Verif.Props
