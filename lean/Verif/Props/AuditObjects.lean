/-
The audit finds objects whose segments are on the list in order, with segments of other objects in between.
-/
import Verif.Props.Audit

namespace Verif.Props
open Verif Header Rsilo Ident Audit
open _root_.Verif.Commit (Silo)

/-- `l` consists of the elements of `as` and of `os`, both in order. -/
inductive Shuffle {α : Type} : List α → List α → List α → Prop where
  | nil : Shuffle [] [] []
  | left {a : α} {as os l : List α} : Shuffle as os l → Shuffle (a :: as) os (a :: l)
  | right {o : α} {as os l : List α} : Shuffle as os l → Shuffle as (o :: os) (o :: l)

theorem shuffle_filter {α : Type} (q : α → Bool) (l : List α) : Shuffle (l.filter q) (l.filter fun a => !q a) l := by
  induction l with
  | nil => exact .nil
  | cons a l ih =>
    cases h : q a
    · simp only [List.filter_cons, h, Bool.false_eq_true, if_false, Bool.not_false, if_true]
      exact .right ih
    · simp only [List.filter_cons, h, if_true, Bool.not_true, Bool.false_eq_true, if_false]
      exact .left ih

theorem shuffle_nil {α : Type} {os l : List α} (h : Shuffle [] os l) : l = os := by
  generalize has : ([] : List α) = as at h
  induction h with
  | nil => rfl
  | left _ _ => cases has
  | right _ ih => rw [ih has]

/-- The object a segment belongs to. -/
def ownerOf (pfx : Bytes) (a : Ap) : Bytes :=
  if a.segment = 1 then a.hdr.id
  else (((headerGet a.hdr b!"WARC-Segment-Origin-ID").getD []).drop (1 + pfx.length)).dropLast

/-- The element names the object it belongs to with an ID of the right length. -/
def Named (pfx : Bytes) (idSize : Nat) (a : Ap) : Prop :=
  (ownerOf pfx a).length = idSize ∧ (a.segment ≠ 1 → headerGet a.hdr b!"WARC-Segment-Origin-ID" = some (b!"<" ++ pfx ++ ownerOf pfx a ++ b!">"))

theorem isNext_other {pfx oid : Bytes} {idSize : Nat} {seg : Int} {b : Ap} (hs : 1 ≤ seg) (hn : Named pfx idSize b) (hl : oid.length = idSize)
    (hne : ownerOf pfx b ≠ oid) : isNext pfx oid seg b = .ok false := by
  unfold isNext
  split
  · rfl
  · rename_i h
    have h1 : b.segment ≠ 1 := by omega
    rw [hn.2 h1]
    simp only [List.cons_append, List.nil_append, List.append_assoc]
    rw [if_neg (by simp)]
    simp only [Res.pure_eq]
    have hle : pfx.length ≤ (pfx ++ (ownerOf pfx b ++ [62])).length + 1 := by simp only [List.length_append]; omega
    unfold Res.access
    rw [if_pos (by simpa using hle)]
    simp only [Res.ok_bind, Res.ok.injEq, decide_eq_false_iff_not]
    rintro ⟨-, h2, -⟩
    rw [List.drop_left, List.take_left' (by rw [hn.1, hl])] at h2
    exact hne h2

theorem pass_shuffle {ps : Nat} {pfx : Bytes} {cut : Bytes → List Bytes} (hcut : ∀ b, (cut b).flatten = b) {silos : Nat → Option Silo} {oid : Bytes} {z : Ap}
    (hz : Good ps pfx silos z) (htz : (headerGet z.hdr b!"WARC-Segment-Total-Length").isSome) {as os todo : List Ap} (h : Shuffle as os todo) :
    ∀ {bs : List Ap} {ap : Ap} {acc : Bytes} {found : Bool} {kept : List Ap}, as = bs ++ [z] →
    (∀ b ∈ bs, Good ps pfx silos b ∧ headerGet b.hdr b!"WARC-Segment-Total-Length" = none) →
    (∀ o ∈ os, ∀ seg, 1 ≤ seg → isNext pfx oid seg o = .ok false) → 1 ≤ ap.segment →
    Chained pfx oid ap (bs ++ [z]) → pass ps pfx cut silos oid todo kept ap acc found =
      .ok { fin := true, found := true, last := z, acc := acc ++ contents (bs ++ [z]), rest := kept ++ os } := by
  induction h with
  | nil => intro bs _ _ _ _ h; simp at h
  | @left a as os l h ih =>
    intro bs ap acc found kept he hb ho hap hc
    cases bs with
    | nil =>
      simp only [List.nil_append, List.cons.injEq] at he
      obtain ⟨rfl, rfl⟩ := he
      rw [pass, isNext_of hc.1]
      simp only [Res.ok_bind, Bool.true_eq_false, if_false]
      rw [addSegment_good hcut hz]
      simp only [Res.ok_bind]
      rw [if_pos htz, shuffle_nil h]
      simp [contents]
    | cons b bs =>
      simp only [List.cons_append, List.cons.injEq] at he
      obtain ⟨rfl, rfl⟩ := he
      obtain ⟨g, n⟩ := hb a (by simp)
      rw [pass, isNext_of hc.1]
      simp only [Res.ok_bind, Bool.true_eq_false, if_false]
      rw [addSegment_good hcut g]
      simp only [Res.ok_bind]
      have := hc.1.1
      rw [if_neg (by rw [n]; simp), ih rfl (fun c hc => hb c (by simp [hc])) ho (by omega) hc.2]
      simp [contents]
  | @right o as os l h ih =>
    intro bs ap acc found kept he hb ho hap hc
    rw [pass, ho o (by simp) _ hap]
    simp only [Res.ok_bind, if_true]
    rw [ih he hb (fun o h => ho o (by simp [h])) hap hc]
    simp

theorem takeFirst_filter (q : Ap → Bool) (l : List Ap) : ∀ {a : Ap} {rest : List Ap}, takeFirst l = some (a, rest) → q a = true →
    (∃ x t, l.filter q = x :: t ∧ x.segment = 1) → l.filter q = a :: rest.filter q ∧ (l.filter fun b => !q b) = rest.filter fun b => !q b := by
  induction l with
  | nil => intro a rest h; cases h
  | cons y l ih =>
    intro a rest h hq hx
    rw [takeFirst] at h
    split at h
    · cases h
      simp [List.filter_cons, hq]
    · rename_i h1
      simp only [Option.map_eq_some_iff] at h
      obtain ⟨⟨b, r⟩, h2, h3⟩ := h
      cases h3
      cases hy : q y
      · obtain ⟨x, t, e, hx⟩ := hx
        simp only [List.filter_cons, hy, Bool.false_eq_true, if_false, Bool.not_false, if_true] at e ⊢
        obtain ⟨i1, i2⟩ := ih h2 hq ⟨x, t, e, hx⟩
        exact ⟨i1, by rw [i2]⟩
      · obtain ⟨x, t, e, hx⟩ := hx
        simp only [List.filter_cons, hy, if_true, List.cons.injEq] at e
        rw [← e.1] at hx
        exact absurd hx h1

theorem takeFirst_some (l : List Ap) : (∃ a ∈ l, a.segment = 1) → ∃ a rest, takeFirst l = some (a, rest) := by
  intro ⟨a, ha, h1⟩
  cases h : takeFirst l with
  | none => exact absurd h1 (takeFirst_none l h a ha)
  | some q => exact ⟨q.1, q.2, rfl⟩

/-- The segments on the list are those of whole objects, each in order. -/
def InOrder (sha : Bytes → Bytes) (idSize : Nat) (pfx : Bytes) (l : List Ap) : Prop :=
  ∀ a ∈ l, ∃ x bs z, l.filter (fun b => ownerOf pfx b = ownerOf pfx a) = x :: bs ++ [z] ∧ Whole sha idSize pfx x bs z

theorem finalMsgs_whole {sha : Bytes → Bytes} {idSize : Nat} {pfx : Bytes} {a z : Ap} {bs : List Ap} (hw : Whole sha idSize pfx a bs z) :
    finalMsgs sha idSize a z (a.content ++ contents (bs ++ [z])) = .ok [] := by
  have hcon : contents (a :: bs ++ [z]) = a.content ++ contents (bs ++ [z]) := by simp [contents]
  have h1 := hw.total
  have h2 := hw.digest
  have h3 := hw.ident
  rw [hcon] at h1 h2 h3
  obtain ⟨m, hm⟩ : ∃ m, finalMsgs sha idSize a z (a.content ++ contents (bs ++ [z])) = .ok m := by
    unfold finalMsgs
    rw [(identCreate_iff _ _ _ _).2 h3]
    unfold checkDigest
    rw [h2]
    simp only [List.cons_append, List.nil_append, List.length_cons]
    simp
  have := (finalMsgs_nil hm).2 ⟨h1, h2, h3⟩
  subst this
  exact hm

/-- C37, the other way: objects whose segments are on the list in order are found complete, also if there are segments of other objects in
between; the audit has nothing to say, and nothing is left. -/
theorem C37_interleaved {ps : Nat} {pfx : Bytes} {cut : Bytes → List Bytes} (hcut : ∀ b, (cut b).flatten = b) {sha : Bytes → Bytes} {idSize : Nat}
    {silos : Nat → Option Silo} (fuel : Nat) : ∀ {l : List Ap}, l.length < fuel → (∀ a ∈ l, Good ps pfx silos a ∧ Named pfx idSize a) →
    InOrder sha idSize pfx l →
    ∃ os, allPending ps pfx cut sha idSize silos fuel l = .ok (some (os, [])) ∧ ∀ o ∈ os, ∃ rest, o = .object [] rest := by
  induction fuel with
  | zero => intro l h; omega
  | succ fuel ih =>
    intro l hl hg ho
    rw [allPending]
    cases l with
    | nil => exact ⟨[], rfl, fun o ho => (by cases ho)⟩
    | cons c l =>
      obtain ⟨L, hL⟩ : ∃ L, L = c :: l := ⟨_, rfl⟩
      rw [← hL] at hl hg ho ⊢
      obtain ⟨x, bs, z, f1, f2⟩ := ho c (by rw [hL]; simp)
      have hxm : x ∈ L := (List.mem_filter.1 (show x ∈ L.filter (fun b => ownerOf pfx b = ownerOf pfx c) by rw [f1]; simp)).1
      obtain ⟨a, rest, ht⟩ := takeFirst_some L ⟨x, hxm, f2.first⟩
      obtain ⟨t1, t2⟩ := takeFirst_perm L ht
      obtain ⟨x, bs, z, f1, f2⟩ := ho a (t1.mem_iff.2 (by simp))
      obtain ⟨k1, k2⟩ := takeFirst_filter (fun b => decide (ownerOf pfx b = ownerOf pfx a)) L ht (by simp) ⟨x, bs ++ [z], f1, f2.first⟩
      rw [f1] at k1
      simp only [List.cons_append, List.cons.injEq] at k1
      obtain ⟨rfl, k1⟩ := k1
      have hgr : ∀ b ∈ rest, Good ps pfx silos b ∧ Named pfx idSize b := fun b hb => hg b (t1.mem_iff.2 (by simp [hb]))
      have hin : ∀ b ∈ bs ++ [z], b ∈ rest := fun b hb => (List.mem_filter.1 (k1 ▸ hb)).1
      have hoid : ownerOf pfx x = x.hdr.id := by unfold ownerOf; rw [if_pos t2]
      have hlen : x.hdr.id.length = idSize := by rw [← hoid]; exact (hg x (t1.mem_iff.2 (by simp))).2.1
      have hone : onePending ps pfx cut sha idSize silos (fuel + 1) L = .ok (some (.object [] (rest.filter fun b => !decide (ownerOf pfx b = ownerOf pfx x)))) := by
        unfold onePending
        rw [ht]
        simp only
        rw [addSegment_good hcut (hg x (t1.mem_iff.2 (by simp))).1]
        simp only [Res.ok_bind, List.nil_append]
        rw [passes, pass_shuffle hcut (hgr z (hin z (by simp))).1 (by rw [f2.total]; rfl)
          (shuffle_filter (fun b => decide (ownerOf pfx b = ownerOf pfx x)) rest) k1.symm
          (fun b hb => ⟨(hgr b (hin b (by simp [hb]))).1, f2.notlast b hb⟩) ?_ (by omega) f2.chain]
        · simp only [Res.ok_bind, if_true, List.nil_append]
          rw [finalMsgs_whole f2]
          rfl
        · intro o ho seg hs
          obtain ⟨o1, o2⟩ := List.mem_filter.1 ho
          refine isNext_other hs (hgr o o1).2 hlen ?_
          simp only [Bool.not_eq_true', decide_eq_false_iff_not] at o2
          rw [← hoid]
          exact o2
      rw [hone]
      simp only [Res.ok_bind]
      have hsub := (List.filter_sublist (p := fun b => !decide (ownerOf pfx b = ownerOf pfx x)) (l := rest)).length_le
      have hrl := t1.length_eq
      rw [List.length_cons] at hrl
      obtain ⟨os, e1, e2⟩ := ih (l := rest.filter fun b => !decide (ownerOf pfx b = ownerOf pfx x)) (by omega)
        (fun b hb => hgr b (List.mem_filter.1 hb).1) (by
          rw [← k2]
          intro b hb
          obtain ⟨b1, b2⟩ := List.mem_filter.1 hb
          obtain ⟨x', bs', z', g1, g2⟩ := ho b b1
          refine ⟨x', bs', z', ?_, g2⟩
          rw [← g1, List.filter_filter]
          refine List.filter_congr fun y _ => ?_
          simp only [Bool.not_eq_true', decide_eq_false_iff_not] at b2
          by_cases hy : ownerOf pfx y = ownerOf pfx b
          · simp [hy, b2]
          · simp [hy])
      rw [e1]
      refine ⟨_, rfl, ?_⟩
      intro o ho
      rcases List.mem_cons.1 ho with rfl | ho
      · exact ⟨_, rfl⟩
      · exact e2 o ho

end Verif.Props
