/-
C91: objects can be got while others are being stored.
-/
import Verif.Model.GetWhile
import Verif.Props.Concurrent

namespace Verif.Props
open Verif Header Gzip Ident Index Wsilo Segjob Getjob Spec Cache Inflate GetWhile
open _root_.Verif.Rsilo (ByteIter)
open _root_.Verif.Commit (upd Silo Act Pc St setPc)

/-! ### Without changes -/

/-- The result without the clock. -/
def unclocked : Res ((Res GJ × Nat) × Int) → Res (Res GJ × Int)
  | .ok x => .ok (x.1.1, x.2)
  | .fail => .fail
  | .ub => .ub

theorem scan_still {ps : Nat} {pfx : Bytes} {idSize : Nat} {w : World} {srt : Bool} {cl : Nat} {keyP : Bytes} {kp : Option Bytes} (rs : List Bytes) : ∀ (r : Res GJ) (t : Nat),
    unclocked (idxScan srt cl keyP kp (getjobIterW ps pfx idSize fun _ => w) rs (r, t)) = idxScan srt cl keyP kp (getjobIter ps pfx idSize w) rs r := by
  induction rs with
  | nil => intro r t; rfl
  | cons c rs ih =>
    intro r t
    simp only [idxScan]
    split
    · rfl
    · split
      · rfl
      · split
        · exact ih r t
        · split
          · exact ih r t
          · split
            · rename_i e _
              obtain ⟨⟨a, b⟩, hq⟩ : ∃ q, getjobIter ps pfx idSize w r e = q := ⟨_, rfl⟩
              have hW : getjobIterW ps pfx idSize (fun _ => w) (r, t) e = ((a, t + 1), b) := by
                unfold getjobIterW
                simp only [hq]
              simp only [hW, hq]
              by_cases h0 : b = 0
              · subst h0
                simp only [if_true]
                exact ih _ _
              · simp only [h0, if_false]
                rfl
            · rfl
            · rfl

theorem files_still {ps : Nat} {pfx : Bytes} {idSize : Nat} {w : World} {cl : Nat} {keyP : Bytes} {kp : Option Bytes} (fs : List (Option Bytes × Bool)) : ∀ (i : Int) (r : Res GJ) (t : Nat),
    unclocked (idxFiles cl keyP kp (getjobIterW ps pfx idSize fun _ => w) fs i (r, t)) = idxFiles cl keyP kp (getjobIter ps pfx idSize w) fs i r := by
  induction fs with
  | nil => intro i r t; rfl
  | cons f fs ih =>
    intro i r t
    obtain ⟨_ | f, srt⟩ := f
    · exact ih i r t
    · have key : ∀ pos : Res Nat, unclocked (do
            let pos ← pos
            let x ← idxScan srt cl keyP kp (getjobIterW ps pfx idSize fun _ => w) (chunksOf 32 (f.drop pos)) (r, t)
            if x.2 ≠ 0 then pure (x.1, x.2) else idxFiles cl keyP kp (getjobIterW ps pfx idSize fun _ => w) fs x.2 x.1) = (do
            let pos ← pos
            let x ← idxScan srt cl keyP kp (getjobIter ps pfx idSize w) (chunksOf 32 (f.drop pos)) r
            if x.2 ≠ 0 then pure (x.1, x.2) else idxFiles cl keyP kp (getjobIter ps pfx idSize w) fs x.2 x.1) := by
        intro pos
        cases pos with
        | fail => rfl
        | ub => rfl
        | ok pos =>
          simp only [Res.ok_bind]
          rw [← scan_still _ r t]
          cases idxScan srt cl keyP kp (getjobIterW ps pfx idSize fun _ => w) (chunksOf 32 (f.drop pos)) (r, t) with
          | fail => rfl
          | ub => rfl
          | ok x =>
            obtain ⟨⟨r', t'⟩, i'⟩ := x
            simp only [Res.ok_bind, unclocked]
            by_cases h0 : i' = 0
            · simp only [h0, ne_eq, not_true_eq_false, if_false]
              exact ih 0 r' t'
            · simp only [ne_eq, h0, not_false_eq_true, if_true, Res.pure_eq]
      cases srt
      · exact key (.ok 0)
      · exact key (bucketSeek keyP f)

theorem iter_still {ps : Nat} {pfx : Bytes} {idSize : Nat} {w : World} (d : Dir) (kp : Option Bytes) (r : Res GJ) (t : Nat) :
    unclocked (idxIter d kp (getjobIterW ps pfx idSize fun _ => w) (r, t)) = idxIter d kp (getjobIter ps pfx idSize w) r := by
  unfold idxIter
  dsimp only
  cases Res.check ((kp.getD []).all isHex) with
  | fail => rfl
  | ub => rfl
  | ok u =>
    simp only [Res.ok_bind]
    cases idxKeyBin 12 (kp.getD []) with
    | fail => rfl
    | ub => rfl
    | ok keyP => exact files_still _ _ r t

theorem loop_still {ps : Nat} {pfx : Bytes} {idSize : Nat} {w : World} (fuel : Nat) : ∀ (t : Nat) (nid : Bytes) (gj : GJ),
    getLoopW ps pfx idSize (fun _ => w) fuel t nid gj = getLoop ps pfx idSize w fuel nid gj := by
  induction fuel with
  | zero => intro t nid gj; rfl
  | succ fuel ih =>
    intro t nid gj
    rw [getLoopW, getLoop, ← iter_still w.dir (some nid) (.ok gj) t]
    cases idxIter w.dir (some nid) (getjobIterW ps pfx idSize fun _ => w) (.ok gj, t) with
    | fail => rfl
    | ub => rfl
    | ok x =>
      obtain ⟨⟨r', t'⟩, i'⟩ := x
      simp only [Res.ok_bind, unclocked, ih]
      rfl

/-- C91: in an archive that does not change the reader is that of the other theorems. -/
theorem C91_still {ps : Nat} {pfx : Bytes} {idSize fuel : Nat} {w : World} {q : Bytes} :
    getjobNewW ps pfx idSize fuel (fun _ => w) q = getjobNew ps pfx idSize fuel w q := by
  unfold getjobNewW getjobNew
  cases idxValidId pfx idSize q with
  | error e => rfl
  | ok nid => exact loop_still _ _ _ _

/-! ### Looking for one segment -/

/-- The callbacks when at every moment some entry is taken, and all others are skipped or taken. -/
theorem deliver_while {ps : Nat} {pfx : Bytes} {idSize : Nat} {ws : Nat → World} {gj : GJ} (es : List Entry) : ∀ (c : Nat),
    (∃ e ∈ es, ∀ t, c ≤ t → verdict ps pfx idSize (ws t) gj e ≠ .ok .skip) →
    (∀ e ∈ es, ∀ t, c ≤ t → verdict ps pfx idSize (ws t) gj e = .ok .skip ∨ ∃ s, verdict ps pfx idSize (ws t) gj e = .ok (.take s)) →
    ∃ t ≥ c, ∃ e ∈ es, ∃ s c', c ≤ c' ∧ verdict ps pfx idSize (ws t) gj e = .ok (.take s) ∧
      Spec.deliver (getjobIterW ps pfx idSize ws) es (.ok gj, c) = ((.ok { gj with segs := gj.segs ++ [s] }, c'), 1) := by
  induction es with
  | nil => rintro c ⟨e, h, -⟩; cases h
  | cons e es ih =>
    intro c he ho
    rcases ho e (by simp) (c + 1) (by omega) with hs | ⟨s, hs⟩
    · obtain ⟨t, t0, e', t1, s, c', t2, t3, t4⟩ := ih (c + 1) (by
        obtain ⟨e', h1, h2⟩ := he
        rcases List.mem_cons.1 h1 with rfl | h1
        · exact absurd hs (h2 (c + 1) (by omega))
        · exact ⟨e', h1, fun t ht => h2 t (by omega)⟩) (fun x hx t ht => ho x (by simp [hx]) t (by omega))
      refine ⟨t, by omega, e', List.mem_cons_of_mem _ t1, s, c', by omega, t3, ?_⟩
      simp only [Spec.deliver, getjobIterW, getjobIter, hs, if_true]
      exact t4
    · exact ⟨c + 1, by omega, e, by simp, s, c + 1, by omega, hs, by simp [Spec.deliver, getjobIterW, getjobIter, hs]⟩

/-! ### The search for the segments -/

/-- The items have been found, each at some moment, and numbered from `n` on. -/
inductive GotWhile (ws : Nat → World) : Nat → List Item → List GSeg → Prop where
  | nil {n} : GotWhile ws n [] []
  | cons {n x g xs gs} (t : Nat) : GotItem (ws t) x n g → GotWhile ws (n + 1) xs gs → GotWhile ws n (x :: xs) (g :: gs)

/-- Silos only grow. -/
def Growing (ws : Nat → World) : Prop := ∀ t t', t ≤ t' → Grown (ws t).silos (ws t').silos

theorem getLoopW_chain {ps : Nat} {pfx : Bytes} {idSize : Nat} {ws : Nat → World} {A : Nat → List Item} {id : Bytes} (hid : id.length = idSize)
    (hg : Growing ws) (hA : ∀ t, ∀ x ∈ A t, x.At ps pfx (ws t).silos) (ys : List Item) : ∀ (fuel c n : Nat) (x : Item) (g : GSeg) (segs : List GSeg) (t0 : Nat),
    ys.length ≤ fuel → GotItem (ws t0) x n g → (∀ t, Linked pfx (A t) id n x ys) → (∀ t, OnlyChain pfx idSize (A t) id x ys) →
    (∀ t, FindsChain (ws t).dir (A t) x ys) → ys ≠ [] →
    ∃ gs, GotWhile ws (n + 1) ys gs ∧
      getLoopW ps pfx idSize ws fuel c g.cont { id := id, err := .notFound, segs := segs ++ [g] } =
        .ok (.job { id := id, err := .notFound, segs := segs ++ [g] ++ gs }) := by
  induction ys with
  | nil => intro _ _ _ _ _ _ _ _ _ _ _ _ h; exact absurd rfl h
  | cons y ys ih =>
    intro fuel c n x g segs t0 hf hgx hl ho hfc _
    obtain ⟨fuel, rfl⟩ : ∃ k, fuel = k + 1 := ⟨fuel - 1, by simp at hf; omega⟩
    obtain ⟨fx, prex, postx, x1, x2, x3, rfl⟩ := hgx
    obtain ⟨l1, l2, l3, l4, l5, l6, l7, ⟨oy, l8, l9⟩, l10⟩ := hl c
    obtain ⟨o1, -⟩ := ho c
    obtain ⟨⟨es, hes, hiter⟩, -⟩ := hfc c
    obtain ⟨-, oy', hoy, hoyl, -⟩ := o1 y l3 l2
    have hoo : oy = oy' := by
      unfold HasOrigin at l8 hoy
      rw [l8] at hoy
      have := Option.some.inj hoy
      simpa using this
    subst hoo
    have hn32 : n + 1 < 2 ^ 32 := l6
    have hv : ∀ t, c ≤ t → ∃ g, GotItem (ws t) y (n + 1) g ∧
        verdict ps pfx idSize (ws t) { id := id, err := .notFound, segs := segs ++ [gseg fx.data x n] } y.entry = .ok (.take g) := by
      intro t ht
      obtain ⟨fy, prey, posty, y1, y2, y3, -, y5⟩ := verdict_next (er := .notFound) (idSize := idSize) (id := id)
        (segs := segs ++ [gseg fx.data x n]) (last := gseg fx.data x n) (at_grown (hg c t ht) (hA c y l3)) (by simp) (by rw [l5]; intro h; cases h) l8 hoyl hid
      have hv := y5 l9 (n + 1) l7 hn32 (by simpa [gseg] using hn32)
      rw [if_pos (by simp [gseg])] at hv
      exact ⟨_, ⟨fy, prey, posty, y1, y2, y3, rfl⟩, hv⟩
    have hmem : y.entry ∈ es := (hes _).2 ⟨l2, y, l3, rfl⟩
    have hskip : ∀ e ∈ es, e ≠ y.entry → ∀ t, c ≤ t →
        verdict ps pfx idSize (ws t) { id := id, err := .notFound, segs := segs ++ [gseg fx.data x n] } e = .ok .skip := by
      intro e he hne t ht
      obtain ⟨m1, z, m2, rfl⟩ := (hes e).1 he
      obtain ⟨q1, o, q2, q3, q4⟩ := o1 z m2 m1
      obtain ⟨_, _, _, -, -, -, z4, -⟩ := verdict_next (er := .notFound) (idSize := idSize) (id := id)
        (segs := segs ++ [gseg fx.data x n]) (last := gseg fx.data x n) (at_grown (hg c t ht) (hA c z m2)) (by simp) q1 q2 q3 hid
      exact z4 (fun h => hne (q4 h))
    obtain ⟨t, ht, e, he, s, c', hc', hs, hdel⟩ := deliver_while (ps := ps) (pfx := pfx) (idSize := idSize) (ws := ws)
      (gj := { id := id, err := .notFound, segs := segs ++ [gseg fx.data x n] }) es c
      ⟨y.entry, hmem, fun t ht => by obtain ⟨g, -, h⟩ := hv t ht; rw [h]; intro h; cases h⟩
      (fun e he t ht => by
        by_cases hey : e = y.entry
        · obtain ⟨g, -, h⟩ := hv t ht
          exact .inr ⟨g, hey ▸ h⟩
        · exact .inl (hskip e he hey t ht))
    have hgot : GotItem (ws t) y (n + 1) s := by
      by_cases hey : e = y.entry
      · obtain ⟨g, g1, g2⟩ := hv t ht
        rw [hey, g2] at hs
        cases hs
        exact g1
      · rw [hskip e he hey t ht] at hs; cases hs
    obtain ⟨r, r1, r2, r3⟩ := hiter _ (getjobIterW ps pfx idSize ws) (.ok { id := id, err := .notFound, segs := segs ++ [gseg fx.data x n] }, c)
    rw [hdel] at r2 r3
    have hpos : ¬ r.2 ≤ 0 := by have := r3.2 (by simp); omega
    obtain ⟨fy, prey, posty, y1, y2, y3, rfl⟩ := hgot
    have hstep : getLoopW ps pfx idSize ws (fuel + 1) c (gseg fx.data x n).cont { id := id, err := .notFound, segs := segs ++ [gseg fx.data x n] } =
        if FlLast y.entry.flags then .ok (.job { id := id, err := .notFound, segs := segs ++ [gseg fx.data x n] ++ [gseg fy.data y (n + 1)] })
        else getLoopW ps pfx idSize ws fuel (c' + 1) (gseg fy.data y (n + 1)).cont { id := id, err := .notFound, segs := segs ++ [gseg fx.data x n] ++ [gseg fy.data y (n + 1)] } := by
      rw [getLoopW, show (gseg fx.data x n).cont = x.entry.cont from rfl, r1]
      simp only [Res.ok_bind, r2, if_neg hpos, List.getLast?_append, List.getLast?_singleton, Option.some_or]
      have e1 : isWarcinfo (gseg fy.data y (n + 1)).flag = false := (testBit_flag _ _).trans l5
      have e2 : isSegmented (gseg fy.data y (n + 1)).flag = true := (testBit_flag _ _).trans l4
      have e3 : isLastseg (gseg fy.data y (n + 1)).flag = FlLast y.entry.flags := testBit_flag _ _
      rw [e1, e2, e3]
      simp only [Bool.not_false, Res.check_true, Res.ok_bind, Bool.true_eq_false, if_false, Res.pure_eq]
    rw [hstep]
    have hgot : GotItem (ws t) y (n + 1) (gseg fy.data y (n + 1)) := ⟨fy, prey, posty, y1, y2, y3, rfl⟩
    cases ys with
    | nil =>
      have hlast : FlLast y.entry.flags = true := l10
      exact ⟨[gseg fy.data y (n + 1)], .cons t hgot .nil, by rw [if_pos hlast]⟩
    | cons z zs =>
      have hlast : FlLast y.entry.flags = false := l10.1
      obtain ⟨gs, g1, g2⟩ := ih fuel (c' + 1) (n + 1) y (gseg fy.data y (n + 1)) (segs ++ [gseg fx.data x n]) t (by simp at hf ⊢; omega) hgot
        (fun t => (hl t).2.2.2.2.2.2.2.2) (fun t => (ho t).2) (fun t => (hfc t).2) (by simp)
      refine ⟨gseg fy.data y (n + 1) :: gs, .cons t hgot g1, ?_⟩
      rw [hlast]
      simp only [Bool.false_eq_true, if_false]
      rw [g2]
      simp

theorem getjobNewW_object {ps : Nat} {pfx : Bytes} {idSize : Nat} {ws : Nat → World} {A : Nat → List Item} {id q : Bytes} {x : Item} {ys : List Item} {fuel : Nat}
    (hg : Growing ws) (hG : ∀ t, Gettable ps pfx idSize (ws t) (A t) id x ys) (hq : idxValidId pfx idSize q = .ok id) (hfuel : ys.length < fuel) :
    ∃ gs, GotWhile ws 1 (x :: ys) gs ∧ getjobNewW ps pfx idSize fuel ws q = .ok (.job { id := id, err := .notFound, segs := gs }) := by
  have hid : id.length = idSize := ((C11_valid_id pfx idSize q id).1 hq).2.2
  obtain ⟨h1, h2, h3, h4, h5⟩ := (hG 0).object
  obtain ⟨fuel, rfl⟩ : ∃ k, fuel = k + 1 := ⟨fuel - 1, by omega⟩
  obtain ⟨es, hes, hiter⟩ := (hG 0).find
  have hA := (hG 0).there
  have hv : ∀ t, 0 ≤ t → ∃ g, GotItem (ws t) x 1 g ∧ verdict ps pfx idSize (ws t) { id := id, err := .notFound, segs := [] } x.entry = .ok (.take g) := by
    intro t ht
    obtain ⟨fx, prex, postx, x1, x2, x3, x4⟩ := verdict_first (idSize := idSize) (id := id) (er := .notFound) (at_grown (hg 0 t ht) (hA x h1))
    refine ⟨_, ⟨fx, prex, postx, x1, x2, x3, rfl⟩, ?_⟩
    rw [x4]
    rw [if_neg (by simpa using h2), h4]
    rcases h5 with ⟨-, h5, -⟩ | ⟨-, -, h5, -⟩ <;> simp [h5]
  have hmem : x.entry ∈ es := (hes _).2 ⟨h3, x, h1, rfl⟩
  have hskip : ∀ e ∈ es, e ≠ x.entry → ∀ t, 0 ≤ t → verdict ps pfx idSize (ws t) { id := id, err := .notFound, segs := [] } e = .ok .skip := by
    intro e he hne t ht
    obtain ⟨m1, z, m2, rfl⟩ := (hes e).1 he
    obtain ⟨_, _, _, -, -, -, z4⟩ := verdict_first (idSize := idSize) (id := id) (er := .notFound) (at_grown (hg 0 t ht) (hA z m2))
    rw [z4, if_pos (fun h => hne ((hG 0).first z m2 m1 h))]
  obtain ⟨t, ht, e, he, s, c', hc', hs, hdel⟩ := deliver_while (ps := ps) (pfx := pfx) (idSize := idSize) (ws := ws)
    (gj := { id := id, err := .notFound, segs := [] }) es 0
    ⟨x.entry, hmem, fun t ht => by obtain ⟨g, -, h⟩ := hv t ht; rw [h]; intro h; cases h⟩
    (fun e he t ht => by
      by_cases hey : e = x.entry
      · obtain ⟨g, -, h⟩ := hv t ht
        exact .inr ⟨g, hey ▸ h⟩
      · exact .inl (hskip e he hey t ht))
  have hgot : GotItem (ws t) x 1 s := by
    by_cases hey : e = x.entry
    · obtain ⟨g, g1, g2⟩ := hv t ht
      rw [hey, g2] at hs
      cases hs
      exact g1
    · rw [hskip e he hey t ht] at hs; cases hs
  obtain ⟨r, r1, r2, r3⟩ := hiter _ (getjobIterW ps pfx idSize ws) (.ok { id := id, err := .notFound, segs := [] }, 0)
  rw [hdel] at r2 r3
  have hpos : ¬ r.2 ≤ 0 := by have := r3.2 (by simp); omega
  obtain ⟨fx, prex, postx, x1, x2, x3, rfl⟩ := hgot
  have hgot : GotItem (ws t) x 1 (gseg fx.data x 1) := ⟨fx, prex, postx, x1, x2, x3, rfl⟩
  have e1 : isWarcinfo (gseg fx.data x 1).flag = false := (testBit_flag _ _).trans h4
  have e2 : isSegmented (gseg fx.data x 1).flag = FlSegmented x.entry.flags := testBit_flag _ _
  have e3 : isLastseg (gseg fx.data x 1).flag = FlLast x.entry.flags := testBit_flag _ _
  have e4 : isFirstseg (gseg fx.data x 1).flag = FlFirst x.entry.flags := testBit_flag _ _
  rcases h5 with ⟨rfl, k1, k2, k3, k4⟩ | ⟨k0, k1, k2, k3⟩
  · refine ⟨[gseg fx.data x 1], .cons t hgot .nil, ?_⟩
    unfold getjobNewW
    rw [hq]
    simp only
    rw [getLoopW, r1]
    simp only [Res.ok_bind, r2, if_neg hpos, List.nil_append, List.getLast?_singleton]
    rw [e1, e2, k1]
    simp only [Bool.not_false, Res.check_true, Res.ok_bind, if_true, plainOk]
    rw [e3, e4, k2, k3, show (gseg fx.data x 1).cont = b!"00000000" from k4]
    simp
  · have hlast : FlLast x.entry.flags = false := by
      cases ys with
      | nil => exact absurd rfl k0
      | cons y ys => exact k3.1
    have hlink : ∀ t, Linked pfx (A t) id 1 x ys := by
      intro t
      rcases (hG t).object.2.2.2.2 with ⟨h, -⟩ | ⟨-, -, -, h⟩
      · exact absurd h k0
      · exact h
    obtain ⟨gs, g1, g2⟩ := getLoopW_chain hid hg (fun t => (hG t).there) ys fuel (c' + 1) 1 x (gseg fx.data x 1) [] t (by omega) hgot hlink (fun t => (hG t).chain)
      (fun t => (hG t).finds) k0
    refine ⟨gseg fx.data x 1 :: gs, .cons t hgot g1, ?_⟩
    unfold getjobNewW
    rw [hq]
    simp only
    rw [getLoopW, r1]
    simp only [Res.ok_bind, r2, if_neg hpos, List.nil_append, List.getLast?_singleton]
    rw [e1, e2, e3, k1, hlast]
    simp only [Bool.not_false, Res.check_true, Res.ok_bind, Bool.true_eq_false, Bool.false_eq_true, if_false]
    simpa using g2

/-! ### Reading -/

theorem iterPlain_while {σ : Type} {pfx : Bytes} {ws : Nat → World} {n : Nat} {xs : List Item} {gs : List GSeg} (hg : GotWhile ws n xs gs)
    (hc : ∀ x ∈ xs, x.record.Complete pfx x.hdr) (cut : Bytes → List Bytes) (f : ByteIter σ) : ∀ s : σ,
    iterPlain cut f gs s = (do
      let r ← Rsilo.deliver f (xs.flatMap (fun x => cut x.record.data)) s
      pure r.1) := by
  induction hg with
  | nil => intro s; rfl
  | cons t h1 h2 ih =>
    intro s
    obtain ⟨pre, post, e, -⟩ := gseg_file h1
    rename_i x g xs gs
    have hx := hc x (by simp)
    have hb := member_length hx.body
    rw [iterPlain, e, readChunk_rec hx, List.flatMap_cons, deliver_append]
    cases hd : Rsilo.deliver f (cut x.record.data) s with
    | fail => rfl
    | ub => rfl
    | ok r =>
      simp only [Res.ok_bind, Res.pure_eq]
      cases hr : r.2 with
      | true =>
        simp only [if_true]
        rw [if_neg (by omega), ih (fun x hx => hc x (by simp [hx]))]
        rfl
      | false => simp

theorem gotWhile_hdr {ws : Nat → World} {n : Nat} {xs : List Item} {gs : List GSeg} (hg : GotWhile ws n xs gs) : gs.map (·.hdr) = xs.map (·.hdr) := by
  induction hg with
  | nil => rfl
  | cons t h _ ih =>
    obtain ⟨_, _, _, e, _⟩ := gseg_file h
    simp [e, ih]

/-- C91: an object can be got while the archive changes between any two things that the reader does, as long as silos only grow and the object can be
looked up at every moment. -/
theorem C91_changing_partial {ps : Nat} {pfx : Bytes} {idSize : Nat} {ws : Nat → World} {A : Nat → List Item} {id q : Bytes} {x : Item} {ys : List Item} {fuel : Nat}
    (hg : Growing ws) (hG : ∀ t, Gettable ps pfx idSize (ws t) (A t) id x ys) (hq : idxValidId pfx idSize q = .ok id) (hfuel : ys.length < fuel) :
    ∃ gj, getjobNewW ps pfx idSize fuel ws q = .ok (.job gj) ∧ gj.segs.map (·.hdr) = (x :: ys).map (·.hdr) ∧
      ∀ cut : Bytes → List Bytes, (∀ b, (cut b).flatten = b) →
        getjobIterate ps cut gj collect [] false = .ok ((x :: ys).map (·.record.data)).flatten := by
  obtain ⟨gs, g1, g2⟩ := getjobNewW_object hg hG hq hfuel
  have hc : ∀ y ∈ x :: ys, y.record.Complete pfx y.hdr := fun y hy => ((hG 0).there y (object_mem (hG 0).object y hy)).2.1
  refine ⟨_, g2, gotWhile_hdr g1, ?_⟩
  intro cut hcut
  unfold getjobIterate
  rw [if_pos rfl]
  simp only
  rw [iterPlain_while g1 hc, deliver_collectFn]
  simp only [Res.ok_bind, Res.pure_eq, List.nil_append]
  congr 1
  induction x :: ys with
  | nil => rfl
  | cons y ys ih => rw [List.flatMap_cons, List.flatten_append, hcut, ih]; rfl

/-! ### While others store -/

/-- What the reader finds while processes store: `sts t` is their state after `t` accesses of the reader, and `ws t` the archive. -/
structure WhileStoring (env : Env) (jobs : Nat → Commit.Job) (ks : Nat → Storing) (w : World) (ops : List IdxOp) (A : List Item) (s : St) (sts : Nat → St) (ws : Nat → World) : Prop where
  after : ∀ t, AfterRun env jobs ks w (ws t) ops A s (sts t)
  first : ∃ as, Commit.run env.max jobs s as = some (sts 0)
  next : ∀ t, ∃ as, Commit.run env.max jobs (sts t) as = some (sts (t + 1))

theorem run_then_run {max : Nat} {jobs : Nat → Commit.Job} (as bs : List Act) : ∀ {s s' s'' : St}, Commit.run max jobs s as = some s' → Commit.run max jobs s' bs = some s'' →
    Commit.run max jobs s (as ++ bs) = some s'' := by
  induction as with
  | nil => intro s s' s'' h k; cases h; exact k
  | cons a as ih =>
    intro s s' s'' h k
    rw [List.cons_append]
    unfold Commit.run at h ⊢
    cases hs : Commit.step max jobs s a with
    | none => rw [hs] at h; cases h
    | some x => rw [hs] at h; exact ih h k

theorem WhileStoring.runs {env : Env} {jobs : Nat → Commit.Job} {ks : Nat → Storing} {w : World} {ops : List IdxOp} {A : List Item} {s : St} {sts : Nat → St} {ws : Nat → World}
    (h : WhileStoring env jobs ks w ops A s sts ws) (t k : Nat) : ∃ as, Commit.run env.max jobs (sts t) as = some (sts (t + k)) := by
  induction k with
  | zero => exact ⟨[], rfl⟩
  | succ k ih =>
    obtain ⟨as, h1⟩ := ih
    obtain ⟨bs, h2⟩ := h.next (t + k)
    exact ⟨as ++ bs, run_then_run as bs h1 h2⟩

theorem WhileStoring.growing {env : Env} {jobs : Nat → Commit.Job} {ks : Nat → Storing} {w : World} {ops : List IdxOp} {A : List Item} {s : St} {sts : Nat → St} {ws : Nat → World}
    (h : WhileStoring env jobs ks w ops A s sts ws) : Growing ws := by
  intro t t' ht
  obtain ⟨k, rfl⟩ : ∃ k, t' = t + k := ⟨t' - t, by omega⟩
  obtain ⟨as, h1⟩ := h.runs t k
  rw [(h.after t).silos', (h.after (t + k)).silos']
  exact run_grown as h1

/-- C91: an object that is stored can be got while any number of processes store others: between any two accesses of the reader to the index or to a
record they may do anything, and be killed.  At every moment all records that the search comes upon have to be stored completely, and must not clash. -/
theorem C91_get_partial {env : Env} (he : EnvOk env) {jobs : Nat → Commit.Job} {ks : Nat → Storing} {w : World} {ops : List IdxOp} {A : List Item} {s : St} {sts : Nat → St}
    {ws : Nat → World} (hw : WhileStoring env jobs ks w ops A s sts ws)
    {id : Bytes} {x : Item} {ys : List Item} (hid : ∀ c ∈ id, isHex c = true) (hl : id.length = env.idSize)
    (ho : IsObject env.pfx (recordsOf ks A (sts 0).idx) id x ys) (hc : ∀ t, Clear env (ws t) (recordsOf ks A (sts t).idx) id x ys)
    (hothers : ∀ t, ∀ e ∈ (sts t).idx, near id x ys ((ks e.proc).ins e).entry = true → e.kind = .app ∨ (sts t).procs[e.proc]? = some .done)
    {q : Bytes} (hq : idxValidId env.pfx env.idSize q = .ok id) {fuel : Nat} (hf : ys.length < fuel) :
    ∃ gj, getjobNewW env.ps env.pfx env.idSize fuel ws q = .ok (.job gj) ∧ gj.segs.map (·.hdr) = (x :: ys).map (·.hdr) ∧
      ∀ cut : Bytes → List Bytes, (∀ b, (cut b).flatten = b) → getjobIterate env.ps cut gj collect [] false = .ok ((x :: ys).map (·.record.data)).flatten := by
  refine C91_changing_partial hw.growing (fun t => ?_) hq hf (A := fun t => (recordsOf ks A (sts t).idx).filter fun z => near id x ys z.entry)
  obtain ⟨as, h1⟩ := hw.first
  obtain ⟨bs, h2⟩ := hw.runs 0 t
  rw [Nat.zero_add] at h2
  refine afterRun_gettable he (hw.after t) (as ++ bs) (run_then_run as bs h1 h2) hid hl (object_mono (fun z hz => ?_) ho) (hc t) (hothers t)
  obtain ⟨more, hm⟩ := (C26_never_changed bs h2).2
  rw [← hm]
  unfold recordsOf at hz ⊢
  rw [List.map_append, ← List.append_assoc]
  exact List.mem_append_left _ hz

/-- C91, objects that are not segmented, when other processes have stored or are storing the same one: what is needed is that, when the reader looks at
the index, the records with the ID are stored completely. -/
theorem C91_plain_partial {env : Env} (he : EnvOk env) {jobs : Nat → Commit.Job} {ks : Nat → Storing} {w : World} {ops : List IdxOp} {A : List Item} {s : St} {sts : Nat → St}
    {ws : Nat → World} (hw : WhileStoring env jobs ks w ops A s sts ws)
    (as : List Act) (h : Commit.run env.max jobs s as = some (sts 0)) {p : Nat} (hp : (sts 0).procs[p]? = some .done) (hd : .drop p ∉ as)
    (hid : ∀ c ∈ (ks p).id, isHex c = true) (hl : (ks p).id.length = env.idSize)
    (hothers : ∀ e ∈ (sts 0).idx, Matches (ks p).id ((ks e.proc).ins e).entry = true → e.kind = .app ∨ (sts 0).procs[e.proc]? = some .done)
    (hsame : ∀ x ∈ recordsOf ks A (sts 0).idx, Matches (ks p).id x.entry = true → SameId x.hdr.id (ks p).id → PlainItem x ∧ x.record.data = (ks p).own.data)
    (hseek : ∀ F, (ws 0).dir.sorted = some F → SeekSafe F (ks p).id)
    {q : Bytes} (hq : idxValidId env.pfx env.idSize q = .ok (ks p).id) (fuel : Nat) :
    ∃ gj, getjobNewW env.ps env.pfx env.idSize (fuel + 1) ws q = .ok (.job gj) ∧
      ∀ cut : Bytes → List Bytes, (∀ b, (cut b).flatten = b) → getjobIterate env.ps cut gj collect [] false = .ok (ks p).own.data := by
  have ha := hw.after 0
  obtain ⟨e, -, e1, e2, e3, -⟩ := C89_once ha.start as h hp hd
  have ok := ha.stores p
  have hmem : (ks p).item e ∈ recordsOf ks A (sts 0).idx :=
    List.mem_append_right _ (List.mem_map.2 ⟨e, e1, by rw [e2]⟩)
  have hent : ((ks p).item e).entry.key = padKey 24 (ks p).id ∧ ((ks p).item e).hdr.id = (ks p).id := by
    unfold Storing.item Storing.ins
    cases hk : e.kind with
    | app => exact ⟨rfl, ok.appId⟩
    | obj => exact ⟨rfl, ok.ownId⟩
    | info => exact absurd hk e3
  have hm : Matches (ks p).id ((ks p).item e).entry = true := by
    unfold Matches
    rw [hent.1]
    exact pad_prefix
  have hA := afterRun_at ha h (P := fun y => Matches (ks p).id y = true) hothers
  have hfind := afterRun_finds ha (fun h0 => by rw [h0] at hmem; cases hmem) hid (by have := he.idSize; omega) hseek
  generalize (ks p).id = id at *
  generalize hitem : (ks p).item e = x0 at *
  obtain ⟨es, hes, hiter⟩ := hfind
  have hv : ∀ z ∈ recordsOf ks A (sts 0).idx, Matches id z.entry = true → ∀ t, 0 ≤ t →
      ¬ SameId z.hdr.id id ∧ verdict env.ps env.pfx env.idSize (ws t) { id := id, err := .notFound, segs := [] } z.entry = .ok .skip ∨
      SameId z.hdr.id id ∧ ∃ g, GotItem (ws t) z 1 g ∧ verdict env.ps env.pfx env.idSize (ws t) { id := id, err := .notFound, segs := [] } z.entry = .ok (.take g) := by
    intro z hz hm t ht
    obtain ⟨f, pre, post, z1, z2, z3, z4⟩ := verdict_first (idSize := env.idSize) (id := id) (er := .notFound) (at_grown (hw.growing 0 t ht) (hA z hz hm))
    by_cases hs : SameId z.hdr.id id
    · obtain ⟨⟨p1, p2, -⟩, -⟩ := hsame z hz hm hs
      refine .inr ⟨hs, gseg f.data z 1, ⟨f, pre, post, z1, z2, z3, rfl⟩, ?_⟩
      rw [z4, if_neg (by simpa using hs), p1, p2]
      simp
    · exact .inl ⟨hs, by rw [z4, if_pos hs]⟩
  obtain ⟨t, ht, e', he', g, c', hc', hs, hdel⟩ := deliver_while (ps := env.ps) (pfx := env.pfx) (idSize := env.idSize) (ws := ws)
    (gj := { id := id, err := .notFound, segs := [] }) es 0
    ⟨x0.entry, (hes _).2 ⟨hm, x0, hmem, rfl⟩, fun t ht => by
      rcases hv x0 hmem hm t ht with ⟨h, -⟩ | ⟨-, g, -, h⟩
      · exact absurd (by rw [hent.2]; rfl) h
      · rw [h]; intro h; cases h⟩
    (fun e he t ht => by
      obtain ⟨m1, z, m2, rfl⟩ := (hes e).1 he
      rcases hv z m2 m1 t ht with ⟨-, h⟩ | ⟨-, g, -, h⟩
      · exact .inl h
      · exact .inr ⟨g, h⟩)
  obtain ⟨m1, x, m2, rfl⟩ := (hes e').1 he'
  rcases hv x m2 m1 t ht with ⟨-, h'⟩ | ⟨hsx, g', hg, h'⟩
  · rw [h'] at hs; cases hs
  rw [h'] at hs
  cases hs
  obtain ⟨r, r1, r2, r3⟩ := hiter _ (getjobIterW env.ps env.pfx env.idSize ws) (.ok { id := id, err := .notFound, segs := [] }, 0)
  rw [hdel] at r2 r3
  have hpos : ¬ r.2 ≤ 0 := by have := r3.2 (by simp); omega
  obtain ⟨⟨p1, p2, p3, p4, p5⟩, hdata⟩ := hsame x m2 m1 hsx
  obtain ⟨f, pre, post, x1, x2, x3, rfl⟩ := hg
  have e1 : isWarcinfo (gseg f.data x 1).flag = false := (testBit_flag _ _).trans p1
  have e2 : isSegmented (gseg f.data x 1).flag = false := (testBit_flag _ _).trans p2
  have e3 : isLastseg (gseg f.data x 1).flag = false := (testBit_flag _ _).trans p4
  have e4 : isFirstseg (gseg f.data x 1).flag = false := (testBit_flag _ _).trans p3
  refine ⟨{ id := id, err := .notFound, segs := [gseg f.data x 1] }, ?_, fun cut hcut => ?_⟩
  · unfold getjobNewW
    rw [hq]
    simp only
    rw [getLoopW, r1]
    simp only [Res.ok_bind, r2, if_neg hpos, List.nil_append, List.getLast?_singleton]
    rw [e1, e2]
    simp only [Bool.not_false, Res.check_true, Res.ok_bind, if_true, plainOk]
    rw [e3, e4, show (gseg f.data x 1).cont = b!"00000000" from p5]
    simp
  · have hgs : GotWhile ws 1 [x] [gseg f.data x 1] := .cons t ⟨f, pre, post, x1, x2, x3, rfl⟩ .nil
    have hc : ∀ y ∈ [x], y.record.Complete env.pfx y.hdr := by
      intro y hy
      rw [List.mem_singleton] at hy
      rw [hy]
      exact (hA x m2 m1).2.1
    unfold getjobIterate
    rw [if_pos rfl]
    simp only
    rw [iterPlain_while hgs hc, deliver_collectFn]
    simp only [Res.ok_bind, Res.pure_eq, List.nil_append, List.flatMap_cons, List.flatMap_nil, List.append_nil, hcut, hdata]

/-! Process 0 has stored its object when the reader looks at the index; by the time the reader opens the record, process 1 has put the same object into
the index, and has no silo yet. -/

def whileFirst : List Act := concBegin ++ [.go 0, .go 0, .go 0, .go 0]
def whileThen : List Act := whileFirst ++ [.go 1]
def whileWorlds (t : Nat) : World := concWorld (if t = 0 then whileFirst else whileThen)

theorem whileFirst_end : (concEnd whileFirst).idx = [⟨0, .obj, 0, (concJob.info 0).length⟩, ⟨0, .info, 0, 0⟩] ∧ (concEnd whileFirst).procs[0]? = some .done := ⟨rfl, rfl⟩
theorem whileThen_end : (concEnd whileThen).idx = [⟨0, .obj, 0, (concJob.info 0).length⟩, ⟨0, .info, 0, 0⟩, ⟨1, .obj, 1, (concJob.info 1).length⟩] ∧
    (concEnd whileThen).procs[1]? = some (.install 1) := ⟨rfl, rfl⟩

set_option maxRecDepth 1000000 in
theorem while_dir : runOps {} ((concEnd whileFirst).idx.map fun e => .insert (concStores.ins e)) = .ok (concWorld whileFirst).dir ∧
    runOps {} ((concEnd whileThen).idx.map fun e => .insert (concStores.ins e)) = .ok (concWorld whileThen).dir ∧ (concWorld whileFirst).dir.sorted = none := by
  decide +kernel

set_option maxRecDepth 1000000 in
theorem while_valid : (∀ o ∈ (concEnd whileFirst).idx.map fun e => IdxOp.insert (concStores.ins e), o.Valid) ∧
    ∀ o ∈ (concEnd whileThen).idx.map fun e => IdxOp.insert (concStores.ins e), o.Valid := by
  rw [whileFirst_end.1, whileThen_end.1]
  constructor <;> intro o ho <;> simp only [List.map_cons, List.map_nil, List.mem_cons, List.not_mem_nil, or_false] at ho
  · rcases ho with rfl | rfl <;>
      exact ⟨by decide +kernel, by decide +kernel, by decide +kernel, by decide +kernel, fun k hk => by cases hk⟩
  · rcases ho with rfl | rfl | rfl <;>
      exact ⟨by decide +kernel, by decide +kernel, by decide +kernel, by decide +kernel, fun k hk => by cases hk⟩

theorem whileStoring_example : WhileStoring (Example.env 100000) (fun _ => concJob) (fun _ => concStores) emptyWorld [] [] (Commit.init 2)
    (fun t => concEnd (if t = 0 then whileFirst else whileThen)) whileWorlds where
  after t := by
    cases t with
    | zero => exact {
        before := ⟨rfl, fun o ho => (by cases ho), rfl, fun x hx => (by cases hx), fun x hx => (by cases hx)⟩
        start := start_init 2
        silos := rfl
        silos' := rfl
        index := ⟨_, while_dir.1, while_valid.1, by
          show inserts ((concEnd whileFirst).idx.map fun e => IdxOp.insert (concStores.ins e)) = (concEnd whileFirst).idx.map _
          rw [whileFirst_end.1]; rfl⟩
        few := by
          show (recordsOf _ _ (concEnd whileFirst).idx).length < _
          unfold recordsOf; rw [whileFirst_end.1]; decide
        stores := fun _ => concStores_ok }
    | succ t => exact {
        before := ⟨rfl, fun o ho => (by cases ho), rfl, fun x hx => (by cases hx), fun x hx => (by cases hx)⟩
        start := start_init 2
        silos := rfl
        silos' := rfl
        index := ⟨_, while_dir.2.1, while_valid.2, by
          show inserts ((concEnd whileThen).idx.map fun e => IdxOp.insert (concStores.ins e)) = (concEnd whileThen).idx.map _
          rw [whileThen_end.1]; rfl⟩
        few := by
          show (recordsOf _ _ (concEnd whileThen).idx).length < _
          unfold recordsOf; rw [whileThen_end.1]; decide
        stores := fun _ => concStores_ok }
  first := ⟨whileFirst, rfl⟩
  next t := by
    cases t with
    | zero => exact ⟨[.go 1], rfl⟩
    | succ t => exact ⟨[], rfl⟩

example : ∃ gj, getjobNewW 4096 b!"x/" 24 1 whileWorlds exX.id = .ok (.job gj) ∧
    getjobIterate 4096 (fun b => [b]) gj collect [] false = .ok b!"ab" := by
  obtain ⟨gj, h1, h2⟩ := C91_plain_partial (example_envOk 100000 (by decide)) whileStoring_example whileFirst rfl (p := 0) whileFirst_end.2 (by decide)
    (show ∀ c ∈ exX.id, isHex c = true by decide) rfl
    (by
      show ∀ e ∈ (concEnd whileFirst).idx, _ → _ ∨ (concEnd whileFirst).procs[e.proc]? = _
      intro e he _
      rw [whileFirst_end.1] at he
      simp only [List.mem_cons, List.not_mem_nil, or_false] at he
      rcases he with rfl | rfl <;> exact .inr whileFirst_end.2)
    (by
      show ∀ x ∈ recordsOf _ _ (concEnd whileFirst).idx, _
      unfold recordsOf
      rw [whileFirst_end.1]
      intro x hx
      simp only [List.nil_append, List.map_cons, List.map_nil, List.mem_cons, List.not_mem_nil, or_false] at hx
      rcases hx with rfl | rfl <;> intro hm _
      · exact ⟨⟨by decide, by decide, by decide, by decide, by decide⟩, rfl⟩
      · exact absurd hm (by decide))
    (by
      show ∀ F, (concWorld whileFirst).dir.sorted = some F → _
      intro F hF; rw [while_dir.2.2] at hF; cases hF) (q := exX.id) (by decide) 0
  exact ⟨gj, h1, h2 (fun b => [b]) (by simp)⟩

set_option maxRecDepth 1000000 in
/-- C91 is false without the condition on the others.  If the reader looks at the index when the entry of process 1 is there and opens the record before
its silo is, it ends in an assertion failure; if it opens the record later, it gets the object. -/
theorem C91_counterexample_pending :
    getjobNewW 4096 b!"x/" 24 1 (fun _ => concWorld concOne) exX.id = .fail ∧
    (match getjobNewW 4096 b!"x/" 24 1 (fun t => concWorld (if t = 0 then concOne else concBoth)) exX.id with
      | .ok (.job gj) => decide (getjobIterate 4096 (fun b => [b]) gj collect [] false = .ok b!"ab")
      | _ => false) = true := by
  decide +kernel

end Verif.Props
