/-
Storing with failing calls: it is a store in an archive with other hold files, or a store that is cut off.
-/
import Verif.Model.StoreErr
import Verif.Proofs.Crash

namespace Verif.Props
open Verif Header Gzip Ident Index Wsilo Segjob Getjob Spec Inflate Crash StoreErr
open _root_.Verif.Commit (upd Silo)

/-! ### The archive with other hold files and write protection -/

/-- The same archive; the silos in `T` are made writable, and there are hold files for those in `X`. -/
def disguise (T X : Nat → Bool) (w : World) : World :=
  { w with
    silos := fun n => if T n then (w.silos n).map fun f => { f with writable := true } else w.silos n,
    holds := fun n => w.holds n || X n }

theorem disguise_data (T X : Nat → Bool) (w : World) (n : Nat) : ((disguise T X w).silos n).map (·.data) = (w.silos n).map (·.data) := by
  unfold disguise
  simp only
  split
  · cases w.silos n <;> rfl
  · rfl

theorem disguise_some (T X : Nat → Bool) (w : World) (n : Nat) : ((disguise T X w).silos n).isSome = (w.silos n).isSome := by
  have := disguise_data T X w n
  cases h : w.silos n <;> cases h' : (disguise T X w).silos n <;> rw [h, h'] at this <;> first | rfl | cases this

theorem wsiloNext_congr {silo hold silo' hold' : Nat → Bool} (h : ∀ n, (silo' n = true ∨ hold' n = true) ↔ (silo n = true ∨ hold n = true)) (fuel : Nat) :
    ∀ n, Cache.wsiloNext silo' hold' fuel n = Cache.wsiloNext silo hold fuel n := by
  induction fuel with
  | zero => intro n; rfl
  | succ fuel ih =>
    intro n
    simp only [Cache.wsiloNext, h n, ih]

/-- `X` has only silos that are there. -/
def Within (X : Nat → Bool) (w : World) : Prop := ∀ n, X n = true → (w.silos n).isSome = true

theorem next_disguise {T X : Nat → Bool} {env : Env} {fuel : Nat} {w w' : World} {sl : Sl} (hX : Within X w) (e : wsiloNextW env fuel w = .ok (w', sl)) :
    wsiloNextW env fuel (disguise T X w) = .ok (disguise T X w', sl) ∧ w'.silos = w.silos ∧ w'.dir = w.dir := by
  unfold wsiloNextW at e ⊢
  have hn := wsiloNext_congr (silo := fun n => (w.silos n).isSome) (hold := w.holds) (silo' := fun n => ((disguise T X w).silos n).isSome)
    (hold' := (disguise T X w).holds) (fun n => by
      rw [disguise_some]
      show _ ∨ (w.holds n || X n) = true ↔ _
      rw [Bool.or_eq_true]
      constructor
      · rintro (h | h | h)
        · exact .inl h
        · exact .inr h
        · exact .inl (hX n h)
      · rintro (h | h)
        · exact .inl h
        · exact .inr (.inl h)) fuel
  simp only at e ⊢
  rw [show (disguise T X w).cacheFile = w.cacheFile from rfl, show (disguise T X w).cache = w.cache from rfl, hn]
  split at e
  · cases e
  · rename_i n hn
    rw [Res.check_bind_eq_ok] at e ⊢
    obtain ⟨e1, e⟩ := e
    rw [Res.bind_eq_ok] at e
    obtain ⟨s, e2, e3⟩ := e
    simp only [Res.pure_eq, Res.ok.injEq, Prod.mk.injEq] at e3
    obtain ⟨rfl, rfl⟩ := e3
    refine ⟨⟨e1, ?_⟩, rfl, rfl⟩
    rw [e2]
    simp only [Res.ok_bind, Res.pure_eq, Res.ok.injEq, Prod.mk.injEq, and_true]
    unfold disguise
    simp only [World.mk.injEq, true_and, and_true]
    funext m
    unfold upd
    split <;> simp

theorem curSeg_disguise {σ : Type} {T X : Nat → Bool} {env : Env} {fuel : Nat} {D : Deflater σ} {w : World} {sj : Job σ} {r : World × Cur σ} (hX : Within X w)
    (e : curSeg env fuel D w sj = .ok r) :
    curSeg env fuel D (disguise T X w) sj = .ok (disguise T X r.1, r.2) ∧ r.1.silos = w.silos ∧ r.1.dir = w.dir := by
  unfold curSeg at e ⊢
  split at e
  · cases e
    exact ⟨rfl, rfl, rfl⟩
  · unfold newseg at e ⊢
    simp only [Res.bind_eq_ok] at e
    obtain ⟨h, e1, ⟨w1, sl⟩, e2, sl2, e3, e4⟩ := e
    simp only [Res.pure_eq, Res.ok.injEq] at e4
    obtain ⟨d1, d2, d3⟩ := next_disguise (T := T) hX e2
    subst e4
    simp only at e3 d2 d3
    refine ⟨?_, d2, d3⟩
    simp only [e1, Res.ok_bind, d1, e3, Res.pure_eq]

theorem feedLoop_disguise {σ : Type} {T X : Nat → Bool} {env : Env} {D : Deflater σ} (fuel : Nat) : ∀ {w w' : World} {sj sj' : Job σ} {ip : Bytes}, Within X w →
    feedLoop env D fuel w sj ip = .ok (w', sj') → feedLoop env D fuel (disguise T X w) sj ip = .ok (disguise T X w', sj') ∧ w'.silos = w.silos ∧ w'.dir = w.dir := by
  induction fuel with
  | zero => intro w w' sj sj' ip _ h; cases h
  | succ fuel ih =>
    intro w w' sj sj' ip hX h
    rw [Segjob.feedLoop] at h ⊢
    simp only [Res.bind_eq_ok] at h
    obtain ⟨⟨w1, c⟩, h1, space, h2, h3⟩ := h
    obtain ⟨c1, c2, c3⟩ := curSeg_disguise (T := T) hX h1
    simp only at h2 h3 c1 c2 c3
    have hX1 : Within X w1 := fun n hn => by rw [c2]; exact hX n hn
    rw [c1]
    simp only [Res.ok_bind]
    rw [h2]
    simp only [Res.ok_bind]
    split at h3
    · rename_i hb
      rw [if_pos hb]
      simp only [Res.bind_eq_ok] at h3
      obtain ⟨s, h4, h5⟩ := h3
      rw [h4]
      simp only [Res.ok_bind]
      split at h5
      · rename_i hi
        rw [if_pos hi]
        simp only [Res.pure_eq, Res.ok.injEq, Prod.mk.injEq] at h5
        obtain ⟨rfl, rfl⟩ := h5
        exact ⟨rfl, c2, c3⟩
      · rename_i hi
        rw [if_neg hi]
        obtain ⟨a1, a2, a3⟩ := ih hX1 h5
        exact ⟨a1, a2.trans c2, a3.trans c3⟩
    · rename_i hb
      rw [if_neg hb]
      simp only [Res.bind_eq_ok] at h3
      obtain ⟨m, h4, z, h5, h6⟩ := h3
      rw [h4]
      simp only [Res.ok_bind]
      rw [h5]
      simp only [Res.ok_bind]
      split at h6
      · rename_i hi
        rw [if_pos hi]
        obtain ⟨a1, a2, a3⟩ := ih hX1 h6
        exact ⟨a1, a2.trans c2, a3.trans c3⟩
      · rename_i hi
        rw [if_neg hi]
        simp only [Res.pure_eq, Res.ok.injEq, Prod.mk.injEq] at h6
        obtain ⟨rfl, rfl⟩ := h6
        exact ⟨rfl, c2, c3⟩

theorem feedAll_disguise {σ : Type} {T X : Nat → Bool} {env : Env} {D : Deflater σ} {fuel : Nat} (cs : List Bytes) : ∀ {w w' : World} {sj sj' : Job σ}, Within X w →
    feedAll env D fuel cs w sj = .ok (w', sj') → feedAll env D fuel cs (disguise T X w) sj = .ok (disguise T X w', sj') ∧ w'.silos = w.silos ∧ w'.dir = w.dir := by
  induction cs with
  | nil =>
    intro w w' sj sj' _ h
    simp only [feedAll, Res.ok.injEq, Prod.mk.injEq] at h
    obtain ⟨rfl, rfl⟩ := h
    exact ⟨rfl, rfl, rfl⟩
  | cons c cs ih =>
    intro w w' sj sj' hX h
    rw [feedAll] at h ⊢
    simp only [Res.bind_eq_ok] at h
    obtain ⟨⟨w1, sj1⟩, h1, h2⟩ := h
    obtain ⟨a1, a2, a3⟩ := feedLoop_disguise (T := T) _ hX h1
    obtain ⟨b1, b2, b3⟩ := ih (w := w1) (fun n hn => by rw [a2]; exact hX n hn) h2
    rw [a1]
    exact ⟨b1, b2.trans a2, b3.trans a3⟩

/-! ### Looking up depends on the contents of the silos only -/

theorem openRec_data {ps : Nat} {pfx : Bytes} {w w' : World} (hs : ∀ n, (w'.silos n).map (·.data) = (w.silos n).map (·.data)) : openRec ps pfx w' = openRec ps pfx w := by
  funext silo off
  unfold openRec
  have := hs silo
  cases h : w.silos silo <;> cases h' : w'.silos silo <;> rw [h, h'] at this
  · cases this
  · cases this
  · simp only [Option.map_some, Option.some.injEq] at this
    simp only [this]

theorem getjobNew_data {ps : Nat} {pfx : Bytes} {idSize fuel : Nat} {w w' : World} (hs : ∀ n, (w'.silos n).map (·.data) = (w.silos n).map (·.data)) (hd : w'.dir = w.dir)
    (id : Bytes) : getjobNew ps pfx idSize fuel w' id = getjobNew ps pfx idSize fuel w id := by
  have hi : getjobIter ps pfx idSize w' = getjobIter ps pfx idSize w := by
    funext r e
    cases r with
    | ok gj =>
      unfold getjobIter verdict
      rw [openRec_data hs]
    | fail => rfl
    | ub => rfl
  have hl : ∀ fuel nid gj, getLoop ps pfx idSize w' fuel nid gj = getLoop ps pfx idSize w fuel nid gj := by
    intro fuel
    induction fuel with
    | zero => intro _ _; rfl
    | succ fuel ih =>
      intro nid gj
      simp only [getLoop, hi, hd, ih]
  unfold getjobNew
  split
  · rfl
  · exact hl fuel _ _

/-! ### Committing -/

/-- The same but for the cache numbers. -/
def Same (w u : World) : Prop := u.silos = w.silos ∧ u.dir = w.dir ∧ u.holds = w.holds

theorem Same.refl (w : World) : Same w w := ⟨rfl, rfl, rfl⟩

theorem Same.trans {w u v : World} (h : Same w u) (h' : Same u v) : Same w v := ⟨h'.1.trans h.1, h'.2.1.trans h.2.1, h'.2.2.trans h.2.2⟩

theorem Same.symm {w u : World} (h : Same w u) : Same u w := ⟨h.1.symm, h.2.1.symm, h.2.2.symm⟩

theorem same_disguise {T X : Nat → Bool} {w u : World} (h : Same w u) : Same (disguise T X w) (disguise T X u) := by
  unfold disguise
  exact ⟨by simp only [h.1], h.2.1, by simp only [h.2.2]⟩

theorem same_put (f : CacheW) (w : World) (c : Cache.Cache) : Same w (putCacheErr f w c) := by
  unfold putCacheErr
  split <;> exact ⟨rfl, rfl, rfl⟩

theorem same_putCache (w : World) (c : Cache.Cache) : Same w (putCache w c) := by
  unfold putCache
  split <;> exact ⟨rfl, rfl, rfl⟩

/-- The failures after which the next silo is tried. -/
def isSkip : App → Bool
  | .stat | .hold | .silo => true
  | _ => false

/-- The silos that are passed over because of a failing call, and those whose write protection is not seen for that reason. -/
def passed (F : Fails) (w : World) (n : Nat) : Bool := isSkip (F.app n) && (w.silos n).isSome
def unseen (F : Fails) (n : Nat) : Bool := decide (F.app n = .stat)

theorem passed_within (F : Fails) (w : World) : Within (passed F w) w := by
  intro n h
  unfold passed at h
  rw [Bool.and_eq_true] at h
  exact h.2

theorem passed_congr {F : Fails} {w w' : World} (h : w'.silos = w.silos) : passed F w' = passed F w := by
  funext n
  unfold passed
  rw [h]

theorem insertErr_fine {f : IdxW} {d d' : Dir} {key : Bytes} {flags silo off : Nat} {cont : Option Bytes} (e : insertErr f d key flags silo off cont = .ok (d', true)) :
    idxInsert d key flags silo off cont = .ok d' := by
  cases f with
  | fine =>
    simp only [insertErr, Res.bind_eq_ok, Res.pure_eq, Res.ok.injEq, Prod.mk.injEq, and_true] at e
    obtain ⟨x, e1, rfl⟩ := e
    exact e1
  | noOpen => simp [insertErr] at e
  | torn k =>
    simp only [insertErr, Res.bind_eq_ok, Res.pure_eq, Res.ok.injEq, Prod.mk.injEq] at e
    obtain ⟨x, -, -, e⟩ := e
    cases e

/-- What an attempt comes to, in terms of an attempt without failing calls in the archive with other hold files. -/
theorem attempt_like {env : Env} {F : Fails} {w w' : World} {sl : Sl} {sn : Nat} {hz id : Bytes} {r : Ret} (e : attemptErr env F w sl sn hz id = .ok (w', r))
    (hr : r ≠ .stop) {X : Nat → Bool} (hX : X = passed F w) {v : World} (hv : Same (disguise (unseen F) X w) v) :
    ∃ v', attemptAppend env v sl sn hz id = .ok (v', if r = .done then 1 else if r = .protect then -1 else 0) ∧ Same (disguise (unseen F) X w') v' ∧
      (r ≠ .done → Same w w') ∧ ∀ n, w.silos n = none ↔ w'.silos n = none := by
  obtain ⟨v1, v2, v3⟩ := hv
  have hskip : ∀ u : World, Same w u → ∃ v', (Res.ok (v, 0) : Res (World × Int)) = .ok (v', 0) ∧ Same (disguise (unseen F) X u) v' ∧
      ((Ret.skip ≠ .done) → Same w u) ∧ ∀ n, w.silos n = none ↔ u.silos n = none :=
    fun u hu => ⟨v, rfl, (same_disguise hu).symm.trans ⟨v1, v2, v3⟩, fun _ => hu, fun n => by rw [hu.1]⟩
  unfold attemptErr at e
  unfold attemptAppend
  cases hs : w.silos sn with
  | none =>
    have hvs : v.silos sn = none := by
      rw [v1]
      unfold disguise
      simp only [hs, Option.map_none, ite_self]
    rw [hs] at e
    rw [hvs]
    have : (w, Ret.skip) = (w', r) := by
      split at e <;> exact Res.ok.inj e
    cases this
    exact hskip w (Same.refl w)
  | some f =>
    rw [hs] at e
    by_cases hst : F.app sn = .stat
    · rw [if_pos hst] at e
      cases e
      have hvs : v.silos sn = some { f with writable := true } := by
        rw [v1]
        unfold disguise unseen
        simp only [hs, hst, decide_true, if_true, Option.map_some]
      have hvh : v.holds sn = true := by
        rw [v3, hX]
        unfold disguise passed
        simp only [hst, hs, isSkip, Option.isSome_some, Bool.and_self, Bool.or_true]
      rw [hvs]
      simp only [reduceCtorEq, if_false]
      have h1 := same_putCache v (Cache.bumpNon sn v.cache)
      have h2 := h1.trans (same_putCache (putCache v (Cache.bumpNon sn v.cache)) (Cache.bumpSpace env.max f.data.length sn (putCache v (Cache.bumpNon sn v.cache)).cache))
      have hfin : Same (disguise (unseen F) X w) (putCache (putCache v (Cache.bumpNon sn v.cache)) (Cache.bumpSpace env.max f.data.length sn (putCache v (Cache.bumpNon sn v.cache)).cache)) :=
        Same.trans ⟨v1, v2, v3⟩ h2
      split
      · exact ⟨_, rfl, hfin, fun _ => Same.refl w, by simp⟩
      · unfold appendTo
        rw [if_pos (by rw [h2.2.2]; exact hvh)]
        exact ⟨_, rfl, hfin, fun _ => Same.refl w, by simp⟩
    · rw [if_neg hst] at e
      simp only at e
      have hvs : v.silos sn = some f := by
        rw [v1]
        unfold disguise unseen
        simp only [hs, hst, decide_false, Bool.false_eq_true, if_false]
      rw [hvs]
      simp only
      generalize hw1 : putCacheErr (F.cache (2 * sn)) w (Cache.bumpNon sn w.cache) = w1 at e
      have s1 : Same w w1 := hw1 ▸ same_put _ _ _
      generalize hu1 : putCache v (Cache.bumpNon sn v.cache) = u1
      have t1 : Same v u1 := hu1 ▸ same_putCache _ _
      by_cases hwr : f.writable = false
      · rw [if_pos hwr] at e ⊢
        cases e
        exact ⟨u1, rfl, Same.trans ((same_disguise s1).symm.trans ⟨v1, v2, v3⟩) t1, fun _ => s1, fun n => by rw [s1.1]⟩
      · rw [if_neg hwr] at e ⊢
        generalize hw2 : putCacheErr (F.cache (2 * sn + 1)) w1 (Cache.bumpSpace env.max f.data.length sn w1.cache) = w2 at e
        have s2 : Same w w2 := s1.trans (hw2 ▸ same_put _ _ _)
        generalize hu2 : putCache u1 (Cache.bumpSpace env.max f.data.length sn u1.cache) = u2
        have t2 : Same v u2 := t1.trans (hu2 ▸ same_putCache _ _)
        have hfin : Same (disguise (unseen F) X w2) u2 := Same.trans ((same_disguise s2).symm.trans ⟨v1, v2, v3⟩) t2
        by_cases hroom : f.data.length + (hz.length + sl.tail.length) > env.max
        · rw [if_pos hroom] at e ⊢
          cases e
          exact ⟨u2, rfl, hfin, fun _ => s2, fun n => by rw [s2.1]⟩
        · rw [if_neg hroom] at e ⊢
          unfold appendErr at e
          have huh : u2.holds sn = (w.holds sn || isSkip (F.app sn)) := by
            rw [t2.2.2, v3, hX]
            unfold disguise passed
            simp only [hs, Option.isSome_some, Bool.and_true]
          by_cases hh : w2.holds sn = true ∨ F.app sn = .hold ∨ F.app sn = .silo
          · rw [if_pos hh] at e
            cases e
            unfold appendTo
            rw [if_pos]
            · exact ⟨u2, rfl, hfin, fun _ => s2, fun n => by rw [s2.1]⟩
            · rw [huh, Bool.or_eq_true]
              rcases hh with h | h | h
              · left; rw [← s2.2.2]; exact h
              · right; rw [h]; rfl
              · right; rw [h]; rfl
          · rw [if_neg hh] at e
            have hidx : appendIdx (F.app sn) w2 sl sn f hz id = .ok (w', r) := by
              split at e
              · cases e
                exact absurd rfl hr
              · exact e
            have hns : isSkip (F.app sn) = false := by
              cases ha : F.app sn with
              | stat => exact absurd ha hst
              | hold => exact absurd (.inr (.inl ha)) hh
              | silo => exact absurd (.inr (.inr ha)) hh
              | _ => rfl
            have hwh : w2.holds sn = false := by
              cases h : w2.holds sn with
              | false => rfl
              | true => exact absurd (.inl h) hh
            unfold appendIdx at hidx
            rw [Res.check_bind_eq_ok] at hidx
            obtain ⟨c1, hidx⟩ := hidx
            rw [Res.bind_eq_ok] at hidx
            obtain ⟨⟨d, b⟩, c2, hidx⟩ := hidx
            simp only at hidx
            split at hidx
            · simp only [Res.pure_eq, Res.ok.injEq, Prod.mk.injEq] at hidx
              exact absurd hidx.2.symm hr
            · rename_i hb
              simp only [Res.pure_eq, Res.ok.injEq, Prod.mk.injEq] at hidx
              obtain ⟨rfl, rfl⟩ := hidx
              have hbt : b = true := by
                cases b with
                | true => rfl
                | false => exact absurd (.inl rfl) hb
              subst hbt
              have c3 := insertErr_fine c2
              unfold appendTo
              rw [if_neg (by rw [huh, ← s2.2.2, hwh, hns]; simp)]
              rw [hfin.2.1]
              have hdd : (disguise (unseen F) X w2).dir = w2.dir := rfl
              rw [hdd, c1, c3]
              refine ⟨_, rfl, ⟨?_, rfl, hfin.2.2⟩, fun h => absurd rfl h, fun n => ?_⟩
              · simp only [hfin.1]
                funext m
                unfold disguise upd
                simp only
                by_cases hm : m = sn
                · subst hm
                  have : f.writable = true := by simpa using hwr
                  simp only [if_true, Option.map_some]
                  split
                  · rw [← this]
                  · rfl
                · simp only [hm, if_false]
              · simp only [upd, s2.1]
                split
                · rename_i hn; rw [hn, hs]; simp
                · rfl

theorem loop_like {env : Env} {F : Fails} {sl : Sl} {hz id : Bytes} (k : Nat) : ∀ {sn : Nat} {w w' : World} {r : Ret}, loopErr env F sl hz id k sn w = .ok (w', r) →
    r ≠ .stop → ∀ {X : Nat → Bool}, X = passed F w → ∀ {v : World}, Same (disguise (unseen F) X w) v →
    ∃ v', appendLoop env sl hz id k sn v = .ok (v', decide (r = .done)) ∧ Same (disguise (unseen F) X w') v' ∧
      (r ≠ .done → Same w w') ∧ ∀ n, w.silos n = none ↔ w'.silos n = none := by
  induction k with
  | zero =>
    intro sn w w' r e hr X hX v hv
    simp only [loopErr, Res.ok.injEq, Prod.mk.injEq] at e
    obtain ⟨rfl, rfl⟩ := e
    exact ⟨v, rfl, hv, fun _ => Same.refl w, fun _ => Iff.rfl⟩
  | succ k ih =>
    intro sn w w' r e hr X hX v hv
    rw [loopErr, Res.bind_eq_ok] at e
    obtain ⟨⟨w1, r1⟩, e1, e2⟩ := e
    simp only at e2
    by_cases hs : r1 = .skip
    · rw [if_pos hs] at e2
      subst hs
      obtain ⟨v1, a1, a2, a3, a4⟩ := attempt_like e1 (by simp) hX hv
      have s1 := a3 (by simp)
      obtain ⟨v2, b1, b2, b3, b4⟩ := ih e2 hr (X := X) (by rw [hX, passed_congr s1.1]) a2
      refine ⟨v2, ?_, b2, fun h => s1.trans (b3 h), fun n => (a4 n).trans (b4 n)⟩
      simp only [reduceCtorEq, if_false] at a1
      rw [appendLoop, a1]
      simp only [Res.ok_bind]
      exact b1
    · rw [if_neg hs] at e2
      simp only [Res.pure_eq, Res.ok.injEq, Prod.mk.injEq] at e2
      obtain ⟨rfl, rfl⟩ := e2
      obtain ⟨v1, a1, a2, a3, a4⟩ := attempt_like e1 hr hX hv
      refine ⟨v1, ?_, a2, a3, a4⟩
      rw [appendLoop, a1]
      cases r1 with
      | skip => exact absurd rfl hs
      | protect => rfl
      | done => rfl
      | stop => exact absurd rfl hr

theorem install_like {env : Env} {F : Fails} {w w' : World} {sl : Sl} {segd : Bool} {id : Bytes} {rid : Option Bytes}
    (e : installErr env F w sl segd id rid = .ok (w', true)) {T X : Nat → Bool} (hX : X sl.no = false) {v : World} (hv : Same (disguise T X w) v) :
    ∃ v', install env v sl segd id rid = .ok v' ∧ Same (disguise T X w') v' ∧ ∀ n, w.silos n ≠ none → w'.silos n ≠ none := by
  unfold installErr at e
  simp only [Res.bind_eq_ok] at e
  obtain ⟨file, e1, fl, e2, e⟩ := e
  by_cases hh : F.hdr = true
  · rw [if_pos hh] at e; cases e
  · rw [if_neg hh, Res.bind_eq_ok] at e
    obtain ⟨⟨d1, b1⟩, e3, e⟩ := e
    simp only at e
    by_cases hb1 : b1 = false
    · rw [if_pos hb1] at e; cases e
    · rw [if_neg hb1, Res.bind_eq_ok] at e
      obtain ⟨⟨d2, b2⟩, e4, e⟩ := e
      simp only at e
      by_cases hb2 : b2 = false
      · rw [if_pos hb2] at e; cases e
      · rw [if_neg hb2] at e
        have hb1 : b1 = true := by simpa using hb1
        have hb2 : b2 = true := by simpa using hb2
        subst hb1 hb2
        have f3 := insertErr_fine e3
        have f4 := insertErr_fine e4
        simp only [Res.pure_eq, Res.ok.injEq] at e
        unfold linkErr at e
        simp only at e
        by_cases hl : F.link = true ∨ w.silos sl.no ≠ none
        · rw [if_pos hl] at e; cases e
        · rw [if_neg hl] at e
          have hno : w.silos sl.no = none := by
            cases h : w.silos sl.no with
            | none => rfl
            | some f => exact absurd (.inr (by rw [h]; simp)) hl
          by_cases hu : F.unlink = true
          · rw [if_pos hu] at e; cases e
          · rw [if_neg hu] at e
            simp only [Prod.mk.injEq, and_true] at e
            obtain ⟨v1, v2, v3⟩ := hv
            have hvd : v.dir = w.dir := v2
            have hvn : v.silos sl.no = none := by
              rw [v1]
              unfold disguise
              simp only [hno, Option.map_none, ite_self]
            unfold install
            simp only [e1, Res.ok_bind, e2, hvd, f3, f4, Res.check_bind_eq_ok, hvn, decide_true, Res.check_true, Res.pure_eq]
            refine ⟨_, rfl, ?_, ?_⟩
            · subst e
              have hg : ∀ (f : CacheW) (c c' : Cache.Cache) (a b : World), Same (disguise T X a) b →
                  Same (disguise T X (abandon (putCacheErr f a c) sl)) (abandon (putCache b c') sl) := by
                intro f c c' a b hab
                obtain ⟨p1, p2, p3⟩ := (same_disguise (T := T) (X := X) (same_put f a c)).symm.trans (hab.trans (same_putCache b c'))
                refine ⟨p1, p2, ?_⟩
                show upd (putCache b c').holds sl.no false = fun n => upd (putCacheErr f a c).holds sl.no false n || X n
                rw [p3]
                funext n
                unfold upd disguise
                simp only
                split
                · rename_i hn; rw [hn, hX]; rfl
                · rfl
              refine hg _ _ _ _ _ ⟨?_, rfl, v3⟩
              show upd v.silos sl.no _ = _
              rw [v1]
              funext n
              unfold upd disguise
              simp only
              split <;> split <;> rfl
            · subst e
              intro n hn
              show (putCacheErr _ _ _).silos n ≠ none
              rw [(same_put _ _ _).1]
              simp only [upd]
              split
              · simp
              · exact hn

/-- `Wsilo_Commit` that returns in spite of failing calls is one in an archive with other hold files. -/
theorem commit_like {env : Env} {F : Fails} {w w' : World} {sl : Sl} {id : Bytes} (e : commitErr env F w sl false id none = .ok (w', true))
    (hno : w.silos sl.no = none) {v : World} (hv : v = disguise (unseen F) (passed F w) w) :
    ∃ v', wsiloCommit env v sl false id none = .ok v' ∧ Same (disguise (unseen F) (passed F w) w') v' ∧ ∀ n, w.silos n ≠ none → w'.silos n ≠ none := by
  have hX : passed F w sl.no = false := by unfold passed; rw [hno]; simp
  have hv0 : Same (disguise (unseen F) (passed F w) w) v := by rw [hv]; exact Same.refl _
  unfold commitErr at e
  unfold wsiloCommit
  by_cases h0 : false = false ∧ 0 < sl.no
  · rw [if_pos h0] at e ⊢
    simp only at e ⊢
    rw [Res.bind_eq_ok] at e
    obtain ⟨⟨w1, r⟩, e1, e2⟩ := e
    simp only at e2
    by_cases hst : r = .stop
    · subst hst; cases e2
    · obtain ⟨v1, a1, a2, a3, a4⟩ := loop_like _ e1 hst rfl hv0
      have hc : v.cache = w.cache := by rw [hv]; rfl
      rw [hc, a1]
      simp only [Res.ok_bind]
      by_cases hd : r = .done
      · subst hd
        simp only [decide_true, if_true]
        simp only at e2
        split at e2
        · cases e2
        · simp only [Res.pure_eq, Res.ok.injEq, Prod.mk.injEq, and_true] at e2
          subst e2
          refine ⟨_, rfl, ⟨a2.1, a2.2.1, ?_⟩, fun n hn h => hn ((a4 n).2 h)⟩
          show upd v1.holds sl.no false = fun n => upd w1.holds sl.no false n || passed F w n
          rw [a2.2.2]
          funext n
          unfold upd disguise
          simp only
          split
          · rename_i hn; rw [hn, hX]; rfl
          · rfl
      · have e3 : installErr env F w1 sl false id none = .ok (w', true) := by
          cases r with
          | stop => exact absurd rfl hst
          | done => exact absurd rfl hd
          | skip => exact e2
          | protect => exact e2
        obtain ⟨v2, b1, b2, b3⟩ := install_like e3 hX a2
        simp only [hd, decide_false, Bool.false_eq_true, if_false]
        exact ⟨v2, b1, b2, fun n hn => b3 n (fun h => hn ((a4 n).2 h))⟩
  · rw [if_neg h0] at e ⊢
    exact install_like e hX hv0

/-- For a segment there is no attempt to append. -/
theorem commit_seg_like {env : Env} {F : Fails} {w w' : World} {sl : Sl} {id : Bytes} {rid : Option Bytes} (e : commitErr env F w sl true id rid = .ok (w', true))
    {v : World} (hv : Same w v) : ∃ v', wsiloCommit env v sl true id rid = .ok v' ∧ Same w' v' := by
  have hd : ∀ u : World, Same (disguise (fun _ => false) (fun _ => false) u) u := by
    intro u
    unfold disguise
    exact ⟨by simp, rfl, by simp⟩
  unfold commitErr at e
  rw [if_neg (by simp)] at e
  obtain ⟨v', a1, a2, -⟩ := install_like (T := fun _ => false) (X := fun _ => false) e rfl ((hd w).trans hv)
  refine ⟨v', ?_, (hd w').symm.trans a2⟩
  unfold wsiloCommit
  rw [if_neg (by simp)]
  exact a1

theorem segs_like {env : Env} {fid : Bytes} {size : Nat} {F : Nat → Fails} (ss : List Seg) : ∀ {k : Nat} {w w' v : World}, segsErr env fid size F k ss w = .ok (w', true) →
    Same w v → ∃ v', commitSegs env fid size ss v = .ok v' ∧ Same w' v' := by
  induction ss with
  | nil =>
    intro k w w' v e hv
    simp only [segsErr, Res.ok.injEq, Prod.mk.injEq, and_true] at e
    subst e
    exact ⟨v, rfl, hv⟩
  | cons s ss ih =>
    intro k w w' v e hv
    rw [segsErr] at e
    simp only [Res.bind_eq_ok] at e
    obtain ⟨h1, e1, h2, e2, ⟨w1, b⟩, e3, e4⟩ := e
    simp only at e4
    cases b with
    | false => cases e4
    | true =>
      obtain ⟨v1, a1, a2⟩ := commit_seg_like e3 hv
      obtain ⟨v2, b1, b2⟩ := ih e4 a2
      refine ⟨v2, ?_, b2⟩
      rw [commitSegs]
      simp only [e1, e2, Res.ok_bind, a1]
      exact b1

theorem disguise_none (w : World) : disguise (fun _ => false) (fun _ => false) w = w := by
  unfold disguise
  simp

theorem destroy_disguise {T X : Nat → Bool} (ss : List Seg) (hX : ∀ s ∈ ss, X s.silo.no = false) : ∀ w : World, destroy (disguise T X w) ss = disguise T X (destroy w ss) := by
  induction ss with
  | nil => intro w; rfl
  | cons s ss ih =>
    intro w
    have hs : abandon (disguise T X w) s.silo = disguise T X (abandon w s.silo) := by
      unfold abandon disguise
      simp only [World.mk.injEq, true_and, and_true]
      funext n
      unfold upd
      split
      · rename_i hn; rw [hn, hX s (by simp)]; rfl
      · rfl
    unfold destroy at ih ⊢
    rw [List.foldl_cons, List.foldl_cons, hs, ih (fun t ht => hX t (by simp [ht]))]

/-- A job that returns an ID in spite of failing calls is one in an archive with other hold files. -/
theorem job_like {σ : Type} {env : Env} {F : Nat → Fails} {fuel : Nat} {w w' : World} {sj : Job σ} {uri : Bytes} (e : jobErr env F fuel w sj = .ok (w', some uri))
    (hno : ∀ s ∈ sj.segs, w.silos s.silo.no = none) :
    ∃ T X v', Within X w ∧ commitJob env fuel (disguise T X w) sj = .ok (v', uri) ∧ Same (disguise T X w') v' ∧ ∀ n, X n = true → w'.silos n ≠ none := by
  unfold jobErr at e
  rw [Res.check_bind_eq_ok] at e
  obtain ⟨e0, e⟩ := e
  unfold commitJob
  simp only [Res.check_bind_eq_ok]
  cases hs : sj.segs with
  | nil => rw [hs] at e; cases e
  | cons s ss =>
    rw [hs] at e hno
    simp only [Res.bind_eq_ok] at e
    obtain ⟨s', e1, id, e2, g, e3, e4⟩ := e
    have hno' : s'.silo.no = s.silo.no := by
      split at e1
      · cases e1; rfl
      · unfold firstId at e1
        simp only [Res.bind_eq_ok, Res.pure_eq, Res.ok.injEq] at e1
        obtain ⟨_, _, _, _, rfl⟩ := e1
        rfl
    simp only [e1, e2, Res.ok_bind]
    have hg : ∀ T X, getjobNew env.ps env.pfx env.idSize fuel (disguise T X w) s'.hdr.id = .ok g := by
      intro T X
      rw [getjobNew_data (disguise_data T X w) rfl, e3]
    cases g with
    | job gj =>
      simp only [Res.pure_eq, Res.ok.injEq, Prod.mk.injEq, Option.some.injEq] at e4
      obtain ⟨rfl, rfl⟩ := e4
      refine ⟨fun _ => false, fun _ => false, destroy w (s' :: ss), fun n h => (by cases h), ⟨e0, ?_⟩, ?_, fun n h => (by cases h)⟩
      · rw [hg]
        simp only [Res.ok_bind, Res.pure_eq, disguise_none]
      · rw [disguise_none]
        exact Same.refl _
    | error x =>
      simp only [Res.bind_eq_ok, Res.pure_eq, Res.ok.injEq, Prod.mk.injEq] at e4
      obtain ⟨⟨w1, b⟩, e5, rfl, e6⟩ := e4
      simp only at e6
      cases b with
      | false => cases e6
      | true =>
        simp only [if_true, Option.some.injEq] at e6
        subst e6
        by_cases hss : ss = []
        · rw [if_pos hss] at e5
          have hn : w.silos s'.silo.no = none := by rw [hno']; exact hno s (by simp)
          obtain ⟨v', a1, a2, a3⟩ := commit_like e5 hn rfl
          refine ⟨_, _, v', passed_within (F 0) w, ⟨e0, ?_⟩, a2, fun n hn => a3 n (fun h => ?_)⟩
          · rw [hg]
            simp only [Res.ok_bind, if_pos hss, a1, Res.pure_eq]
          · have := passed_within (F 0) w n hn
            rw [h] at this
            cases this
        · rw [if_neg hss] at e5
          obtain ⟨v', a1, a2⟩ := segs_like _ e5 (Same.refl w)
          refine ⟨fun _ => false, fun _ => false, v', fun n h => (by cases h), ⟨e0, ?_⟩, ?_, fun n h => (by cases h)⟩
          · rw [hg]
            simp only [Res.ok_bind, if_neg hss, disguise_none, a1, Res.pure_eq]
          · rw [disguise_none]
            exact a2

/-! ### Cut off -/

/-- No index entry is written in part. -/
def WholeEntry : IdxW → Prop
  | .torn _ => False
  | _ => True

def WholeFails (F : Fails) : Prop := WholeEntry F.idx ∧ WholeEntry F.info ∧ ∀ n x, F.app n = .idx x → WholeEntry x

/-- The same, but for hold files of silos that are there. -/
def Near (w u : World) : Prop := u.silos = w.silos ∧ u.dir = w.dir ∧ ∀ n, w.silos n = none → u.holds n = w.holds n

theorem near_of_same {w u : World} (h : Same w u) : Near w u := ⟨h.1, h.2.1, fun n _ => by rw [h.2.2]⟩

theorem attempt_cut {env : Env} {F : Fails} (hF : WholeFails F) {w w' : World} {sl : Sl} {sn : Nat} {id : Bytes} {r : Ret}
    (e : attemptErr env F w sl sn (env.pack9 (headerSerialize env.pfx sl.hd)) id = .ok (w', r)) (hsn : sn < sl.no) (hr : r = .stop ∨ r = .done) {u : World} (hu : Same w u) :
    ∃ a u', commitCut env u sl false id none a = .ok u' ∧ Near u' w' := by
  unfold attemptErr at e
  by_cases hst : F.app sn = .stat
  · rw [if_pos hst] at e
    cases e
    rcases hr with h | h <;> cases h
  · rw [if_neg hst] at e
    cases hs : w.silos sn with
    | none =>
      rw [hs] at e
      cases e
      rcases hr with h | h <;> cases h
    | some f =>
      rw [hs] at e
      simp only at e
      generalize hw1 : putCacheErr (F.cache (2 * sn)) w (Cache.bumpNon sn w.cache) = w1 at e
      have s1 : Same w w1 := hw1 ▸ same_put _ _ _
      by_cases hwr : f.writable = false
      · rw [if_pos hwr] at e
        cases e
        rcases hr with h | h <;> cases h
      · rw [if_neg hwr] at e
        have hwr : f.writable = true := by simpa using hwr
        generalize hw2 : putCacheErr (F.cache (2 * sn + 1)) w1 (Cache.bumpSpace env.max f.data.length sn w1.cache) = w2 at e
        have s2 : Same w w2 := s1.trans (hw2 ▸ same_put _ _ _)
        by_cases hroom : f.data.length + ((env.pack9 (headerSerialize env.pfx sl.hd)).length + sl.tail.length) > env.max
        · rw [if_pos hroom] at e
          cases e
          rcases hr with h | h <;> cases h
        · rw [if_neg hroom] at e
          unfold appendErr at e
          by_cases hh : w2.holds sn = true ∨ F.app sn = .hold ∨ F.app sn = .silo
          · rw [if_pos hh] at e
            cases e
            rcases hr with h | h <;> cases h
          · rw [if_neg hh] at e
            have hwh : w2.holds sn = false := by
              cases h : w2.holds sn with
              | false => rfl
              | true => exact absurd (.inl h) hh
            have huw : Same w2 u := s2.symm.trans hu
            have hus : u.silos sn = some f := by rw [hu.1, hs]
            have huh : u.holds sn = false := by rw [huw.2.2, hwh]
            have hwriting : ∀ k, writing env u sl sn k = .ok (f, { u with
                silos := upd u.silos sn (some { f with data := f.data ++ (env.pack9 (headerSerialize env.pfx sl.hd) ++ sl.tail).take k }), holds := upd u.holds sn true }) := by
              intro k
              unfold writing
              rw [hus]
              simp only [hsn, hwr, huh, decide_true, Res.check_true, Res.ok_bind, Nat.le_of_not_lt hroom, Res.pure_eq]
            split at e
            · rename_i k hk
              cases e
              refine ⟨.writing sn k, _, by simp only [commitCut, decide_true, Res.check_true, Res.ok_bind, hwriting, Res.pure_eq]; rfl, near_of_same ⟨?_, ?_, ?_⟩⟩
              · simp only [huw.1]
              · exact huw.2.1.symm
              · simp only [huw.2.2]
            · unfold appendIdx at e
              rw [Res.check_bind_eq_ok] at e
              obtain ⟨-, e⟩ := e
              rw [Res.bind_eq_ok] at e
              obtain ⟨⟨d, b⟩, c2, e⟩ := e
              simp only at e
              cases b with
              | false =>
                rw [if_pos (.inl rfl)] at e
                simp only [Res.pure_eq, Res.ok.injEq, Prod.mk.injEq] at e
                obtain ⟨rfl, -⟩ := e
                have hd : d = w2.dir := by
                  split at c2
                  · rename_i x hx
                    have := hF.2.2 sn x hx
                    cases x with
                    | fine =>
                      simp only [insertErr, Res.bind_eq_ok, Res.pure_eq, Res.ok.injEq, Prod.mk.injEq] at c2
                      obtain ⟨_, _, _, c2⟩ := c2
                      cases c2
                    | noOpen => simp only [insertErr, Res.ok.injEq, Prod.mk.injEq, and_true] at c2; exact c2.symm
                    | torn k => exact this.elim
                  · simp only [insertErr, Res.bind_eq_ok, Res.pure_eq, Res.ok.injEq, Prod.mk.injEq] at c2
                    obtain ⟨_, _, _, c2⟩ := c2
                    cases c2
                refine ⟨.writing sn (env.pack9 (headerSerialize env.pfx sl.hd) ++ sl.tail).length, _,
                  by simp only [commitCut, decide_true, Res.check_true, Res.ok_bind, hwriting, Res.pure_eq]; rfl, near_of_same ⟨?_, ?_, ?_⟩⟩
                · simp only [huw.1, List.take_length]
                · rw [hd]; exact huw.2.1.symm
                · simp only [huw.2.2]
              | true =>
                have c3 := insertErr_fine c2
                refine ⟨.appended sn, { u with
                  silos := upd u.silos sn (some { f with data := f.data ++ (env.pack9 (headerSerialize env.pfx sl.hd) ++ sl.tail) }), holds := upd u.holds sn true, dir := d }, ?_, ?_⟩
                · simp only [commitCut, decide_true, Res.check_true, Res.ok_bind, appended, hwriting, List.take_length]
                  rw [huw.2.1, c3]
                  rfl
                · split at e
                  · simp only [Res.pure_eq, Res.ok.injEq, Prod.mk.injEq] at e
                    obtain ⟨rfl, -⟩ := e
                    exact near_of_same ⟨by simp only [huw.1], rfl, by simp only [huw.2.2]⟩
                  · simp only [Res.pure_eq, Res.ok.injEq, Prod.mk.injEq] at e
                    obtain ⟨rfl, -⟩ := e
                    refine ⟨by simp only [huw.1], rfl, fun n hn => ?_⟩
                    simp only [upd] at hn ⊢
                    split
                    · rename_i h; rw [if_pos h] at hn; cases hn
                    · rw [huw.2.2]

theorem loop_cut {env : Env} {F : Fails} (hF : WholeFails F) {sl : Sl} {id : Bytes} (k : Nat) : ∀ {sn : Nat} {w w' : World} {r : Ret},
    loopErr env F sl (env.pack9 (headerSerialize env.pfx sl.hd)) id k sn w = .ok (w', r) → k = 0 ∨ sn + k ≤ sl.no → r = .stop ∨ r = .done → ∀ {u : World}, Same w u →
    ∃ a u', commitCut env u sl false id none a = .ok u' ∧ Near u' w' := by
  induction k with
  | zero =>
    intro sn w w' r e _ hr u hu
    cases e
    rcases hr with h | h <;> cases h
  | succ k ih =>
    intro sn w w' r e hk hr u hu
    rw [loopErr, Res.bind_eq_ok] at e
    obtain ⟨⟨w1, r1⟩, e1, e2⟩ := e
    simp only at e2
    by_cases hs : r1 = .skip
    · rw [if_pos hs] at e2
      subst hs
      obtain ⟨v1, a1, a2, a3, a4⟩ := attempt_like e1 (by simp) rfl (Same.refl _)
      exact ih e2 (by omega) hr ((a3 (by simp)).symm.trans hu)
    · rw [if_neg hs] at e2
      simp only [Res.pure_eq, Res.ok.injEq, Prod.mk.injEq] at e2
      obtain ⟨rfl, rfl⟩ := e2
      exact attempt_cut hF e1 (by omega) hr hu

theorem insertErr_not {f : IdxW} (hf : WholeEntry f) {d d' : Dir} {key : Bytes} {flags silo off : Nat} {cont : Option Bytes} (e : insertErr f d key flags silo off cont = .ok (d', false)) :
    d' = d := by
  cases f with
  | fine =>
    simp only [insertErr, Res.bind_eq_ok, Res.pure_eq, Res.ok.injEq, Prod.mk.injEq] at e
    obtain ⟨_, _, _, e⟩ := e
    cases e
  | noOpen => simp only [insertErr, Res.ok.injEq, Prod.mk.injEq, and_true] at e; exact e.symm
  | torn k => exact hf.elim

theorem install_cut {env : Env} {F : Fails} (hF : WholeFails F) {w w' : World} {sl : Sl} {segd : Bool} {id : Bytes} {rid : Option Bytes}
    (e : installErr env F w sl segd id rid = .ok (w', false)) {u : World} (hu : Same w u) :
    ∃ a u', commitCut env u sl segd id rid a = .ok u' ∧ Near u' w' := by
  unfold installErr at e
  simp only [Res.bind_eq_ok] at e
  obtain ⟨file, e1, fl, e2, e⟩ := e
  by_cases hh : F.hdr = true
  · rw [if_pos hh] at e
    simp only [Res.pure_eq, Res.ok.injEq, Prod.mk.injEq, and_true] at e
    subst e
    exact ⟨.start, u, rfl, near_of_same hu.symm⟩
  · rw [if_neg hh, Res.bind_eq_ok] at e
    obtain ⟨⟨d1, b1⟩, e3, e⟩ := e
    simp only at e
    cases b1 with
    | false =>
      simp only [if_true, Res.pure_eq, Res.ok.injEq, Prod.mk.injEq, and_true] at e
      subst e
      refine ⟨.start, u, rfl, near_of_same ⟨hu.1.symm, ?_, hu.2.2.symm⟩⟩
      simp only [insertErr_not hF.1 e3]
      exact hu.2.1.symm
    | true =>
      have f3 := insertErr_fine e3
      rw [if_neg (by simp), Res.bind_eq_ok] at e
      obtain ⟨⟨d2, b2⟩, e4, e⟩ := e
      simp only at e
      have hentry : entry env u sl segd id rid = .ok (file, { u with dir := d1 }) := by
        unfold entry
        simp only [e1, e2, Res.ok_bind, hu.2.1, f3, Res.pure_eq]
      cases b2 with
      | false =>
        simp only [if_true, Res.pure_eq, Res.ok.injEq, Prod.mk.injEq, and_true] at e
        subst e
        refine ⟨.entry, { u with dir := d1 }, by simp only [commitCut, hentry, Res.ok_bind, Res.pure_eq], near_of_same ⟨hu.1.symm, ?_, hu.2.2.symm⟩⟩
        exact insertErr_not hF.2.1 e4
      | true =>
        have f4 := insertErr_fine e4
        have hentries : entries env u sl segd id rid = .ok (file, { u with dir := d2 }) := by
          unfold entries
          simp only [hentry, Res.ok_bind, f4, Res.pure_eq]
        rw [if_neg (by simp)] at e
        simp only [Res.pure_eq, Res.ok.injEq] at e
        unfold linkErr at e
        simp only at e
        by_cases hl : F.link = true ∨ w.silos sl.no ≠ none
        · rw [if_pos hl] at e
          simp only [Prod.mk.injEq, and_true] at e
          subst e
          exact ⟨.entries, { u with dir := d2 }, by simp only [commitCut, hentries, Res.ok_bind, Res.pure_eq], near_of_same ⟨hu.1.symm, rfl, hu.2.2.symm⟩⟩
        · rw [if_neg hl] at e
          have hno : w.silos sl.no = none := by
            cases h : w.silos sl.no with
            | none => rfl
            | some f => exact absurd (.inr (by rw [h]; simp)) hl
          split at e
          · simp only [Prod.mk.injEq, and_true] at e
            subst e
            refine ⟨.linked, { u with dir := d2, silos := upd u.silos sl.no (some { data := file, writable := true }) }, ?_, ?_⟩
            · simp only [commitCut, linked, hentries, Res.ok_bind, hu.1, hno, decide_true, Res.check_true, Res.pure_eq]
            · refine near_of_same (Same.trans ?_ (same_put _ _ _))
              exact ⟨by simp only [hu.1], rfl, hu.2.2.symm⟩
          · simp at e

theorem commit_cut {env : Env} {F : Fails} (hF : WholeFails F) {w w' : World} {sl : Sl} {segd : Bool} {id : Bytes} {rid : Option Bytes} (hrid : segd = false → rid = none)
    (e : commitErr env F w sl segd id rid = .ok (w', false)) {u : World} (hu : Same w u) : ∃ a u', commitCut env u sl segd id rid a = .ok u' ∧ Near u' w' := by
  unfold commitErr at e
  by_cases h0 : segd = false ∧ 0 < sl.no
  · rw [if_pos h0] at e
    obtain ⟨rfl, h0⟩ := h0
    rw [hrid rfl] at e ⊢
    simp only at e
    rw [Res.bind_eq_ok] at e
    obtain ⟨⟨w1, r⟩, e1, e2⟩ := e
    simp only at e2
    have hk : sl.no - w.cache.firstSpace = 0 ∨ w.cache.firstSpace + (sl.no - w.cache.firstSpace) ≤ sl.no := by omega
    cases r with
    | stop =>
      simp only [Res.pure_eq, Res.ok.injEq, Prod.mk.injEq, and_true] at e2
      subst e2
      exact loop_cut hF _ e1 hk (.inl rfl) hu
    | done =>
      simp only at e2
      split at e2
      · simp only [Res.pure_eq, Res.ok.injEq, Prod.mk.injEq, and_true] at e2
        subst e2
        exact loop_cut hF _ e1 hk (.inr rfl) hu
      · cases e2
    | skip =>
      obtain ⟨v1, a1, a2, a3, a4⟩ := loop_like _ e1 (by simp) rfl (Same.refl _)
      exact install_cut hF e2 ((a3 (by simp)).symm.trans hu)
    | protect =>
      obtain ⟨v1, a1, a2, a3, a4⟩ := loop_like _ e1 (by simp) rfl (Same.refl _)
      exact install_cut hF e2 ((a3 (by simp)).symm.trans hu)
  · rw [if_neg h0] at e
    exact install_cut hF e hu

theorem segs_cut {env : Env} {fid : Bytes} {size : Nat} {F : Nat → Fails} (hF : ∀ k, WholeFails (F k)) (ss : List Seg) : ∀ {k : Nat} {w w' u : World},
    segsErr env fid size F k ss w = .ok (w', false) → Same w u → ∃ a j u', segsCut env fid size a j ss u = .ok u' ∧ Near u' w' := by
  induction ss with
  | nil =>
    intro k w w' u e hu
    simp [segsErr] at e
  | cons s ss ih =>
    intro k w w' u e hu
    rw [segsErr] at e
    simp only [Res.bind_eq_ok] at e
    obtain ⟨h1, e1, h2, e2, ⟨w1, b⟩, e3, e4⟩ := e
    simp only at e4
    cases b with
    | false =>
      simp only [Bool.false_eq_true, if_false, Res.pure_eq, Res.ok.injEq, Prod.mk.injEq, and_true] at e4
      subst e4
      obtain ⟨a, u', a1, a2⟩ := commit_cut (hF k) (fun h => by cases h) e3 hu
      refine ⟨a, 0, u', ?_, a2⟩
      rw [segsCut]
      simp only [e1, e2, Res.ok_bind]
      exact a1
    | true =>
      obtain ⟨v1, a1, a2⟩ := commit_seg_like e3 hu
      obtain ⟨a, j, u', b1, b2⟩ := ih e4 a2
      refine ⟨a, j + 1, u', ?_, b2⟩
      rw [segsCut]
      simp only [e1, e2, Res.ok_bind, a1]
      exact b1

/-- A job that ends in an assertion failure because of a failing call is one that is cut off. -/
theorem job_cut {σ : Type} {env : Env} {F : Nat → Fails} (hF : ∀ k, WholeFails (F k)) {fuel : Nat} {w w' : World} {sj : Job σ} (e : jobErr env F fuel w sj = .ok (w', none)) :
    ∃ k a u', jobCut env fuel w sj k a = .ok u' ∧ Near u' w' := by
  unfold jobErr at e
  rw [Res.check_bind_eq_ok] at e
  obtain ⟨e0, e⟩ := e
  unfold jobCut
  simp only [Res.check_bind_eq_ok]
  cases hs : sj.segs with
  | nil => rw [hs] at e; cases e
  | cons s ss =>
    rw [hs] at e
    simp only [Res.bind_eq_ok] at e
    obtain ⟨s', e1, id, e2, g, e3, e4⟩ := e
    simp only [e1, e2, e3, Res.ok_bind]
    cases g with
    | job gj => cases e4
    | error x =>
      simp only [Res.bind_eq_ok, Res.pure_eq, Res.ok.injEq, Prod.mk.injEq] at e4
      obtain ⟨⟨w1, b⟩, e5, rfl, e6⟩ := e4
      cases b with
      | true => cases e6
      | false =>
        by_cases hss : ss = []
        · rw [if_pos hss] at e5
          obtain ⟨a, u', a1, a2⟩ := commit_cut (hF 0) (fun _ => rfl) e5 (Same.refl w)
          exact ⟨0, a, u', ⟨e0, by rw [if_pos hss]; exact a1⟩, a2⟩
        · rw [if_neg hss] at e5
          obtain ⟨a, j, u', a1, a2⟩ := segs_cut hF _ e5 (Same.refl w)
          exact ⟨j, a, u', ⟨e0, by rw [if_neg hss]; exact a1⟩, a2⟩

end Verif.Props
