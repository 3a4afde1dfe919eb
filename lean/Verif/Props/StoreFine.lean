/-
Property C94, continued: a store of `Model/StoreErr.lean` with which no call fails is that of `Model/Segjob.lean`, and a store stops
only for calls that must not fail.
-/
import Verif.Props.StoreErr

namespace Verif.Props
open Verif Header Gzip Ident Index Wsilo Segjob Getjob Spec Inflate Crash StoreErr
open _root_.Verif.Commit (upd Silo)

/-- No call fails. -/
def noFails : Fails := {}

theorem put_fine (w : World) (c : Cache.Cache) : putCacheErr .fine w c = putCache w c := rfl

/-- The return values of `silo_attempt_append`. -/
def ofInt (i : Int) : Ret := if i = 1 then .done else if i = -1 then .protect else .skip

theorem attempt_fine (env : Env) (w : World) (sl : Sl) (sn : Nat) (hz id : Bytes) :
    attemptErr env noFails w sl sn hz id = (attemptAppend env w sl sn hz id >>= fun r => Res.ok (r.1, ofInt r.2)) := by
  unfold attemptErr attemptAppend
  rw [if_neg (show ¬ noFails.app sn = .stat by simp [noFails])]
  cases w.silos sn with
  | none => rfl
  | some f =>
    simp only [show noFails.cache (2 * sn) = .fine from rfl, show noFails.cache (2 * sn + 1) = .fine from rfl, put_fine]
    split
    · rfl
    · split
      · rfl
      · unfold appendErr appendTo
        simp only [show noFails.app sn = .fine from rfl, reduceCtorEq, or_false]
        split
        · rfl
        · unfold appendIdx insertErr
          simp only [reduceCtorEq, or_false]
          cases h : decide (0 < f.data.length) with
          | false => simp [Res.check]
          | true =>
            simp only [Res.check_true, Res.ok_bind]
            cases idxInsert (putCache (putCache w (Cache.bumpNon sn w.cache))
              (Cache.bumpSpace env.max f.data.length sn (putCache w (Cache.bumpNon sn w.cache)).cache)).dir id sl.idx sn f.data.length none <;> rfl

theorem loop_fine (env : Env) (sl : Sl) (hz id : Bytes) (k : Nat) : ∀ (sn : Nat) (w w' : World) (b : Bool), appendLoop env sl hz id k sn w = .ok (w', b) →
    ∃ r, loopErr env noFails sl hz id k sn w = .ok (w', r) ∧ (r = .done ↔ b = true) ∧ r ≠ .stop := by
  induction k with
  | zero =>
    intro sn w w' b e
    cases e
    exact ⟨.skip, rfl, by simp, by simp⟩
  | succ k ih =>
    intro sn w w' b e
    rw [appendLoop, Res.bind_eq_ok] at e
    obtain ⟨⟨w1, i⟩, e1, e2⟩ := e
    rw [loopErr, attempt_fine, e1]
    simp only [Res.ok_bind] at e2 ⊢
    by_cases h1 : i = 1
    · rw [if_pos h1] at e2
      cases e2
      subst h1
      exact ⟨.done, rfl, by simp, by simp⟩
    · rw [if_neg h1] at e2
      by_cases h2 : i = -1
      · rw [if_pos h2] at e2
        cases e2
        subst h2
        exact ⟨.protect, rfl, by simp, by simp⟩
      · rw [if_neg h2] at e2
        obtain ⟨r, a1, a2⟩ := ih _ _ _ _ e2
        refine ⟨r, ?_, a2⟩
        rw [show ofInt i = .skip by simp [ofInt, h1, h2], if_pos rfl]
        exact a1

theorem install_fine {env : Env} {w w' : World} {sl : Sl} {segd : Bool} {id : Bytes} {rid : Option Bytes} (e : install env w sl segd id rid = .ok w') :
    installErr env noFails w sl segd id rid = .ok (w', true) := by
  unfold install at e
  simp only [Res.bind_eq_ok, Res.check_eq_ok, exists_const, Res.pure_eq, Res.ok.injEq] at e
  obtain ⟨file, e1, fl, e2, d1, e3, d2, e4, e5, rfl⟩ := e
  have e5 : w.silos sl.no = none := by simpa using e5
  unfold installErr
  simp only [e1, e2, Res.ok_bind, show noFails.hdr = false from rfl, show noFails.idx = .fine from rfl, show noFails.info = .fine from rfl, insertErr, e3, e4,
    Res.pure_eq, Bool.false_eq_true, if_false, reduceCtorEq]
  simp only [linkErr, show noFails.link = false from rfl, show noFails.unlink = false from rfl, e5, ne_eq, not_true, or_false, Bool.false_eq_true, if_false,
    show noFails.cache (2 * sl.no) = .fine from rfl, put_fine]

theorem commit_fine {env : Env} {w w' : World} {sl : Sl} {segd : Bool} {id : Bytes} {rid : Option Bytes} (e : wsiloCommit env w sl segd id rid = .ok w') :
    commitErr env noFails w sl segd id rid = .ok (w', true) := by
  unfold wsiloCommit at e
  unfold commitErr
  split at e
  · rename_i h
    rw [if_pos h]
    simp only [Res.bind_eq_ok] at e
    obtain ⟨⟨w1, b⟩, e1, e2⟩ := e
    obtain ⟨r, a1, a2, a3⟩ := loop_fine _ _ _ _ _ _ _ _ _ e1
    simp only [a1, Res.ok_bind]
    cases r with
    | stop => exact absurd rfl a3
    | done =>
      rw [if_pos (a2.1 rfl)] at e2
      cases e2
      rfl
    | skip =>
      rw [if_neg (by intro hb; have := a2.2 hb; simp at this)] at e2
      exact install_fine e2
    | protect =>
      rw [if_neg (by intro hb; have := a2.2 hb; simp at this)] at e2
      exact install_fine e2
  · rename_i h
    rw [if_neg h]
    exact install_fine e

theorem segs_fine {env : Env} {fid : Bytes} {size : Nat} (ss : List Seg) : ∀ {k : Nat} {w w' : World}, commitSegs env fid size ss w = .ok w' →
    segsErr env fid size (fun _ => noFails) k ss w = .ok (w', true) := by
  induction ss with
  | nil => intro k w w' e; cases e; rfl
  | cons s ss ih =>
    intro k w w' e
    rw [commitSegs] at e
    simp only [Res.bind_eq_ok] at e
    obtain ⟨h1, e1, h2, e2, w1, e3, e4⟩ := e
    rw [segsErr]
    simp only [e1, e2, Res.ok_bind, commit_fine e3, if_true, ih e4]

/-- C94: a store with which no call fails is the store of the other properties. -/
theorem C94_fine {σ : Type} {env : Env} {D : Deflater σ} {fuel : Nat} {w w' : World} {h : Hdr} {ident : Option Bytes} {cs : List Bytes} {uri : Bytes}
    (e : storeObj env D fuel w h ident cs = .ok (w', uri)) : storeErr env D (fun _ => {}) fuel w h ident cs = .ok (w', some uri) := by
  unfold storeObj segjobCommit commitJob at e
  simp only [Res.bind_eq_ok] at e
  obtain ⟨sj, e0, r, e1, q, e2, e3⟩ := e
  unfold storeErr jobErr
  simp only [e0, e1, e2, Res.ok_bind]
  simp only [Res.check_eq_ok, exists_const] at e3
  rw [Res.check_bind_eq_ok]
  refine ⟨e3.1, ?_⟩
  obtain ⟨-, e3⟩ := e3
  cases hs : q.2.segs with
  | nil => rw [hs] at e3; cases e3
  | cons s ss =>
    rw [hs] at e3
    simp only [Res.bind_eq_ok] at e3 ⊢
    obtain ⟨s', a1, id, a2, g, a3, a4⟩ := e3
    refine ⟨s', a1, id, a2, g, a3, ?_⟩
    cases g with
    | job gj => cases a4; rfl
    | error er =>
      simp only [Res.bind_eq_ok, Res.pure_eq, Res.ok.injEq, Prod.mk.injEq] at a4 ⊢
      obtain ⟨w1, a5, rfl, rfl⟩ := a4
      refine ⟨(w1, true), ?_, rfl, rfl⟩
      split at a5
      · rename_i h0
        rw [if_pos h0]
        exact commit_fine a5
      · rename_i h0
        rw [if_neg h0]
        exact segs_fine _ a5

/-! ### What is tolerated -/

/-- Only such calls fail as the program tolerates: in `silo_attempt_append` before the record is written, and when the cache file is
written. -/
structure Tolerated (F : Fails) : Prop where
  app : ∀ n, F.app n = .fine ∨ F.app n = .stat ∨ F.app n = .hold ∨ F.app n = .silo
  hdr : F.hdr = false
  idx : F.idx = .fine
  info : F.info = .fine
  link : F.link = false
  unlink : F.unlink = false

theorem attempt_tolerated {env : Env} {F : Fails} (hF : Tolerated F) {w w' : World} {sl : Sl} {sn : Nat} {hz id : Bytes} {r : Ret}
    (e : attemptErr env F w sl sn hz id = .ok (w', r)) : r ≠ .stop ∧ ∀ n, w.silos n = none → w'.silos n = none := by
  unfold attemptErr at e
  split at e
  · cases e; exact ⟨by simp, fun _ h => h⟩
  · rename_i hst
    cases hs : w.silos sn with
    | none => rw [hs] at e; cases e; exact ⟨by simp, fun _ h => h⟩
    | some f =>
      rw [hs] at e
      simp only at e
      have p1 : ∀ (c : CacheW) (u : World) (x : Cache.Cache) n, u.silos n = none → (putCacheErr c u x).silos n = none := by
        intro c u x n h; rw [(same_put c u x).1]; exact h
      split at e
      · cases e; exact ⟨by simp, fun n h => p1 _ _ _ n h⟩
      · split at e
        · cases e; exact ⟨by simp, fun n h => p1 _ _ _ n (p1 _ _ _ n h)⟩
        · unfold appendErr at e
          split at e
          · cases e; exact ⟨by simp, fun n h => p1 _ _ _ n (p1 _ _ _ n h)⟩
          · rename_i hno
            have hfine : F.app sn = .fine := by
              rcases hF.app sn with h | h | h | h
              · exact h
              · exact absurd h hst
              · exact absurd (.inr (.inl h)) hno
              · exact absurd (.inr (.inr h)) hno
            rw [hfine] at e
            simp only [appendIdx, insertErr, Res.bind_eq_ok, Res.check_eq_ok, exists_const, Res.pure_eq, Res.ok.injEq] at e
            obtain ⟨-, r1, ⟨d, -, rfl⟩, e⟩ := e
            simp only [reduceCtorEq, or_self, if_false, Res.ok.injEq, Prod.mk.injEq] at e
            obtain ⟨rfl, rfl⟩ := e
            refine ⟨by simp, fun n h => ?_⟩
            have hne : n ≠ sn := fun hh => by rw [hh, hs] at h; cases h
            show upd _ sn _ n = none
            rw [upd, if_neg hne]
            exact p1 _ _ _ n (p1 _ _ _ n h)

theorem loop_tolerated {env : Env} {F : Fails} (hF : Tolerated F) {sl : Sl} {hz id : Bytes} (k : Nat) : ∀ {sn : Nat} {w w' : World} {r : Ret},
    loopErr env F sl hz id k sn w = .ok (w', r) → r ≠ .stop ∧ ∀ n, w.silos n = none → w'.silos n = none := by
  induction k with
  | zero => intro sn w w' r e; cases e; exact ⟨by simp, fun _ h => h⟩
  | succ k ih =>
    intro sn w w' r e
    rw [loopErr, Res.bind_eq_ok] at e
    obtain ⟨⟨w1, r1⟩, e1, e2⟩ := e
    obtain ⟨a1, a2⟩ := attempt_tolerated hF e1
    simp only at e2
    split at e2
    · obtain ⟨b1, b2⟩ := ih e2
      exact ⟨b1, fun n h => b2 n (a2 n h)⟩
    · cases e2; exact ⟨a1, a2⟩

theorem install_tolerated {env : Env} {F : Fails} (hF : Tolerated F) {w w' : World} {sl : Sl} {segd : Bool} {id : Bytes} {rid : Option Bytes} {b : Bool}
    (hs : w.silos sl.no = none) (e : installErr env F w sl segd id rid = .ok (w', b)) : b = true ∧ ∀ n, n ≠ sl.no → w.silos n = none → w'.silos n = none := by
  unfold installErr at e
  simp only [Res.bind_eq_ok, hF.hdr, hF.idx, hF.info, insertErr, Res.pure_eq, Bool.false_eq_true, if_false] at e
  obtain ⟨file, -, fl, -, r1, ⟨d1, -, hr1⟩, e⟩ := e
  simp only [Res.ok.injEq] at hr1
  subst hr1
  simp only [reduceCtorEq, if_false, Res.bind_eq_ok] at e
  obtain ⟨r2, ⟨d2, -, hr2⟩, e⟩ := e
  simp only [Res.ok.injEq] at hr2
  subst hr2
  simp only [reduceCtorEq, if_false, linkErr, hF.link, hF.unlink, hs, ne_eq, not_true, or_false, Bool.false_eq_true, Res.ok.injEq, Prod.mk.injEq] at e
  obtain ⟨rfl, rfl⟩ := e
  refine ⟨rfl, fun n hn h => ?_⟩
  show (putCacheErr _ _ _).silos n = none
  rw [(same_put _ _ _).1]
  show upd _ _ _ n = none
  rw [upd, if_neg hn]
  exact h

theorem commit_tolerated {env : Env} {F : Fails} (hF : Tolerated F) {w w' : World} {sl : Sl} {segd : Bool} {id : Bytes} {rid : Option Bytes} {b : Bool}
    (hs : w.silos sl.no = none) (e : commitErr env F w sl segd id rid = .ok (w', b)) : b = true ∧ ∀ n, n ≠ sl.no → w.silos n = none → w'.silos n = none := by
  unfold commitErr at e
  split at e
  · simp only [Res.bind_eq_ok] at e
    obtain ⟨⟨w1, r⟩, e1, e2⟩ := e
    obtain ⟨a1, a2⟩ := loop_tolerated hF _ e1
    have inst : installErr env F w1 sl segd id rid = .ok (w', b) → b = true ∧ ∀ n, n ≠ sl.no → w.silos n = none → w'.silos n = none := by
      intro e3
      obtain ⟨b1, b2⟩ := install_tolerated hF (a2 _ hs) e3
      exact ⟨b1, fun n hn h => b2 n hn (a2 n h)⟩
    cases r with
    | stop => exact absurd rfl a1
    | done =>
      simp only [hF.unlink, Bool.false_eq_true, if_false, Res.pure_eq, Res.ok.injEq, Prod.mk.injEq] at e2
      obtain ⟨rfl, rfl⟩ := e2
      exact ⟨rfl, fun n _ h => a2 n h⟩
    | skip => exact inst e2
    | protect => exact inst e2
  · exact install_tolerated hF hs e

theorem segs_tolerated {env : Env} {fid : Bytes} {size : Nat} {F : Nat → Fails} (hF : ∀ k, Tolerated (F k)) (ss : List Seg) : ∀ {k : Nat} {w w' : World} {b : Bool},
    (ss.map (·.silo.no)).Nodup → (∀ s ∈ ss, w.silos s.silo.no = none) → segsErr env fid size F k ss w = .ok (w', b) → b = true := by
  induction ss with
  | nil => intro k w w' b _ _ e; cases e; rfl
  | cons s ss ih =>
    intro k w w' b hd hn e
    rw [segsErr] at e
    simp only [Res.bind_eq_ok] at e
    obtain ⟨h1, -, h2, -, ⟨w1, b1⟩, e3, e4⟩ := e
    obtain ⟨a1, a2⟩ := commit_tolerated (hF k) (sl := { s.silo with hd := h2 }) (hn s (by simp)) e3
    rw [List.map_cons, List.nodup_cons] at hd
    simp only [a1, if_true] at e4
    refine ih hd.2 (fun t ht => a2 _ ?_ (hn t (by simp [ht]))) e4
    intro he
    exact hd.1 (List.mem_map.2 ⟨t, ht, he⟩)

/-- C94: a store does not stop for calls that fail before a record is appended to a silo, or when the cache file is written: it
returns an ID. -/
theorem C94_tolerated {σ : Type} {env : Env} {D : Deflater σ} (hz : Zlib D) (he : EnvOk env) {F : Nat → Fails} (hF : ∀ k, Tolerated (F k)) {fuel : Nat}
    {w w' : World} {h : Hdr} {ident : Option Bytes} {cs : List Bytes} (hc : GoodInput env cs) {o : Option Bytes}
    (e : storeErr env D F fuel w h ident cs = .ok (w', o)) : ∃ uri, o = some uri := by
  unfold storeErr at e
  simp only [Res.bind_eq_ok] at e
  obtain ⟨sj, e0, ⟨w1, sj1⟩, e1, ⟨w2, sj2⟩, e2, e3⟩ := e
  simp only at e2 e3
  obtain ⟨a1, -⟩ := fed_inv hz he.max hc.1 hc.2.1 e0 e1 e2
  have hown : ∀ s ∈ sj2.segs, w2.silos s.silo.no = none := by
    intro s hs
    exact (a1.owned s.silo.no (List.mem_append_left _ (List.mem_map_of_mem hs))).1
  have hnd : (sj2.segs.map (·.silo.no)).Nodup := (List.nodup_append.1 a1.nodup).1
  unfold jobErr at e3
  rw [Res.check_bind_eq_ok] at e3
  obtain ⟨-, e3⟩ := e3
  cases hs : sj2.segs with
  | nil => rw [hs] at e3; cases e3
  | cons s ss =>
    rw [hs] at e3 hown hnd
    simp only [Res.bind_eq_ok] at e3
    obtain ⟨s', b1, id, -, g, -, e4⟩ := e3
    have hno : s'.silo.no = s.silo.no := by
      split at b1
      · cases b1; rfl
      · unfold firstId at b1
        simp only [Res.bind_eq_ok, Res.pure_eq, Res.ok.injEq] at b1
        obtain ⟨_, _, _, _, rfl⟩ := b1
        rfl
    cases g with
    | job gj => cases e4; exact ⟨_, rfl⟩
    | error er =>
      simp only [Res.bind_eq_ok, Res.pure_eq, Res.ok.injEq, Prod.mk.injEq] at e4
      obtain ⟨⟨w3, b⟩, e5, -, rfl⟩ := e4
      have hb : b = true := by
        split at e5
        · exact (commit_tolerated (hF 0) (by rw [hno]; exact hown s (by simp)) e5).1
        · refine segs_tolerated hF _ ?_ ?_ e5
          · simpa [hno] using hnd
          · intro t ht
            rcases List.mem_cons.1 ht with rfl | ht
            · rw [hno]; exact hown s (by simp)
            · exact hown t (by simp [ht])
      exact ⟨id, by rw [hb]; rfl⟩

/-- No silo can be opened for appending, and the cache file cannot be written. -/
example : Tolerated { app := fun _ => .silo, cache := fun _ => .noOpen } := ⟨fun _ => by simp, rfl, rfl, rfl, rfl, rfl⟩

end Verif.Props
