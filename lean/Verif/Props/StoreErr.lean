/-
Property C94: storing when calls of the system fail.
-/
import Verif.Proofs.StoreErr
import Verif.Props.Crash
import Verif.Props.StoreExample

namespace Verif.Props
open Verif Header Gzip Ident Index Wsilo Segjob Getjob Spec Inflate Crash StoreErr
open _root_.Verif.Commit (upd Silo)

/-! ### No silo loses anything -/

theorem put_grown {f : CacheW} {w : World} {c : Cache.Cache} : Grown w.silos (putCacheErr f w c).silos := by
  rw [(same_put f w c).1]
  exact grown_refl _

theorem append_grown {a : App} {w w' : World} {sl : Sl} {sn : Nat} {f : Silo} {hz id : Bytes} {r : Ret} (hs : w.silos sn = some f)
    (e : appendErr a w sl sn f hz id = .ok (w', r)) : Grown w.silos w'.silos := by
  have hg : ∀ x : Bytes, Grown w.silos (upd w.silos sn (some { f with data := f.data ++ x })) :=
    fun x => grown_upd (fun g hg => by rw [hs] at hg; cases hg; exact ⟨x, rfl⟩)
  unfold appendErr at e
  split at e
  · cases e; exact grown_refl _
  · split at e
    · cases e; exact hg _
    · unfold appendIdx at e
      rw [Res.check_bind_eq_ok] at e
      obtain ⟨-, e⟩ := e
      rw [Res.bind_eq_ok] at e
      obtain ⟨x, -, e⟩ := e
      simp only at e
      split at e <;> (cases e; exact hg _)

theorem attempt_grown {env : Env} {F : Fails} {w w' : World} {sl : Sl} {sn : Nat} {hz id : Bytes} {r : Ret} (e : attemptErr env F w sl sn hz id = .ok (w', r)) :
    Grown w.silos w'.silos := by
  unfold attemptErr at e
  split at e
  · cases e; exact grown_refl _
  · split at e
    · cases e; exact grown_refl _
    · rename_i f hs
      simp only at e
      split at e
      · cases e; exact put_grown
      · split at e
        · cases e; exact grown_trans put_grown put_grown
        · exact grown_trans (grown_trans put_grown put_grown) (append_grown (by rw [(same_put _ _ _).1, (same_put _ _ _).1]; exact hs) e)

theorem loop_grown {env : Env} {F : Fails} {sl : Sl} {hz id : Bytes} (k : Nat) : ∀ {sn : Nat} {w w' : World} {r : Ret}, loopErr env F sl hz id k sn w = .ok (w', r) →
    Grown w.silos w'.silos := by
  induction k with
  | zero => intro sn w w' r e; cases e; exact grown_refl _
  | succ k ih =>
    intro sn w w' r e
    rw [loopErr, Res.bind_eq_ok] at e
    obtain ⟨⟨w1, r1⟩, e1, e2⟩ := e
    simp only at e2
    split at e2
    · exact grown_trans (attempt_grown e1) (ih e2)
    · cases e2; exact attempt_grown e1

theorem link_grown {F : Fails} {w : World} {sl : Sl} {file : Bytes} : Grown w.silos (linkErr F w sl file).1.silos := by
  unfold linkErr
  split
  · exact grown_refl _
  · rename_i h
    have hno : w.silos sl.no = none := by
      cases hs : w.silos sl.no with
      | none => rfl
      | some f => exact absurd (.inr (by rw [hs]; simp)) h
    have hg : Grown w.silos (upd w.silos sl.no (some { data := file, writable := true })) := grown_upd (fun g hg => by rw [hno] at hg; cases hg)
    have hp : Grown w.silos (putCacheErr (F.cache (2 * sl.no)) { w with silos := upd w.silos sl.no (some { data := file, writable := true }) }
        (Cache.bumpNon sl.no w.cache)).silos := grown_trans hg (put_grown (w := { w with silos := upd w.silos sl.no (some { data := file, writable := true }) }))
    simp only
    split
    · exact hp
    · exact hp

theorem install_grown {env : Env} {F : Fails} {w w' : World} {sl : Sl} {segd : Bool} {id : Bytes} {rid : Option Bytes} {b : Bool}
    (e : installErr env F w sl segd id rid = .ok (w', b)) : Grown w.silos w'.silos := by
  unfold installErr at e
  simp only [Res.bind_eq_ok] at e
  obtain ⟨file, -, fl, -, e⟩ := e
  split at e
  · cases e; exact grown_refl _
  · rw [Res.bind_eq_ok] at e
    obtain ⟨r, -, e⟩ := e
    split at e
    · cases e; exact grown_refl _
    · rw [Res.bind_eq_ok] at e
      obtain ⟨q, -, e⟩ := e
      split at e
      · cases e; exact grown_refl _
      · simp only [Res.pure_eq, Res.ok.injEq] at e
        have h := link_grown (F := F) (w := { w with dir := q.1 }) (sl := sl) (file := file)
        rw [e] at h
        exact h

theorem commit_grown {env : Env} {F : Fails} {w w' : World} {sl : Sl} {segd : Bool} {id : Bytes} {rid : Option Bytes} {b : Bool}
    (e : commitErr env F w sl segd id rid = .ok (w', b)) : Grown w.silos w'.silos := by
  unfold commitErr at e
  split at e
  · simp only at e
    rw [Res.bind_eq_ok] at e
    obtain ⟨⟨w1, r⟩, e1, e2⟩ := e
    have h1 := loop_grown _ e1
    cases r with
    | stop => cases e2; exact h1
    | done =>
      simp only at e2
      split at e2
      · cases e2; exact h1
      · cases e2; exact h1
    | skip => exact grown_trans h1 (install_grown e2)
    | protect => exact grown_trans h1 (install_grown e2)
  · exact install_grown e

theorem segs_grown {env : Env} {fid : Bytes} {size : Nat} {F : Nat → Fails} (ss : List Seg) : ∀ {k : Nat} {w w' : World} {b : Bool},
    segsErr env fid size F k ss w = .ok (w', b) → Grown w.silos w'.silos := by
  induction ss with
  | nil => intro k w w' b e; cases e; exact grown_refl _
  | cons s ss ih =>
    intro k w w' b e
    rw [segsErr] at e
    simp only [Res.bind_eq_ok] at e
    obtain ⟨h1, -, h2, -, ⟨w1, b1⟩, e3, e4⟩ := e
    simp only at e4
    split at e4
    · exact grown_trans (commit_grown e3) (ih e4)
    · cases e4; exact commit_grown e3

/-- C94: whatever calls fail while an object is stored, and whether the store comes to its end or not, every silo has still all of
its bytes, where they were. -/
theorem C94_grown {σ : Type} {env : Env} {D : Deflater σ} {F : Nat → Fails} {fuel : Nat} {w w' : World} {h : Hdr} {ident : Option Bytes} {cs : List Bytes} {o : Option Bytes}
    (e : storeErr env D F fuel w h ident cs = .ok (w', o)) : ∀ n f, w.silos n = some f → ∃ f' post, w'.silos n = some f' ∧ f'.data = f.data ++ post := by
  show Grown _ _
  unfold storeErr at e
  simp only [Res.bind_eq_ok] at e
  obtain ⟨sj, e0, ⟨w1, sj1⟩, e1, ⟨w2, sj2⟩, e2, e3⟩ := e
  simp only at e2 e3
  obtain ⟨-, f1, -⟩ := feedAll_disguise (T := fun _ => false) (X := fun _ => false) _ (fun n h => by cases h) e1
  obtain ⟨-, f2, -⟩ := feedLoop_disguise (T := fun _ => false) (X := fun _ => false) _ (fun n h => by cases h) e2
  rw [← f1, ← f2]
  unfold jobErr at e3
  rw [Res.check_bind_eq_ok] at e3
  obtain ⟨-, e3⟩ := e3
  split at e3
  · cases e3
  · simp only [Res.bind_eq_ok] at e3
    obtain ⟨s', -, id, -, g, -, e4⟩ := e3
    split at e4
    · simp only [Res.pure_eq, Res.ok.injEq, Prod.mk.injEq] at e4
      rw [← e4.1, (destroy_same _ _).1]
      exact grown_refl _
    · simp only [Res.bind_eq_ok, Res.pure_eq, Res.ok.injEq, Prod.mk.injEq] at e4
      obtain ⟨⟨w3, b⟩, e5, rfl, -⟩ := e4
      split at e5
      · exact commit_grown e5
      · exact segs_grown _ e5

/-! ### What a store with failing calls amounts to -/

theorem rough_trans {σ : Type} {env : Env} {D : Deflater σ} {a b c : World} (h1 : Rough env D a b) (h2 : Rough env D b c) : Rough env D a c := by
  induction h2 with
  | refl => exact h1
  | store _ x y z ih => exact .store ih x y z
  | cut _ x y z ih => exact .cut ih x y z
  | housekeep _ x y z ih => exact .housekeep ih x y z
  | mksilo _ x y ih => exact .mksilo ih x y
  | other _ x y z ih => exact .other ih x y z

/-- The silos with the same contents and the index are the same in both archives. -/
def SameContents (w v : World) : Prop := v.dir = w.dir ∧ ∀ n, (v.silos n).map (·.data) = (w.silos n).map (·.data)

/-- C94: if a store returns an ID, then whatever calls have failed it has done what a store does with which no call fails: there is an
archive with the same contents, but for hold files of silos that are there and write protection, in which a store without failing
calls returns the same ID and leaves the same silos and the same index. -/
theorem C94_returns {σ : Type} {env : Env} {D : Deflater σ} (hz : Zlib D) (he : EnvOk env) {F : Nat → Fails} {fuel : Nat} {w w' : World} {h : Hdr} {ident : Option Bytes}
    {cs : List Bytes} (hc : GoodInput env cs) {uri : Bytes} (e : storeErr env D F fuel w h ident cs = .ok (w', some uri)) :
    ∃ v v', SameContents w v ∧ (∀ n, w.silos n = none → v.holds n = w.holds n) ∧ (∀ n, w.holds n = true → v.holds n = true) ∧
      storeObj env D fuel v h ident cs = .ok (v', uri) ∧ SameContents v' w' ∧ ∀ n, v'.silos n = none → w'.holds n = v'.holds n := by
  unfold storeErr at e
  simp only [Res.bind_eq_ok] at e
  obtain ⟨sj, e0, ⟨w1, sj1⟩, e1, ⟨w2, sj2⟩, e2, e3⟩ := e
  simp only at e2 e3
  obtain ⟨a1, -, -, -, a5, -⟩ := fed_inv hz he.max hc.1 hc.2.1 e0 e1 e2
  have hown : ∀ s ∈ sj2.segs, w2.silos s.silo.no = none := by
    intro s hs
    exact (a1.owned s.silo.no (List.mem_append_left _ (List.mem_map_of_mem hs))).1
  obtain ⟨T, X, v', j1, j2, j3, j4⟩ := job_like e3 hown
  have hf1 := feedAll_disguise (T := T) (X := fun _ => false) _ (fun n h => by cases h) e1
  have hf2 := feedLoop_disguise (T := T) (X := fun _ => false) _ (fun n h => by cases h) e2
  have hX1 : Within X w1 := fun n hn => by have := j1 n hn; rw [hf2.2.1] at this; exact this
  have hX : Within X w := fun n hn => by have := hX1 n hn; rw [hf1.2.1] at this; exact this
  have g1 := (feedAll_disguise (T := T) _ hX e1).1
  have g2 := (feedLoop_disguise (T := T) _ hX1 e2).1
  refine ⟨disguise T X w, v', ⟨rfl, disguise_data T X w⟩, ?_, ?_, ?_, ⟨?_, ?_⟩, ?_⟩
  · intro n hn
    show (w.holds n || X n) = w.holds n
    cases hx : X n with
    | false => simp
    | true => have := hX n hx; rw [hn] at this; cases this
  · intro n hn
    show (w.holds n || X n) = true
    rw [hn]; rfl
  · unfold storeObj segjobCommit
    rw [e0]
    simp only [Res.ok_bind, g1, g2]
    exact j2
  · exact j3.2.1.symm
  · intro n
    rw [j3.1, disguise_data]
  · intro n hn
    rw [j3.2.2]
    show w'.holds n = (w'.holds n || X n)
    cases hx : X n with
    | false => simp
    | true =>
      have h1 := disguise_some T X w' n
      rw [← j3.1, hn] at h1
      cases h2 : w'.silos n with
      | none => exact absurd h2 (j4 n hx)
      | some f => rw [h2] at h1; cases h1

/-- C94: if a store ends in an assertion failure because a call fails, and no index entry has been written in part, then it has left
what a store leaves that is killed at some point: the silos and the index are those, and so are the hold files but for those of
silos that are there. -/
theorem C94_stops {σ : Type} {env : Env} {D : Deflater σ} {F : Nat → Fails} (hF : ∀ k, WholeFails (F k)) {fuel : Nat} {w w' : World} {h : Hdr} {ident : Option Bytes}
    {cs : List Bytes} (e : storeErr env D F fuel w h ident cs = .ok (w', none)) :
    ∃ k a v, storeCut env D fuel w h ident cs k a = .ok v ∧ w'.silos = v.silos ∧ w'.dir = v.dir ∧ ∀ n, v.silos n = none → w'.holds n = v.holds n := by
  unfold storeErr at e
  simp only [Res.bind_eq_ok] at e
  obtain ⟨sj, e0, ⟨w1, sj1⟩, e1, ⟨w2, sj2⟩, e2, e3⟩ := e
  simp only at e2 e3
  obtain ⟨k, a, u', a1, a2⟩ := job_cut hF e3
  refine ⟨k, a, u', ?_, a2.1, a2.2.1, a2.2.2⟩
  unfold storeCut
  rw [e0]
  simp only [Res.ok_bind, e1, e2]
  exact a1

/-- C94: so a store with failing calls is one of the things that can happen to an archive in C73, and what is said there about all
that was stored before holds after it as well. -/
theorem C94_rough {σ : Type} {env : Env} {D : Deflater σ} (hz : Zlib D) (he : EnvOk env) {F : Nat → Fails} {fuel : Nat} {w w' : World} {h : Hdr} (hj : GoodJob env h)
    {ident : Option Bytes} {cs : List Bytes} (hc : GoodInput env cs) {o : Option Bytes} (e : storeErr env D F fuel w h ident cs = .ok (w', o))
    (hF : o = none → ∀ k, WholeFails (F k)) : Rough env D w w' := by
  cases o with
  | some uri =>
    obtain ⟨v, v', a1, -, a3, a4, a5, a6⟩ := C94_returns hz he hc e
    exact .other (.store (.other (.refl w) a1.1 a1.2 (fun n _ h => a3 n h)) hj hc a4) a5.1 a5.2 (fun n h0 h => by rw [a6 n h0]; exact h)
  | none =>
    obtain ⟨k, a, v, a1, a2, a3, a4⟩ := C94_stops (hF rfl) e
    exact .other (.cut (.refl w) hj hc a1) a3 (fun n => by rw [a2]) (fun n h0 h => by rw [a4 n h0]; exact h)

/-- C94: an object whose ID has been returned by a store with failing calls is in the archive, whatever stores with failing calls
come before and after: its segments are among the records, in silos that are there, and it is delivered by get, under the conditions
of C73. -/
theorem C94_survives_partial {σ : Type} {env : Env} {D : Deflater σ} (hz : Zlib D) (he : EnvOk env) {F : Nat → Fails} {fuel : Nat} {w0 w w1 w2 : World} (hw0 : w0.dir = {})
    (hl0 : Rough env D w0 w) {h : Hdr} (hj : GoodJob env h) {ident : Option Bytes} {cs : List Bytes} (hc : GoodInput env cs) {uri : Bytes}
    (e : storeErr env D F fuel w h ident cs = .ok (w1, some uri)) (hl : Rough env D w1 w2)
    (hnew : ∀ gj, getjobNew env.ps env.pfx env.idSize fuel w uri ≠ .ok (.job gj)) :
    ∃ id G ops A x ys, uri = env.pfx ++ id ∧ ArchInv env (withGhosts G w2) ops A ∧ Haunted w2 G ∧ Holds env A id cs.flatten x ys ∧
      (∀ y ∈ x :: ys, w2.silos y.entry.silo ≠ none) ∧
      (Clear env w2 A id x ys → Undisturbed w2 A id x ys → ∀ q, idxValidId env.pfx env.idSize q = .ok id → ∀ fuel2, ys.length < fuel2 →
        ∃ gj, getjobNew env.ps env.pfx env.idSize fuel2 w2 q = .ok (.job gj) ∧
          ∀ cut : Bytes → List Bytes, (∀ b, (cut b).flatten = b) → getjobIterate env.ps cut gj collect [] false = .ok cs.flatten) := by
  obtain ⟨v, v', a1, -, a3, a4, a5, a6⟩ := C94_returns hz he hc e
  have r1 : Rough env D w0 v := .other hl0 a1.1 a1.2 (fun n _ h => a3 n h)
  have r2 : Rough env D v' w1 := .other (.refl v') a5.1 a5.2 (fun n h0 h => by rw [a6 n h0]; exact h)
  exact (C73_survives_partial hz he hw0 r1 hj hc a4 (rough_trans r2 hl) (fun gj => by rw [getjobNew_data a1.2 a1.1]; exact hnew gj)).2

/-! ### Finding a number -/

/-- C94: if `Wsilo_Next` returns a number then nobody holds it, there is no silo with it (unless `stat` has failed for one), and it is
the first such number: all in front of it are taken, or their directory could not be made. -/
theorem C94_next {silo hold : Nat → Bool} {F : Nat → NewFail} (fuel : Nat) : ∀ {n m : Nat}, nextErr silo hold F fuel n = .found m →
    n ≤ m ∧ hold m = false ∧ (silo m = false ∨ F m = .stat) ∧ ∀ k, n ≤ k → k < m → silo k = true ∨ hold k = true ∨ F k = .mkdir := by
  induction fuel with
  | zero => intro n m h; cases h
  | succ fuel ih =>
    intro n m h
    have next : (silo n = true ∨ hold n = true ∨ F n = .mkdir) → nextErr silo hold F fuel (n + 1) = .found m →
        n ≤ m ∧ hold m = false ∧ (silo m = false ∨ F m = .stat) ∧ ∀ k, n ≤ k → k < m → silo k = true ∨ hold k = true ∨ F k = .mkdir := by
      intro h1 h2
      obtain ⟨a1, a2, a3, a4⟩ := ih h2
      refine ⟨by omega, a2, a3, fun k k1 k2 => ?_⟩
      rcases Nat.lt_or_ge n k with hk | hk
      · exact a4 k hk k2
      · have : k = n := by omega
        rw [this]; exact h1
    rw [nextErr] at h
    split at h
    · rename_i hs
      exact next (.inl hs.1) h
    · rename_i hs
      split at h
      · rename_i hm
        exact next (.inr (.inr hm)) h
      · split at h
        · rename_i hh
          exact next (.inr (.inl hh)) h
        · rename_i hh
          split at h
          · cases h
          · cases h
            refine ⟨Nat.le_refl _, by simpa using hh, ?_, fun k k1 k2 => absurd k2 (by omega)⟩
            by_cases hst : F n = .stat
            · exact .inr hst
            · refine .inl ?_
              cases hsn : silo n with
              | false => rfl
              | true => exact absurd ⟨hsn, hst⟩ hs

/-- Without failing calls this is the function of the other theorems. -/
theorem C94_next_fine (silo hold : Nat → Bool) (fuel : Nat) : ∀ n, nextErr silo hold (fun _ => .fine) fuel n =
    match Cache.wsiloNext silo hold fuel n with
    | some m => .found m
    | none => .more := by
  induction fuel with
  | zero => intro n; rfl
  | succ fuel ih =>
    intro n
    rw [nextErr, Cache.wsiloNext]
    cases silo n <;> cases hold n <;> simp [ih]

/-- C94, the wrong part: when no directory can be made any more, the disk being full, a store does not give up: `Wsilo_Next` goes on
to the next number for ever. -/
theorem C94_counterexample_full (silo hold : Nat → Bool) {F : Nat → NewFail} {n : Nat} (h : ∀ k, n ≤ k → silo k = false → hold k = false → F k = .mkdir)
    (hs : ∀ k, silo k = true → F k ≠ .stat) (fuel : Nat) : nextErr silo hold F fuel n = .more := by
  induction fuel generalizing n with
  | zero => rfl
  | succ fuel ih =>
    have ih' := ih (n := n + 1) (fun k hk => h k (by omega))
    rw [nextErr]
    split
    · exact ih'
    · rename_i h1
      split
      · exact ih'
      · rename_i h2
        split
        · exact ih'
        · rename_i h3
          refine absurd (h n (Nat.le_refl _) ?_ (by simpa using h3)) h2
          cases hsn : silo n with
          | false => rfl
          | true => exact absurd ⟨hsn, hs n hsn⟩ h1

/-- An archive with one silo, and a full disk. -/
example : nextErr (fun n => n = 0) (fun _ => false) (fun _ => .mkdir) 1000 0 = .more :=
  C94_counterexample_full _ _ (fun _ _ _ _ => rfl) (fun _ _ => by decide) _

example : nextErr (fun n => n = 0) (fun n => n = 1) (fun n => if n = 2 then .mkdir else .fine) 10 0 = .found 3 := by decide

/-! ### Examples -/

/-- Store "hello", store other chunks with failing calls, and get both objects. -/
def errStoreGet (max : Nat) (F : Nat → Fails) (cs : List Bytes) : Res (Bytes × Bytes × List Nat) := do
  let env := Example.env max
  let r1 ← storeObj env Example.stored 10 emptyWorld Example.hdr none [b!"hello"]
  let r2 ← storeErr env Example.stored F 10 r1.1 Example.hdr none cs
  match r2.2 with
  | none => .fail
  | some uri => do
    let g1 ← getjobNew env.ps env.pfx env.idSize 10 r2.1 r1.2
    let g2 ← getjobNew env.ps env.pfx env.idSize 10 r2.1 uri
    match g1, g2 with
    | .job a, .job b => do
      let x ← getjobIterate env.ps (fun b => [b]) a collect [] false
      let y ← getjobIterate env.ps (fun b => [b]) b collect [] false
      return (x, y, (List.range 4).filter fun n => (r2.1.silos n).isSome)
    | _, _ => .fail

set_option maxRecDepth 1000000 in
/-- Without failing calls both objects are in one silo. -/
example : errStoreGet 5000 (fun _ => {}) [b!"goodbye"] = .ok (b!"hello", b!"goodbye", [0]) := by decide +kernel

set_option maxRecDepth 1000000 in
/-- If the first silo cannot be opened for writing, or not even looked at, the second object gets a silo of its own. -/
example : errStoreGet 5000 (fun _ => { app := fun _ => .silo, cache := fun _ => .upto 3 }) [b!"goodbye"] = .ok (b!"hello", b!"goodbye", [0, 1]) := by decide +kernel

set_option maxRecDepth 1000000 in
example : errStoreGet 5000 (fun _ => { app := fun _ => .stat, cache := fun _ => .noOpen }) [b!"goodbye"] = .ok (b!"hello", b!"goodbye", [0, 1]) := by decide +kernel

/-- Store "hello" and then "goodbye" with failing calls, so that there is no ID; store "goodbye" again, and get both objects. -/
def errAgain (max : Nat) (F : Nat → Fails) : Res (Bytes × Bytes) := do
  let env := Example.env max
  let r1 ← storeObj env Example.stored 10 emptyWorld Example.hdr none [b!"hello"]
  let r2 ← storeErr env Example.stored F 10 r1.1 Example.hdr none [b!"goodbye"]
  match r2.2 with
  | some _ => .fail
  | none => do
    let r3 ← storeObj env Example.stored 10 r2.1 Example.hdr none [b!"goodbye"]
    let g1 ← getjobNew env.ps env.pfx env.idSize 10 r3.1 r1.2
    let g2 ← getjobNew env.ps env.pfx env.idSize 10 r3.1 r3.2
    match g1, g2 with
    | .job a, .job b => do
      let x ← getjobIterate env.ps (fun b => [b]) a collect [] false
      let y ← getjobIterate env.ps (fun b => [b]) b collect [] false
      return (x, y)
    | _, _ => .fail

set_option maxRecDepth 1000000 in
/-- A full disk when the record is written, and an index file that cannot be opened. -/
example : errAgain 5000 (fun _ => { app := fun _ => .write 50 }) = .ok (b!"hello", b!"goodbye") := by decide +kernel

set_option maxRecDepth 1000000 in
example : errAgain 5000 (fun _ => { app := fun _ => .idx .noOpen }) = .ok (b!"hello", b!"goodbye") := by decide +kernel

/-- C94, the wrong part: a `link` that fails leaves index entries for a silo that is not there, and the object can not be stored any
more (as in C73). -/
def linkFails : Res Bool := do
  let env := Example.env 5000
  let r1 ← storeErr env Example.stored (fun _ => { link := true }) 10 emptyWorld Example.hdr none [b!"hello"]
  match r1.2, storeObj env Example.stored 10 r1.1 Example.hdr none [b!"hello"] with
  | none, .fail => return true
  | _, _ => return false

set_option maxRecDepth 1000000 in
theorem C94_counterexample_link : linkFails = .ok true := by decide +kernel

end Verif.Props
