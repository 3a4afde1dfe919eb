/-
Lemmas about stores that are cut off: what they leave behind can be described by silos that are missing.
-/
import Verif.Model.Crash
import Verif.Props.Store
import Verif.Proofs.Total

namespace Verif.Props
open Verif Header Gzip Ident Index Wsilo Segjob Getjob Spec Inflate Crash
open _root_.Verif.Commit (upd Silo)

/-! ### A job takes numbers that are not taken -/

theorem endSeg_no {σ : Type} {env : Env} {D : Deflater σ} {ident : Option Bytes} {c : Cur σ} {space : Nat} {s : Seg}
    (h : endSeg env D ident c space = .ok s) : s.silo.no = c.seg.silo.no := by
  unfold endSeg at h
  simp only [Res.bind_eq_ok, Res.check_eq_ok, exists_const] at h
  obtain ⟨-, r, h2, sp2, h3, q, h4, h5, sl, h6, h7⟩ := h
  obtain ⟨-, -, r3⟩ := runDeflate_inv h2
  obtain ⟨-, -, q3⟩ := runDeflate_inv h4
  obtain ⟨h', sl', f1, f2, rfl⟩ := finishseg_hdr h7
  obtain ⟨rfl, -, -⟩ := storeStep h6
  obtain ⟨f, rfl, -, -, -⟩ := wsiloFinish_inv f2
  simp only [q3, r3]

theorem moreInput_no {σ : Type} {sj : Job σ} {c : Cur σ} {ip : Bytes} {space : Nat} {m : Job σ × Cur σ × Bytes}
    (h : moreInput sj c ip space = .ok m) : m.2.1.seg.silo = c.seg.silo ∧ m.1.segs = sj.segs := by
  unfold moreInput at h
  split at h
  · simp only [Res.bind_eq_ok, Res.check_eq_ok, exists_const, Res.pure_eq, Res.ok.injEq] at h
    obtain ⟨-, rfl⟩ := h
    exact ⟨rfl, rfl⟩
  · simp only [Res.pure_eq, Res.ok.injEq] at h
    rw [← h]
    exact ⟨rfl, rfl⟩

theorem curSeg_fresh {σ : Type} {env : Env} {fuel : Nat} {D : Deflater σ} {w w' : World} {sj : Job σ} {c : Cur σ}
    (h : curSeg env fuel D w sj = .ok (w', c)) : (∀ n, w.holds n = true → w'.holds n = true) ∧
    ∀ n ∈ sj.segs.map (·.silo.no) ++ [c.seg.silo.no], n ∈ nos sj ∨ w.holds n = false := by
  unfold curSeg at h
  cases hc : sj.cur with
  | some c1 =>
    rw [hc] at h
    simp only [Res.ok.injEq, Prod.mk.injEq] at h
    obtain ⟨rfl, rfl⟩ := h
    refine ⟨fun _ h => h, fun n hn => .inl ?_⟩
    unfold nos
    rw [hc]
    exact hn
  | none =>
    rw [hc] at h
    obtain ⟨-, -, -, -, -, -, -, j7, -, j9, -⟩ := newseg_inv h
    refine ⟨fun n hn => ?_, fun n hn => ?_⟩
    · rw [j7]
      simp only [upd]
      split
      · rfl
      · exact hn
    · rcases List.mem_append.1 hn with hn | hn
      · exact .inl (by unfold nos; rw [List.mem_append]; exact .inl hn)
      · rw [List.mem_singleton] at hn
        rw [hn]
        exact .inr j9

theorem feedLoop_fresh {σ : Type} {env : Env} {D : Deflater σ} (fuel : Nat) : ∀ {w w' : World} {sj sj' : Job σ} {ip : Bytes},
    feedLoop env D fuel w sj ip = .ok (w', sj') → (∀ n, w.holds n = true → w'.holds n = true) ∧ ∀ n ∈ nos sj', n ∈ nos sj ∨ w.holds n = false := by
  induction fuel with
  | zero => intro w w' sj sj' ip h; cases h
  | succ fuel ih =>
    intro w w' sj sj' ip h
    rw [Segjob.feedLoop] at h
    simp only [Res.bind_eq_ok] at h
    obtain ⟨⟨w1, c⟩, h1, space, h2, h3⟩ := h
    obtain ⟨c1, c2⟩ := curSeg_fresh h1
    simp only at h3
    have next : ∀ {w2 : World} {sj1 sj2 : Job σ} {ip : Bytes}, nos sj1 = sj.segs.map (·.silo.no) ++ [c.seg.silo.no] → feedLoop env D fuel w1 sj1 ip = .ok (w2, sj2) →
        (∀ n, w.holds n = true → w2.holds n = true) ∧ ∀ n ∈ nos sj2, n ∈ nos sj ∨ w.holds n = false := by
      intro w2 sj1 sj2 ip hn e
      obtain ⟨a1, a2⟩ := ih e
      refine ⟨fun n h => a1 n (c1 n h), fun n hm => ?_⟩
      rcases a2 n hm with h | h
      · rw [hn] at h
        exact c2 n h
      · refine .inr ?_
        cases hw : w.holds n with
        | false => rfl
        | true => rw [c1 n hw] at h; cases h
    split at h3
    · simp only [Res.bind_eq_ok] at h3
      obtain ⟨s, h4, h5⟩ := h3
      have d5 := endSeg_no h4
      have hn : nos { sj with segs := sj.segs ++ [s], cur := (none : Option (Cur σ)) } = sj.segs.map (·.silo.no) ++ [c.seg.silo.no] := by
        simp [nos, curNo, d5]
      split at h5
      · simp only [Res.pure_eq, Res.ok.injEq, Prod.mk.injEq] at h5
        obtain ⟨rfl, rfl⟩ := h5
        exact ⟨c1, by rw [hn]; exact c2⟩
      · exact next hn h5
    · simp only [Res.bind_eq_ok] at h3
      obtain ⟨m, h4, z, h5, h6⟩ := h3
      obtain ⟨m1, m2⟩ := moreInput_no h4
      obtain ⟨-, -, z3⟩ := runDeflate_inv h5
      have hno : z.1.seg.silo.no = c.seg.silo.no := by rw [z3]; simp only [m1]
      have hn : nos { m.1 with cur := some z.1 } = sj.segs.map (·.silo.no) ++ [c.seg.silo.no] := by
        simp [nos, curNo, hno, m2]
      split at h6
      · exact next hn h6
      · simp only [Res.pure_eq, Res.ok.injEq, Prod.mk.injEq] at h6
        obtain ⟨rfl, rfl⟩ := h6
        exact ⟨c1, by rw [hn]; exact c2⟩

theorem feedAll_fresh {σ : Type} {env : Env} {D : Deflater σ} {fuel : Nat} (cs : List Bytes) : ∀ {w w' : World} {sj sj' : Job σ},
    feedAll env D fuel cs w sj = .ok (w', sj') → (∀ n, w.holds n = true → w'.holds n = true) ∧ ∀ n ∈ nos sj', n ∈ nos sj ∨ w.holds n = false := by
  induction cs with
  | nil =>
    intro w w' sj sj' h
    simp only [feedAll, Res.ok.injEq, Prod.mk.injEq] at h
    obtain ⟨rfl, rfl⟩ := h
    exact ⟨fun _ h => h, fun _ h => .inl h⟩
  | cons c cs ih =>
    intro w w' sj sj' h
    rw [feedAll] at h
    simp only [Res.bind_eq_ok] at h
    obtain ⟨⟨w1, sj1⟩, h1, h2⟩ := h
    obtain ⟨a1, a2⟩ := feedLoop_fresh _ h1
    obtain ⟨b1, b2⟩ := ih h2
    refine ⟨fun n h => b1 n (a1 n h), fun n hn => ?_⟩
    rcases b2 n hn with h | h
    · exact a2 n h
    · refine .inr ?_
      cases hw : w.holds n with
      | false => rfl
      | true => rw [a1 n hw] at h; cases h

/-- A job that has been fed: as `fed_inv`, and its numbers were not held before. -/
theorem fed_fresh {σ : Type} {env : Env} {D : Deflater σ} {fuel : Nat} {w w1 w2 : World} {h : Hdr} {ident : Option Bytes}
    {sj sj1 sj2 : Job σ} {cs : List Bytes} (e0 : segjobNew env h ident = .ok sj) (e1 : feedAll env D fuel cs w sj = .ok (w1, sj1))
    (e2 : feedLoop env D fuel w1 sj1 [] = .ok (w2, sj2)) : (∀ n, w.holds n = true → w2.holds n = true) ∧ ∀ n ∈ nos sj2, w.holds n = false := by
  obtain ⟨-, -, -, -, -, a6⟩ := jobInv_new (D := D) (w := w) e0
  obtain ⟨b1, b2⟩ := feedAll_fresh _ e1
  obtain ⟨c1, c2⟩ := feedLoop_fresh _ e2
  refine ⟨fun n h => c1 n (b1 n h), fun n hn => ?_⟩
  rcases c2 n hn with h | h
  · rcases b2 n h with h | h
    · rw [a6] at h; cases h
    · exact h
  · cases hw : w.holds n with
    | false => rfl
    | true => rw [b1 n hw] at h; cases h

/-! ### Stores in an archive with missing silos -/

/-- The missing silos are not there, but their hold files are. -/
def Haunted (w : World) (G : Nat → Option Silo) : Prop := ∀ n, G n ≠ none → w.silos n = none ∧ w.holds n = true

theorem ghosts_congr {G : Nat → Option Silo} {w w' : World} (h : w'.silos = w.silos) : (withGhosts G w').silos = (withGhosts G w).silos := by
  unfold withGhosts
  simp only [h]

theorem haunted_apart {G : Nat → Option Silo} {l : List Nat} {w w' : World} (hw : Haunted w G) (h : Apart l w w') (hl : ∀ n ∈ l, G n = none) : Haunted w' G := by
  intro n hn
  obtain ⟨a1, a2⟩ := hw n hn
  obtain ⟨b1, b2⟩ := h.2 n (fun hm => hn (hl n hm))
  exact ⟨b2 a1, by rw [b1]; exact a2⟩

/-- No silo has lost anything, if none has in the archive with the missing silos. -/
theorem grown_of_ghosts {G G' : Nat → Option Silo} {w w' : World} (hg : Grown (withGhosts G w).silos (withGhosts G' w').silos)
    (h : ∀ n, w.silos n ≠ none → w'.silos n ≠ none) : Grown w.silos w'.silos := by
  intro n f hf
  obtain ⟨f', p, e1, e2⟩ := hg n f (by unfold withGhosts; simp only [hf, Option.some_or])
  refine ⟨f', p, ?_, e2⟩
  unfold withGhosts at e1
  simp only at e1
  cases hn : w'.silos n with
  | none => exact absurd hn (h n (by rw [hf]; simp))
  | some g =>
    rw [hn, Option.some_or] at e1
    exact e1

/-- What a successful store does in an archive with missing silos. -/
theorem store_ghosts {σ : Type} {env : Env} {D : Deflater σ} (hz : Zlib D) (he : EnvOk env) {G : Nat → Option Silo} {fuel : Nat} {w w' : World} {h : Hdr} (hj : GoodJob env h)
    {ident : Option Bytes} {cs : List Bytes} (hc : GoodInput env cs) {uri : Bytes} {ops : List IdxOp} {A : List Item} (ha : ArchInv env (withGhosts G w) ops A)
    (hw : Haunted w G) (e : storeObj env D fuel w h ident cs = .ok (w', uri)) :
    ∃ id, uri = env.pfx ++ id ∧ idxValidId env.pfx env.idSize uri = .ok id ∧ ObjectId env h ident cs.flatten id ∧ Haunted w' G ∧
      (∀ n, w.silos n ≠ none → w'.silos n ≠ none) ∧
      ((∃ gj, getjobNew env.ps env.pfx env.idSize fuel w id = .ok (.job gj)) ∧ w'.silos = w.silos ∧ w'.dir = w.dir ∨
       (∀ gj, getjobNew env.ps env.pfx env.idSize fuel w id ≠ .ok (.job gj)) ∧
       ∃ is X x ys, ArchInv env (withGhosts G w') (ops ++ is) (A ++ X) ∧ Grown (withGhosts G w).silos (withGhosts G w').silos ∧
        Holds env (A ++ X) id cs.flatten x ys ∧ x.hdr.id = id ∧
        (∀ y ∈ x :: ys, y ∈ X) ∧ (∀ z ∈ X, z ∈ x :: ys ∨ FlWarcinfo z.entry.flags = true) ∧ (∀ z ∈ X, w'.silos z.entry.silo ≠ none) ∧
        Adds env h w.silos w'.silos X x ys) := by
  unfold storeObj segjobCommit at e
  simp only [Res.bind_eq_ok] at e
  obtain ⟨sj, e0, ⟨w1, sj1⟩, e1, ⟨w2, sj2⟩, e2, e3⟩ := e
  simp only at e2 e3
  obtain ⟨a1, a2, a3, a4, a5, a6⟩ := fed_inv hz he.max hc.1 hc.2.1 e0 e1 e2
  obtain ⟨f1, f2⟩ := fed_fresh e0 e1 e2
  have hp := a1.payload
  rw [a5] at hp
  simp only [curContent, Option.map_none, Option.getD_none, List.append_nil] at hp
  have hnd := a1.rising.1
  rw [a5] at hnd
  simp only [curNo, Option.map_none, Option.toList_none, List.append_nil] at hnd
  have hn : nos sj2 = sj2.segs.map (·.silo.no) := by unfold nos; rw [a5]; simp [curNo]
  rw [hn] at a6 f2
  have hw2 : Haunted w2 G := fun n h => ⟨by rw [a6.silos]; exact (hw n h).1, f1 n (hw n h).2⟩
  have hG : ∀ n ∈ sj2.segs.map (·.silo.no), G n = none := by
    intro n hm
    cases hg : G n with
    | none => rfl
    | some f =>
      have := (hw n (by rw [hg]; simp)).2
      rw [f2 n hm] at this
      cases this
  have ha2 := archInv_same (w' := withGhosts G w2) ha (by exact a6.dir) (ghosts_congr a6.silos)
  obtain ⟨id, b1, b2, b3, b4, b5, b6⟩ := commitJob_ghosts he (by rw [a3]; exact hj.1) (by rw [a3]; exact hj.2.1) (by rw [a3]; exact hj.2.2) a1.segs hp a1.size
    (by rw [a2]; exact hc.2.2) hnd (fun s hs => hG _ (List.mem_map_of_mem hs)) ha2 e3
  rw [a2, a3, a4] at b5
  rw [a2] at b6
  simp only [getjobNew_congr a6.silos a6.dir] at b6
  rcases b6 with ⟨b6, rfl⟩ | ⟨b6, is, X, x, ys, c1, c2, c3, c4, c5, c6, c7, -, c9, c10, c11, c12⟩
  · obtain ⟨d1, d2, d3, d4⟩ := destroy_same sj2.segs w2
    refine ⟨id, b1, b2, b5, ?_, ?_, .inl ⟨b6, by rw [d1, a6.silos], by rw [d2, a6.dir]⟩⟩
    · intro n h
      obtain ⟨k1, k2⟩ := hw2 n h
      rw [d1, d4, if_neg (fun hm => h (hG n hm))]
      exact ⟨k1, k2⟩
    · intro n h
      rw [d1, a6.silos]; exact h
  · refine ⟨id, b1, b2, b5, haunted_apart hw2 c11 hG, fun n h => c11.1 n (by rw [a6.silos]; exact h), .inr ⟨b6, is, X, x, ys, c1, ?_, ⟨c3, c6, c7⟩, c9, c4, c5, c12, ?_⟩⟩
    · rw [← ghosts_congr a6.silos]; exact c2
    · rw [a3, a6.silos] at c10; exact c10

/-! ### Cut off -/

/-- What is left behind can be described by missing silos, and nothing is lost. -/
def LeftBy (env : Env) (G : Nat → Option Silo) (w w' : World) (ops : List IdxOp) (A : List Item) : Prop :=
  ∃ G' is X, ArchInv env (withGhosts G' w') (ops ++ is) (A ++ X) ∧ Haunted w' G' ∧ (∀ n, G n ≠ none → G' n = G n) ∧
    Grown (withGhosts G w).silos (withGhosts G' w').silos ∧ ∀ n, w.silos n ≠ none → w'.silos n ≠ none

theorem writing_inv {env : Env} {w : World} {sl : Sl} {sn k : Nat} {r : Silo × World} (e : writing env w sl sn k = .ok r) :
    w.silos sn = some r.1 ∧ sn < sl.no ∧ r.1.data.length + ((env.pack9 (headerSerialize env.pfx sl.hd)).length + sl.tail.length) ≤ env.max ∧
    r.2 = { w with
      silos := upd w.silos sn (some { r.1 with data := r.1.data ++ (env.pack9 (headerSerialize env.pfx sl.hd) ++ sl.tail).take k }), holds := upd w.holds sn true } := by
  unfold writing at e
  split at e
  · cases e
  · rename_i f hf
    simp only [Res.bind_eq_ok, Res.check_eq_ok, exists_const, Res.pure_eq, Res.ok.injEq] at e
    obtain ⟨e1, -, -, e4, rfl⟩ := e
    exact ⟨hf, of_decide_eq_true e1, of_decide_eq_true e4, rfl⟩

theorem holds_upd {h : Nat → Bool} {n sn : Nat} (hn : h n = true) : upd h sn true n = true := by
  unfold upd
  split
  · rfl
  · exact hn

/-- When both index entries have been written, the missing silo makes the archive whole. -/
theorem installs {env : Env} {G : Nat → Option Silo} {w : World} {sl : Sl} {segd : Bool} {id : Bytes} {rid : Option Bytes} (hG : G sl.no = none) (hno : w.silos sl.no = none)
    {file : Bytes} {fl : Nat} {d1 d2 : Dir} (e1 : finalHold env sl = .ok file) (e2 : commitFlags sl segd rid = .ok fl)
    (e3 : idxInsert w.dir id fl sl.no sl.hdStart rid = .ok d1) (e4 : idxInsert d1 sl.infoId F_WARCINFO sl.no 0 none = .ok d2) :
    ∃ w', install env (withGhosts G w) sl segd id rid = .ok w' ∧ w'.dir = d2 ∧
      w'.silos = upd (withGhosts G w).silos sl.no (some { data := file, writable := true }) := by
  have hn : (withGhosts G w).silos sl.no = none := by unfold withGhosts; simp only [hno, hG, Option.none_or]
  unfold install
  rw [e1, Res.ok_bind, e2, Res.ok_bind, show (withGhosts G w).dir = w.dir from rfl, e3, Res.ok_bind, e4, Res.ok_bind, decide_eq_true hn]
  refine ⟨_, rfl, ?_, ?_⟩
  · unfold abandon putCache
    simp only
    split <;> rfl
  · unfold abandon putCache
    simp only
    split <;> rfl

theorem ghosts_new {G : Nat → Option Silo} {w : World} {n : Nat} {f : Silo} (hno : w.silos n = none) :
    (fun m => (w.silos m).or (upd G n (some f) m)) = upd (withGhosts G w).silos n (some f) := by
  funext m
  unfold upd withGhosts
  by_cases h : m = n
  · simp [h, hno]
  · simp [h]

theorem commitCut_left {env : Env} (he : EnvOk env) {G : Nat → Option Silo} {w w' : World} {ops : List IdxOp} {A : List Item} (ha : ArchInv env (withGhosts G w) ops A)
    (hw : Haunted w G) {sl : Sl} {content : Bytes} (hr : Ready env sl content) (hG : G sl.no = none) (hno : w.silos sl.no = none) (hho : w.holds sl.no = true)
    {segd : Bool} {rid : Option Bytes} (hrid : ∀ k, rid = some k → ∀ c ∈ k, isHex c)
    (htext : segd = false → (headerSerialize env.pfx sl.hd).length + 84 ≤ env.ps) {a : At}
    (e : commitCut env w sl segd sl.hd.id rid a = .ok w') : LeftBy env G w w' ops A := by
  have hstart : LeftBy env G w w ops A := ⟨G, [], [], by simpa using ha, hw, fun _ _ => rfl, grown_refl _, fun _ h => h⟩
  -- the part of installing that is common
  have inst : ∀ {w' : World} {G' : Nat → Option Silo} {file : Bytes} {fl : Nat} {d1 d2 : Dir}, finalHold env sl = .ok file → commitFlags sl segd rid = .ok fl →
      idxInsert w.dir sl.hd.id fl sl.no sl.hdStart rid = .ok d1 → idxInsert d1 sl.infoId F_WARCINFO sl.no 0 none = .ok d2 → w'.dir = d2 →
      (withGhosts G' w').silos = upd (withGhosts G w).silos sl.no (some { data := file, writable := true }) →
      ∃ is X, ArchInv env (withGhosts G' w') (ops ++ is) (A ++ X) ∧ Grown (withGhosts G w).silos (withGhosts G' w').silos := by
    intro w' G' file fl d1 d2 e1 e2 e3 e4 hd hs
    obtain ⟨w2, i1, i2, i3⟩ := installs hG hno e1 e2 e3 e4
    obtain ⟨fl, is, x, y, -, k2, -, -, -, k6, -⟩ := install_adds he ha hr hrid i1
    exact ⟨is, [x, y], archInv_same k2 (by show w'.dir = _; rw [hd, i2]) (by rw [hs, i3]), by rw [hs, ← i3]; exact k6⟩
  have dead : ∀ {d : Dir} {file : Bytes}, Haunted { w with dir := d } (upd G sl.no (some { data := file, writable := true })) := by
    intro d file n hn
    unfold upd at hn
    split at hn
    · rename_i h
      rw [h]; exact ⟨hno, hho⟩
    · exact hw n hn
  have old : ∀ {file : Bytes} n, G n ≠ none → upd G sl.no (some { data := file, writable := true }) n = G n := by
    intro file n hn
    unfold upd
    rw [if_neg (fun h => hn (by rw [h]; exact hG))]
  cases a with
  | start =>
    cases e
    exact hstart
  | writing sn k =>
    unfold commitCut at e
    simp only [Res.bind_eq_ok, Res.check_eq_ok, exists_const, Res.pure_eq, Res.ok.injEq] at e
    obtain ⟨-, r, e1, rfl⟩ := e
    obtain ⟨f1, -, -, f4⟩ := writing_inv e1
    have hs : (withGhosts G r.2).silos = upd (withGhosts G w).silos sn (some { r.1 with data := r.1.data ++ (env.pack9 (headerSerialize env.pfx sl.hd) ++ sl.tail).take k }) := by
      rw [f4]; exact ghosts_upd
    have hg : Grown (withGhosts G w).silos (withGhosts G r.2).silos := by
      rw [hs]
      refine grown_upd (fun g hg => ?_)
      unfold withGhosts at hg
      simp only [f1, Option.some_or, Option.some.injEq] at hg
      rw [← hg]
      exact ⟨_, rfl⟩
    refine ⟨G, [], [], ?_, ?_, fun _ _ => rfl, hg, ?_⟩
    · have := archInv_add (w' := withGhosts G r.2) ha [] [] (fun i hi => by cases hi) (by rw [f4]; rfl) rfl hg (fun x hx => by cases hx)
      simpa using this
    · intro n hn
      obtain ⟨a1, a2⟩ := hw n hn
      rw [f4]
      refine ⟨?_, holds_upd a2⟩
      simp only
      rw [upd_apart.2 n (fun h => by rw [h, f1] at a1; cases a1)]
      exact a1
    · intro n hn
      rw [f4]
      exact upd_apart.1 n hn
  | appended sn =>
    unfold commitCut at e
    simp only [Res.bind_eq_ok, Res.check_eq_ok, exists_const] at e
    obtain ⟨e0, e⟩ := e
    unfold appended at e
    simp only [Res.bind_eq_ok, Res.pure_eq, Res.ok.injEq] at e
    obtain ⟨r, e1, d, e2, rfl⟩ := e
    obtain ⟨f1, f2, f3, f4⟩ := writing_inv e1
    have hap : AppendedTo env w { r.2 with dir := d } sl (env.pack9 (headerSerialize env.pfx sl.hd)) sl.hd.id sn := by
      refine ⟨r.1, d, f1, ?_, rfl, f2, f3, ?_⟩
      · rw [f4] at e2; exact e2
      · rw [f4]
        simp only [List.take_length]
    obtain ⟨is, x, b1, -, b3, -⟩ := appended_adds he ha hr (htext (of_decide_eq_true e0)) (ghosts_appended (G := G) hap)
    refine ⟨G, is, [x], b1, ?_, fun _ _ => rfl, b3, ?_⟩
    · intro n hn
      obtain ⟨a1, a2⟩ := hw n hn
      rw [f4]
      refine ⟨?_, holds_upd a2⟩
      simp only
      rw [upd_apart.2 n (fun h => by rw [h, f1] at a1; cases a1)]
      exact a1
    · intro n hn
      rw [f4]
      exact upd_apart.1 n hn
  | entry =>
    unfold commitCut entry at e
    simp only [Res.bind_eq_ok, Res.pure_eq, Res.ok.injEq] at e
    obtain ⟨r, ⟨file, e1, fl, e2, d, e3, rfl⟩, rfl⟩ := e
    obtain ⟨ih, info, res, gz, i1, i2, -⟩ := hr.hold
    obtain ⟨d2, e4⟩ := idxInsert_total d (i := { id := ih.id, flags := F_WARCINFO, silo := sl.no, off := 0, cont := none })
      ⟨(infoHdr_ok he i1.1).2.1, (by show (2 : Nat) < 2 ^ 32; decide), hr.no, (by show (0 : Nat) < 2 ^ 63; decide), fun k hk => by cases hk⟩
    simp only at e4
    rw [← i2] at e4
    obtain ⟨w2, k1, k2, k3⟩ := installs hG hno e1 e2 e3 e4
    obtain ⟨fl', is, x, y, m1, m2, -, -, -, m6, -, -, -, -, -, -, -, j, m7⟩ := install_adds he ha hr hrid k1
    rw [e2] at m1
    cases m1
    have hs : (withGhosts (upd G sl.no (some { data := file, writable := true })) { w with dir := d }).silos = w2.silos := by
      rw [k3]; exact ghosts_new hno
    refine ⟨upd G sl.no (some { data := file, writable := true }), [.insert { id := sl.hd.id, flags := fl, silo := sl.no, off := sl.hdStart, cont := rid }], [x], ?_,
      dead, old, by rw [hs]; exact m6, fun _ h => h⟩
    rw [m7] at m2
    refine ⟨?_, ?_, ?_, ?_, ?_⟩
    · rw [runOps_append, ha.dir]
      simp only [Res.ok_bind, runOps]
      show (idxInsert w.dir sl.hd.id fl sl.no sl.hdStart rid >>= _) = _
      rw [e3]
      rfl
    · intro o ho
      refine m2.valid o ?_
      rcases List.mem_append.1 ho with h | h
      · exact List.mem_append_left _ h
      · rw [List.mem_singleton] at h
        rw [h]; exact List.mem_append_right _ (by simp)
    · have h1 := m2.entries
      have h2 := ha.entries
      rw [inserts_append, List.map_append, h2, List.map_append] at h1
      have h3 := List.append_cancel_left h1
      simp only [inserts, List.map_cons, List.map_nil, List.cons.injEq] at h3
      rw [inserts_append, List.map_append, h2, List.map_append]
      simp only [inserts, List.map_cons, List.map_nil]
      rw [h3.1]
    · intro z hz
      rw [hs]
      refine m2.there z ?_
      rcases List.mem_append.1 hz with h | h
      · exact List.mem_append_left _ h
      · rw [List.mem_singleton] at h
        rw [h]; exact List.mem_append_right _ (by simp)
    · intro z hz
      refine m2.text z ?_
      rcases List.mem_append.1 hz with h | h
      · exact List.mem_append_left _ h
      · rw [List.mem_singleton] at h
        rw [h]; exact List.mem_append_right _ (by simp)
  | entries =>
    unfold commitCut entries entry at e
    simp only [Res.bind_eq_ok, Res.pure_eq, Res.ok.injEq] at e
    obtain ⟨r, ⟨q, ⟨file, e1, fl, e2, d, e3, rfl⟩, d2, e4, rfl⟩, rfl⟩ := e
    obtain ⟨is, X, k1, k2⟩ := inst (w' := { w with dir := d2 }) (G' := upd G sl.no (some { data := file, writable := true })) e1 e2 e3 e4 rfl (ghosts_new hno)
    exact ⟨_, is, X, k1, dead, old, k2, fun _ h => h⟩
  | linked =>
    unfold commitCut linked entries entry at e
    simp only [Res.bind_eq_ok, Res.check_eq_ok, exists_const, Res.pure_eq, Res.ok.injEq] at e
    obtain ⟨r, ⟨q, ⟨file, e1, fl, e2, d, e3, rfl⟩, d2, e4, rfl⟩, -, rfl⟩ := e
    obtain ⟨is, X, k1, k2⟩ := inst (w' := { w with
      dir := d2, silos := upd w.silos sl.no (some { data := file, writable := true }) }) (G' := G) e1 e2 e3 e4 rfl ghosts_upd
    refine ⟨G, is, X, k1, ?_, fun _ _ => rfl, k2, fun n hn => upd_apart.1 n hn⟩
    intro n hn
    obtain ⟨a1, a2⟩ := hw n hn
    refine ⟨?_, a2⟩
    simp only
    rw [upd_apart.2 n (fun h => hn (by rw [h]; exact hG))]
    exact a1

theorem leftBy_trans {env : Env} {G : Nat → Option Silo} {w w1 w2 : World} {ops is : List IdxOp} {A X : List Item}
    (hg : Grown (withGhosts G w).silos (withGhosts G w1).silos) (hk : ∀ n, w.silos n ≠ none → w1.silos n ≠ none)
    (h : LeftBy env G w1 w2 (ops ++ is) (A ++ X)) : LeftBy env G w w2 ops A := by
  obtain ⟨G', is', X', h1, h2, h3, h4, h5⟩ := h
  exact ⟨G', is ++ is', X ++ X', by rw [← List.append_assoc, ← List.append_assoc]; exact h1, h2, h3, grown_trans hg h4, fun n hn => h5 n (hk n hn)⟩

/-- The header a segment is committed with. -/
theorem segHdr_neat {env : Env} (he : EnvOk env) {fid : Bytes} (hfid : ∀ c ∈ fid, isHex c = true) {size n : Nat} {s : Seg} (hs : SegR env n s) {last : Prop} [Decidable last]
    {h1 h2 : Hdr} (e1 : (if s.segno = 1 then headerSet s.hdr b!"WARC-Segment-Number" b!"1"
      else headerSetRef env.pfx env.idSize s.hdr b!"WARC-Segment-Origin-ID" fid) = .ok h1)
    (e2 : (if last then headerSet h1 b!"WARC-Segment-Total-Length" (dec size) else Res.ok h1) = .ok h2) : Neat h2 ∧ h2.id = s.hdr.id := by
  have hid1 : h1.id = s.hdr.id ∧ Neat h1 := by
    split at e1
    · exact ⟨(headerSet_inv hs.neat.1 e1).2.1, neat_set hs.neat e1 (by decide) (by decide)⟩
    · have e1 := (headerSetRef_inv e1).2
      refine ⟨(headerSet_inv hs.neat.1 e1).2.1, neat_set hs.neat e1 (by decide) (clean_ref he (clean_hex ?_))⟩
      intro c hc
      exact hfid c (List.mem_of_mem_take hc)
  split at e2
  · exact ⟨neat_set hid1.2 e2 (by decide) (clean_dec _), (headerSet_inv hid1.2.1 e2).2.1.trans hid1.1⟩
  · cases e2
    exact ⟨hid1.2, hid1.1⟩

theorem segsCut_left {env : Env} (he : EnvOk env) {G : Nat → Option Silo} {fid : Bytes} (hfid : ∀ c ∈ fid, isHex c = true) {size : Nat} {a : At}
    (ss : List Seg) : ∀ {n k : Nat} {w w' : World} {ops : List IdxOp} {A : List Item}, ArchInv env (withGhosts G w) ops A → Haunted w G → SegsR env n ss →
    (∀ t ∈ ss, G t.silo.no = none ∧ w.silos t.silo.no = none ∧ w.holds t.silo.no = true) → (ss.map (·.silo.no)).Pairwise (· < ·) →
    segsCut env fid size a k ss w = .ok w' → LeftBy env G w w' ops A := by
  induction ss with
  | nil => intro n k w w' ops A _ _ _ _ _ e; unfold segsCut at e; cases e
  | cons s ss ih =>
    intro n k w w' ops A ha hw hs hown hnd e
    obtain ⟨hs, hss⟩ := hs
    obtain ⟨o1, o2, o3⟩ := hown s (by simp)
    have hrid : ∀ k, ss.head?.map (·.hdr.id) = some k → ∀ c ∈ k, isHex c := by
      intro k hk
      cases ss with
      | nil => cases hk
      | cons t ss =>
        cases hk
        exact hss.1.id
    unfold segsCut at e
    rw [Res.bind_eq_ok] at e
    obtain ⟨h1, e1, e⟩ := e
    rw [Res.bind_eq_ok] at e
    obtain ⟨h2, e2, e⟩ := e
    obtain ⟨n2, i2⟩ := segHdr_neat he hfid hs e1 e2
    have hr := hs.ready h2 n2 (by rw [i2]; exact hs.id)
    cases k with
    | zero => exact commitCut_left he ha hw hr o1 o2 o3 hrid (fun h => by cases h) e
    | succ k =>
      simp only [Res.bind_eq_ok] at e
      obtain ⟨w1, e3, e4⟩ := e
      obtain ⟨fl, is, x, X, -, c2, -, c4, -⟩ := wsiloCommit_ghosts he ha hr o1 hrid (fun h => by cases h) (fun h => by cases h) e3
      have hap := (wsiloCommit_apart e3 :)
      rw [List.map_cons, List.pairwise_cons] at hnd
      refine leftBy_trans c4 hap.1 (ih c2 (haunted_apart hw hap ?_) hss ?_ hnd.2 e4)
      · intro m hm
        rw [List.mem_singleton] at hm
        rw [hm]; exact o1
      · intro t ht
        obtain ⟨p1, p2, p3⟩ := hown t (List.mem_cons_of_mem _ ht)
        have hne : t.silo.no ∉ [s.silo.no] := by
          intro h
          rw [List.mem_singleton] at h
          have := hnd.1 _ (List.mem_map_of_mem ht)
          omega
        obtain ⟨q1, q2⟩ := hap.2 _ hne
        exact ⟨p1, q2 p2, by rw [q1]; exact p3⟩

theorem jobCut_left {σ : Type} {env : Env} (he : EnvOk env) {G : Nat → Option Silo} {fuel : Nat} {w w' : World} {sj : Job σ} {ops : List IdxOp} {A : List Item}
    (hj : JobHdr env.idSize sj.hdr) (hn : Neat sj.hdr) (hsh : Short env sj.hdr)
    (hs : SegsDone env sj.hdr sj.ident 1 0 sj.segs) (hp : sj.payload = sj.segs.flatMap (·.content)) (hsize : sj.payload.length + env.max < 2 ^ 63)
    (hnd : (sj.segs.map (·.silo.no)).Pairwise (· < ·)) (hown : ∀ s ∈ sj.segs, G s.silo.no = none ∧ w.silos s.silo.no = none ∧ w.holds s.silo.no = true)
    (ha : ArchInv env (withGhosts G w) ops A) (hw : Haunted w G) {k : Nat} {a : At} (e : jobCut env fuel w sj k a = .ok w') : LeftBy env G w w' ops A := by
  unfold jobCut at e
  rw [Res.check_bind_eq_ok] at e
  obtain ⟨-, e⟩ := e
  have hcnt := nodup_length (2 ^ 32 - 1) _ (hnd.imp Nat.ne_of_lt) (fun n hm => by
    obtain ⟨s, hs1, rfl⟩ := List.mem_map.1 hm
    obtain ⟨b, hd⟩ := segsDone_mem _ hs s hs1
    obtain ⟨_, _, hb, -⟩ := hd.state
    have := hb.no
    omega)
  rw [List.length_map] at hcnt
  split at e
  · cases e
  · rename_i s ss hseg
    rw [hseg] at hs hp hcnt hnd hown
    obtain ⟨h1, hd, hrest⟩ := hs
    have hsz := sizes_sum _ hrest
    obtain ⟨_, _, hb, -⟩ := hd.state
    rw [hp, List.flatMap_cons, List.length_append] at hsize
    rw [List.length_cons] at hcnt
    simp only [Res.bind_eq_ok] at e
    obtain ⟨s', e1, uri', e2, g, e3, e4⟩ := e
    obtain ⟨-, -, u3, u4⟩ := digest2Ident_inv e2
    split at e4
    · cases e4
    by_cases hss : ss = []
    · subst hss
      rw [if_pos rfl] at e1 e4
      cases e1
      obtain ⟨o1, o2, o3⟩ := hown s (by simp)
      have hr := (done_segR he hj hn hsh hd (by omega) (by omega) u3).ready s.hdr (done_neat he hn hd).1 u3
      rw [← hd.hd] at hr
      have htext : (headerSerialize env.pfx s.silo.hd).length + 84 ≤ env.ps := by
        obtain ⟨h0, gz, hb0, -, -, ff⟩ := hd.state
        have e0 := hb0.hdr0
        have hl0 := seg0_len he hn (by omega) e0
        rw [h1] at e0
        obtain ⟨s0, i0, g1, g2, g3⟩ := seg0_first hj.sorted e0
        obtain ⟨-, -, l1, -⟩ := finishHdr_inv s0 g1 g2 (by rw [(he.sha _).1, (he.sha _).1]) (by rw [i0, hj.id]) ff
        have hz2 := hb.size
        have := dec_length s.size 18 (by omega)
        unfold Short at hsh
        rw [hd.hd]
        omega
      have hid : s.silo.hd.id = s.hdr.id := by rw [hd.hd]
      rw [← hid] at e4
      exact commitCut_left he ha hw hr o1 o2 o3 (fun k hk => by cases hk) (fun _ => htext) e4
    · rw [if_neg hss] at e1 e4
      unfold firstId at e1
      simp only [Res.bind_eq_ok, Res.pure_eq, Res.ok.injEq] at e1
      obtain ⟨g1, k1, g2, k2, rfl⟩ := e1
      have nd := (done_neat he hn hd).1
      have i1 := headerSet_inv nd.1 k1
      have n1 := neat_set nd k1 (by decide) (clean_sha he _)
      have n2 := neat_fields n1 (identSet_inv k2).1
      have hg2 : ∀ m, strcasecmp m b!"WARC-Payload-Digest" ≠ .eq → headerGet g2 m = headerGet s.hdr m := by
        intro m hm
        rw [get_of_fields (identSet_inv k2).1, i1.2.2.2.1, if_neg hm]
      have hsr : SegsR env 1 ({ s with hdr := g2, silo := { s.silo with hd := g2 } } :: ss) := by
        refine ⟨⟨h1, fun h a b => done_ready he hn hsh hd (by omega) (by omega) a b, n2, u3, u4, fun h => absurd rfl h, ?_, ?_, fun h => absurd rfl h, ?_, ?_,
          fun h => absurd rfl h⟩, ?_⟩
        · obtain ⟨q1, -⟩ := done_fields (fun d => (he.sha d).1) hj hd
          rw [← q1]
          exact typeFlag_congr (hg2 _ (by decide))
        · obtain ⟨-, q2, -⟩ := done_fields (fun d => (he.sha d).1) hj hd
          rw [← q2]
          exact hg2 _ (by decide)
        · obtain ⟨-, -, -, t2, -⟩ := segDone_hdr (fun d => (he.sha d).1) hj hd
          rw [← t2]; exact hg2 _ (by decide)
        · obtain ⟨-, -, t1, -⟩ := segDone_hdr (fun d => (he.sha d).1) hj hd
          rw [← t1]; exact hg2 _ (by decide)
        refine done_segsR he hj hn hsh ss hrest (by omega) (by omega) (by omega) ?_
        rw [hsz, hb.size]
        omega
      refine segsCut_left he u3 _ ha hw hsr ?_ hnd e4
      intro t ht
      rcases List.mem_cons.1 ht with rfl | ht
      · exact hown s (by simp)
      · exact hown t (List.mem_cons_of_mem _ ht)

/-- A store that is cut off loses nothing. -/
theorem storeCut_left {σ : Type} {env : Env} {D : Deflater σ} (hz : Zlib D) (he : EnvOk env) {G : Nat → Option Silo} {fuel : Nat} {w w' : World} {h : Hdr} (hj : GoodJob env h)
    {ident : Option Bytes} {cs : List Bytes} (hc : GoodInput env cs) {ops : List IdxOp} {A : List Item} (ha : ArchInv env (withGhosts G w) ops A)
    (hw : Haunted w G) {k : Nat} {a : At} (e : storeCut env D fuel w h ident cs k a = .ok w') : LeftBy env G w w' ops A := by
  unfold storeCut at e
  simp only [Res.bind_eq_ok] at e
  obtain ⟨sj, e0, ⟨w1, sj1⟩, e1, ⟨w2, sj2⟩, e2, e3⟩ := e
  simp only at e2 e3
  obtain ⟨a1, a2, a3, a4, a5, a6⟩ := fed_inv hz he.max hc.1 hc.2.1 e0 e1 e2
  obtain ⟨f1, f2⟩ := fed_fresh e0 e1 e2
  have hp := a1.payload
  rw [a5] at hp
  simp only [curContent, Option.map_none, Option.getD_none, List.append_nil] at hp
  have hnd := a1.rising.1
  have hown := a1.owned
  rw [a5] at hnd hown
  simp only [curNo, Option.map_none, Option.toList_none, List.append_nil] at hnd hown
  have hn : nos sj2 = sj2.segs.map (·.silo.no) := by unfold nos; rw [a5]; simp [curNo]
  rw [hn] at a6 f2
  have hw2 : Haunted w2 G := fun n h => ⟨by rw [a6.silos]; exact (hw n h).1, f1 n (hw n h).2⟩
  have hG : ∀ n ∈ sj2.segs.map (·.silo.no), G n = none := by
    intro n hm
    cases hg : G n with
    | none => rfl
    | some f =>
      have := (hw n (by rw [hg]; simp)).2
      rw [f2 n hm] at this
      cases this
  have ha2 := archInv_same (w' := withGhosts G w2) ha (by exact a6.dir) (ghosts_congr a6.silos)
  have h := jobCut_left he (by rw [a3]; exact hj.1) (by rw [a3]; exact hj.2.1) (by rw [a3]; exact hj.2.2) a1.segs hp
    (by rw [a2]; exact hc.2.2) hnd (fun s hs => ⟨hG _ (List.mem_map_of_mem hs), hown _ (List.mem_map_of_mem hs)⟩) ha2 hw2 e3
  obtain ⟨G', is, X, h1, h2, h3, h4, h5⟩ := h
  exact ⟨G', is, X, h1, h2, h3, by rw [← ghosts_congr a6.silos]; exact h4, fun n hn => h5 n (by rw [a6.silos]; exact hn)⟩

end Verif.Props
