/-
Property C73: what was stored survives later stores that are killed, or run into a full disk, at any point.
-/
import Verif.Proofs.Crash

namespace Verif.Props
open Verif Header Gzip Ident Index Wsilo Segjob Getjob Spec Inflate Crash
open _root_.Verif.Commit (upd Silo)

/-- What may happen to an archive, with crashes: objects are stored, stores are cut off in the middle, the index is housekept,
silos are made with `mksilo`; and silos are write-protected, cache numbers forgotten, hold files made, and old hold files
removed, except for those which the silo is missing for.  (The index entries for a silo are written before the silo gets its
name.) -/
inductive Rough {σ : Type} (env : Env) (D : Deflater σ) : World → World → Prop where
  | refl (w : World) : Rough env D w w
  | store {w w1 w2 : World} {fuel : Nat} {h : Hdr} {ident : Option Bytes} {cs : List Bytes} {uri : Bytes} :
      Rough env D w w1 → GoodJob env h → GoodInput env cs → storeObj env D fuel w1 h ident cs = .ok (w2, uri) → Rough env D w w2
  | cut {w w1 w2 : World} {fuel : Nat} {h : Hdr} {ident : Option Bytes} {cs : List Bytes} {k : Nat} {a : At} :
      Rough env D w w1 → GoodJob env h → GoodInput env cs → storeCut env D fuel w1 h ident cs k a = .ok w2 → Rough env D w w2
  | housekeep {w w1 : World} {n : Nat} {d : Dir} : Rough env D w w1 → n % 32 = 0 → 0 < n → idxResort n w1.dir = .ok d →
      Rough env D w { w1 with dir := d }
  | mksilo {w w1 w2 : World} {n : Nat} {out : Mksilo.Out} : Rough env D w w1 → n < 2 ^ 32 → Mksilo.mksilo env w1 n = .ok (w2, out) → Rough env D w w2
  | other {w w1 w2 : World} : Rough env D w w1 → w2.dir = w1.dir → (∀ n, (w2.silos n).map (·.data) = (w1.silos n).map (·.data)) →
      (∀ n, w1.silos n = none → w1.holds n = true → w2.holds n = true) → Rough env D w w2

theorem ghosts_mksilo {env : Env} {G : Nat → Option Silo} {w w' : World} (hw : Haunted w G) {n : Nat} {out : Mksilo.Out} (e : Mksilo.mksilo env w n = .ok (w', out)) :
    Mksilo.mksilo env (withGhosts G w) n = .ok (withGhosts G w', out) := by
  unfold Mksilo.mksilo Mksilo.wsiloNew at e ⊢
  rw [Res.bind_eq_ok] at e
  obtain ⟨r, e1, e2⟩ := e
  split at e1
  · rename_i hb
    cases e1
    simp only [Res.pure_eq, Res.ok.injEq, Prod.mk.injEq] at e2
    obtain ⟨rfl, rfl⟩ := e2
    rw [if_pos]
    · rfl
    · rcases hb with h | h
      · left
        unfold withGhosts
        simp only [Option.isSome_or, h, Bool.true_or]
      · exact .inr h
  · rename_i hb
    have hG : G n = none := by
      cases hg : G n with
      | none => rfl
      | some f => exact absurd (.inr (hw n (by rw [hg]; simp)).2) hb
    simp only [Res.bind_eq_ok, Res.pure_eq, Res.ok.injEq] at e1
    obtain ⟨sl, e1, rfl⟩ := e1
    have hno : sl.no = n := by
      unfold warcinfoNew at e1
      simp only [Res.bind_eq_ok, Res.pure_eq, Res.ok.injEq] at e1
      obtain ⟨ih, i1, s1, i2, s2, i3, s3, i4, i5⟩ := e1
      obtain ⟨rfl, -, -⟩ := storeFit_inv i2
      obtain ⟨rfl, -, -⟩ := storeFit_inv i3
      obtain ⟨rfl, -, -⟩ := storeFit_inv i4
      rw [← i5]
    rw [if_neg, e1]
    · simp only [Res.bind_eq_ok, Res.pure_eq, Res.ok.injEq, Prod.mk.injEq, Res.ok_bind] at e2 ⊢
      obtain ⟨w1, e2, rfl, rfl⟩ := e2
      refine ⟨_, ?_, rfl, rfl⟩
      unfold Mksilo.wsiloInstall at e2 ⊢
      simp only [Res.bind_eq_ok, Res.check_eq_ok, exists_const, Res.pure_eq, Res.ok.injEq] at e2 ⊢
      obtain ⟨d, e3, e4, e5⟩ := e2
      have e4 := of_decide_eq_true e4
      refine ⟨d, e3, ?_, ?_⟩
      · apply decide_eq_true
        unfold withGhosts
        simp only [hno, hG] at e4 ⊢
        rw [e4]
        rfl
      · rw [← e5]
        unfold abandon putCache withGhosts
        simp only
        split
        · simp only [ghosts_upd]
        · simp only [ghosts_upd]
    · unfold withGhosts
      simp only [hG, Option.or_none]
      exact hb

/-- After any such history the archive is what it was, with more records, except that silos may be missing. -/
theorem rough_inv {σ : Type} {env : Env} {D : Deflater σ} (hz : Zlib D) (he : EnvOk env) {w w' : World} (hl : Rough env D w w') {G : Nat → Option Silo} {ops : List IdxOp}
    {A : List Item} (ha : ArchInv env (withGhosts G w) ops A) (hw : Haunted w G) : LeftBy env G w w' ops A := by
  induction hl with
  | refl => exact ⟨G, [], [], by simpa using ha, hw, fun _ _ => rfl, grown_refl _, fun _ h => h⟩
  | store _ hj hc e ih =>
    obtain ⟨G', is, X, h1, h2, h3, h4, h5⟩ := ih
    obtain ⟨id, -, -, -, a1, a2, ⟨-, s1, s2⟩ | ⟨-, is2, X2, x, ys, b1, b2, -⟩⟩ := store_ghosts hz he hj hc h1 h2 e
    · exact ⟨G', is, X, archInv_same h1 s2 (ghosts_congr s1), a1, h3, by rw [ghosts_congr s1]; exact h4, fun n hn => a2 n (h5 n hn)⟩
    · exact ⟨G', is ++ is2, X ++ X2, by rw [← List.append_assoc, ← List.append_assoc]; exact b1, a1, h3, grown_trans h4 b2, fun n hn => a2 n (h5 n hn)⟩
  | cut _ hj hc e ih =>
    obtain ⟨G', is, X, h1, h2, h3, h4, h5⟩ := ih
    obtain ⟨G2, is2, X2, a1, a2, a3, a4, a5⟩ := storeCut_left hz he hj hc h1 h2 e
    exact ⟨G2, is ++ is2, X ++ X2, by rw [← List.append_assoc, ← List.append_assoc]; exact a1, a2,
      fun n hn => by rw [a3 n (by rw [h3 n hn]; exact hn), h3 n hn], grown_trans h4 a4, fun n hn => a5 n (h5 n hn)⟩
  | housekeep _ hn hp e ih =>
    rename_i w1 n d _
    obtain ⟨G', is, X, h1, h2, h3, h4, h5⟩ := ih
    refine ⟨G', is ++ [.housekeep n], X, ⟨?_, ?_, ?_, h1.there, h1.text⟩, h2, h3, h4, h5⟩
    · rw [← List.append_assoc, runOps_append, h1.dir]
      simp only [Res.ok_bind, runOps]
      show (idxResort n w1.dir >>= _) = _
      rw [e]
      rfl
    · intro o ho
      rw [← List.append_assoc] at ho
      rcases List.mem_append.1 ho with h | h
      · exact h1.valid o h
      · rw [List.mem_singleton] at h
        rw [h]; exact ⟨hn, hp⟩
    · rw [← List.append_assoc, inserts_append]
      simpa [inserts] using h1.entries
  | mksilo _ hn e ih =>
    obtain ⟨G', is, X, h1, h2, h3, h4, h5⟩ := ih
    rcases mksilo_inv e with ⟨-, rfl, -⟩ | ⟨m0, m1, m2, m3, _, _, -, -, m4⟩
    · exact ⟨G', is, X, h1, h2, h3, h4, h5⟩
    · rcases mksilo_adds he h1 hn (ghosts_mksilo h2 e) with ⟨q, -⟩ | ⟨-, -, -, -, is2, y, a1, -, -, -, -, a2, -⟩
      · rw [m0] at q; cases q
      · refine ⟨G', is ++ is2, X ++ [y], by rw [← List.append_assoc, ← List.append_assoc]; exact a1, ?_, h3, grown_trans h4 a2, ?_⟩
        · intro n hn
          obtain ⟨k1, k2⟩ := h2 n hn
          rw [m3, m4]
          refine ⟨?_, k2⟩
          rw [upd_apart.2 n (fun h => by rw [h, m2] at k2; cases k2)]
          exact k1
        · intro n hn
          rw [m4]
          exact upd_apart.1 n (h5 n hn)
  | other _ hd hs hh ih =>
    rename_i w1 w2 _
    obtain ⟨G', is, X, h1, h2, h3, h4, h5⟩ := ih
    have hnone : ∀ n, w2.silos n = none ↔ w1.silos n = none := by
      intro n
      rw [← Option.map_eq_none_iff (f := (·.data)), hs, Option.map_eq_none_iff]
    have hg : Grown (withGhosts G' w1).silos (withGhosts G' w2).silos := by
      intro n f hf
      have := hs n
      unfold withGhosts at hf ⊢
      simp only at hf ⊢
      cases h1 : w1.silos n with
      | none =>
        rw [h1] at hf
        rw [(hnone n).2 h1]
        exact ⟨f, [], hf, by simp⟩
      | some g1 =>
        rw [h1] at hf this
        cases h : w2.silos n with
        | none => rw [h] at this; cases this
        | some g =>
          rw [h] at this
          simp only [Option.map_some, Option.some.injEq, Option.some_or] at this hf ⊢
          exact ⟨g, [], rfl, by rw [this, hf]; simp⟩
    refine ⟨G', is, X, ⟨by rw [show (withGhosts G' w2).dir = w1.dir from hd]; exact h1.dir, h1.valid, h1.entries, fun x hx => at_grown hg (h1.there x hx), h1.text⟩,
      ?_, h3, grown_trans h4 hg, ?_⟩
    · intro n hn
      obtain ⟨k1, k2⟩ := h2 n hn
      exact ⟨(hnone n).2 k1, hh n k1 k2⟩
    · intro n hn h0
      exact h5 n hn ((hnone n).1 h0)

/-! ### Getting what was stored -/

/-- The silo is there. -/
def Real (w : World) (z : Item) : Bool := (w.silos z.entry.silo).isSome

/-- No index entry for a missing silo comes up when the object is looked up. -/
def Undisturbed (w : World) (A : List Item) (id : Bytes) (x : Item) (ys : List Item) : Prop :=
  ∀ z ∈ A, w.silos z.entry.silo = none → Matches id z.entry = false ∧ ∀ y ∈ (x :: ys).dropLast, Matches y.entry.cont z.entry = false

theorem linked_restrict {pfx : Bytes} {A B : List Item} {id : Bytes} (ys : List Item) : ∀ {n : Nat} {x : Item}, (∀ y ∈ ys, y ∈ B) →
    Linked pfx A id n x ys → Linked pfx B id n x ys := by
  induction ys with
  | nil => intro n x _ h; exact h
  | cons y ys ih =>
    intro n x hB hl
    obtain ⟨a1, a2, -, a4, a5, a6, a7, a8, a9⟩ := hl
    exact ⟨a1, a2, hB y (by simp), a4, a5, a6, a7, a8, ih (fun z hz => hB z (by simp [hz])) a9⟩

theorem object_restrict {pfx : Bytes} {A B : List Item} {id : Bytes} {x : Item} {ys : List Item} (hB : ∀ y ∈ x :: ys, y ∈ B) (ho : IsObject pfx A id x ys) :
    IsObject pfx B id x ys := by
  obtain ⟨-, a2, a3, a4, a5⟩ := ho
  refine ⟨hB x (by simp), a2, a3, a4, ?_⟩
  rcases a5 with a5 | ⟨b1, b2, b3, b4⟩
  · exact .inl a5
  · exact .inr ⟨b1, b2, b3, linked_restrict ys (fun y hy => hB y (by simp [hy])) b4⟩

theorem onlyChain_sub {pfx : Bytes} {idSize : Nat} {A B : List Item} {id : Bytes} (h : ∀ x ∈ B, x ∈ A) (ys : List Item) : ∀ {x : Item},
    OnlyChain pfx idSize A id x ys → OnlyChain pfx idSize B id x ys := by
  induction ys with
  | nil => intro x _; trivial
  | cons y ys ih => intro x hc; exact ⟨fun z hz => hc.1 z (h z hz), ih hc.2⟩

theorem finds_restrict {d : Dir} {A B : List Item} {k : Bytes} (hs : ∀ x ∈ B, x ∈ A) (h : ∀ x ∈ A, Matches k x.entry = true → x ∈ B) (hf : Finds d A k) : Finds d B k := by
  obtain ⟨es, h1, h2⟩ := hf
  refine ⟨es, fun e => ?_, h2⟩
  rw [h1]
  constructor
  · rintro ⟨m, x, hx, rfl⟩
    exact ⟨m, x, h x hx m, rfl⟩
  · rintro ⟨m, x, hx, rfl⟩
    exact ⟨m, x, hs x hx, rfl⟩

theorem findsChain_drop {d : Dir} {A : List Item} (ys : List Item) : ∀ x, (∀ y ∈ (x :: ys).dropLast, Finds d A y.entry.cont) → FindsChain d A x ys := by
  induction ys with
  | nil => intro _ _; trivial
  | cons y ys ih =>
    intro x h
    rw [List.dropLast_cons_cons] at h
    exact ⟨h x (by simp), ih y (fun z hz => h z (by simp [hz]))⟩

theorem gettable_ghosts {env : Env} (he : EnvOk env) {G : Nat → Option Silo} {w : World} {ops : List IdxOp} {A : List Item} (ha : ArchInv env (withGhosts G w) ops A) {id : Bytes}
    (hid : ∀ c ∈ id, isHex c = true) (hl : id.length = env.idSize) {x : Item} {ys : List Item} (ho : IsObject env.pfx A id x ys)
    (hreal : ∀ y ∈ x :: ys, w.silos y.entry.silo ≠ none) (hc : Clear env w A id x ys) (hu : Undisturbed w A id x ys) :
    Gettable env.ps env.pfx env.idSize w (A.filter (Real w)) id x ys := by
  have hsub : ∀ x ∈ A.filter (Real w), x ∈ A := fun x hx => (List.mem_filter.1 hx).1
  have hin : ∀ z ∈ A, w.silos z.entry.silo ≠ none → z ∈ A.filter (Real w) := by
    intro z hz hr
    refine List.mem_filter.2 ⟨hz, ?_⟩
    unfold Real
    cases h : w.silos z.entry.silo with
    | none => exact absurd h hr
    | some f => rfl
  have hne : A ≠ [] := by intro h; have := ho.1; rw [h] at this; cases this
  refine ⟨?_, object_restrict (fun y hy => hin y (object_mem ho y hy) (hreal y hy)) ho, fun y hy => hc.first y (hsub y hy), onlyChain_sub hsub _ hc.chain, ?_, ?_⟩
  · intro z hz
    obtain ⟨h1, h2⟩ := List.mem_filter.1 hz
    obtain ⟨⟨f, pre, post, k1, k2⟩, k3⟩ := ha.there z h1
    refine ⟨⟨f, pre, post, ?_, k2⟩, k3⟩
    unfold Real at h2
    unfold withGhosts at k1
    simp only at k1
    cases h : w.silos z.entry.silo with
    | none => rw [h] at h2; cases h2
    | some g => rw [h, Option.some_or] at k1; exact k1
  · refine finds_restrict hsub (fun z hz hm => hin z hz (fun h0 => ?_))
      ((arch_finds ha hne hc.few hid (by have := he.idSize; omega) (fun F hF => (hc.seek F hF).1) :))
    rw [(hu z hz h0).1] at hm
    cases hm
  · apply findsChain_drop
    intro y hy
    obtain ⟨c1, c2⟩ := arch_cont ha (object_mem ho y ((List.dropLast_sublist _).subset hy))
    refine finds_restrict hsub (fun z hz hm => hin z hz (fun h0 => ?_))
      ((arch_finds ha hne hc.few c1 (by omega) (fun F hF => (hc.seek F hF).2 y ((List.dropLast_sublist _).subset hy)) :))
    rw [(hu z hz h0).2 y hy] at hm
    cases hm

theorem rough_start {env : Env} {w0 : World} (hw0 : w0.dir = {}) : ArchInv env (withGhosts (fun _ => none) w0) [] [] ∧ Haunted w0 (fun _ => none) :=
  ⟨⟨by show _ = Res.ok w0.dir; rw [hw0]; rfl, fun o ho => (by cases ho), rfl, fun x hx => (by cases hx), fun x hx => (by cases hx)⟩, fun n hn => absurd rfl hn⟩

/-- C73: what was stored survives.  However many stores before and after it have been killed, or have run into a full disk, at
any point, the object's segments are among the records of the archive, in silos that are there; and if no record clashes with
it, and no index entry of a silo that never came to be, getting its ID delivers exactly what was stored. -/
theorem C73_survives_partial {σ : Type} {env : Env} {D : Deflater σ} (hz : Zlib D) (he : EnvOk env) {fuel : Nat} {w0 w w1 w2 : World} (hw0 : w0.dir = {})
    (hl0 : Rough env D w0 w) {h : Hdr} (hj : GoodJob env h) {ident : Option Bytes} {cs : List Bytes} (hc : GoodInput env cs) {uri : Bytes}
    (e : storeObj env D fuel w h ident cs = .ok (w1, uri)) (hl : Rough env D w1 w2)
    (hnew : ∀ gj, getjobNew env.ps env.pfx env.idSize fuel w uri ≠ .ok (.job gj)) :
    Grown w1.silos w2.silos ∧
    ∃ id G ops A x ys, uri = env.pfx ++ id ∧ ArchInv env (withGhosts G w2) ops A ∧ Haunted w2 G ∧ Holds env A id cs.flatten x ys ∧
      (∀ y ∈ x :: ys, w2.silos y.entry.silo ≠ none) ∧
      (Clear env w2 A id x ys → Undisturbed w2 A id x ys → ∀ q, idxValidId env.pfx env.idSize q = .ok id → ∀ fuel2, ys.length < fuel2 →
        ∃ gj, getjobNew env.ps env.pfx env.idSize fuel2 w2 q = .ok (.job gj) ∧
          ∀ cut : Bytes → List Bytes, (∀ b, (cut b).flatten = b) → getjobIterate env.ps cut gj collect [] false = .ok cs.flatten) := by
  obtain ⟨s1, s2⟩ := rough_start (env := env) hw0
  obtain ⟨G, is, X, ha, hG, -⟩ := rough_inv hz he hl0 s1 s2
  obtain ⟨id, u1, u2, -, u5, -, u4⟩ := store_ghosts hz he hj hc ha hG e
  obtain ⟨-, u6, u7⟩ := (C11_valid_id _ _ _ _).1 u2
  have hsame : getjobNew env.ps env.pfx env.idSize fuel w id = getjobNew env.ps env.pfx env.idSize fuel w uri := by
    have hb : idxValidId env.pfx env.idSize id = .ok id := by
      obtain ⟨p, hp⟩ := he.slash
      exact valid_bare _ _ _ (by rw [hp]; simp) u6 u7
    unfold getjobNew
    rw [hb, u2]
  rcases u4 with ⟨⟨gj, u4⟩, -⟩ | ⟨-, is2, X2, x, ys, a1, -, a3, -, a5, -, a7, -⟩
  · rw [hsame] at u4
    exact absurd u4 (hnew gj)
  · obtain ⟨G2, is3, X3, b1, b2, b3, b4, b5⟩ := rough_inv hz he hl a1 u5
    have hh := holds_mono (B := [] ++ X ++ X2 ++ X3) (fun x hx => List.mem_append_left _ hx) a3
    have hreal : ∀ y ∈ x :: ys, w2.silos y.entry.silo ≠ none := fun y hy => b5 _ (a7 y (a5 y hy))
    refine ⟨grown_of_ghosts b4 b5, id, G2, _, _, x, ys, u1, b1, b2, hh, hreal, ?_⟩
    intro hcl hu q hq fuel2 hf
    obtain ⟨gj, g1, -, g3, -⟩ := C33_get_partial (gettable_ghosts he b1 u6 u7 hh.1 hreal hcl hu) hq hf
    exact ⟨gj, g1, fun cut hcut => by rw [g3 cut hcut, hh.2.1]⟩

/-- An ID which only index entries of missing silos are found for can not be got: an assertion fails (getjob.c:86). -/
theorem C73_dangling_fails {ps : Nat} {pfx : Bytes} {idSize : Nat} {w : World} {A : List Item} {q id : Bytes} (hq : idxValidId pfx idSize q = .ok id) (hf : Finds w.dir A id)
    (hx : ∃ x ∈ A, Matches id x.entry = true) (hg : ∀ x ∈ A, Matches id x.entry = true → w.silos x.entry.silo = none) (fuel : Nat) :
    getjobNew ps pfx idSize fuel w q = .fail := by
  unfold getjobNew
  rw [hq]
  simp only
  cases fuel with
  | zero => rfl
  | succ fuel =>
    obtain ⟨es, h1, h2⟩ := hf
    unfold getLoop
    obtain ⟨r, r1, r2, -⟩ := h2 _ (getjobIter ps pfx idSize w) (.ok { id := id, err := .notFound, segs := [] })
    rw [r1]
    simp only [Res.ok_bind]
    have hfail : r.1 = .fail := by
      rw [r2]
      cases es with
      | nil =>
        obtain ⟨x, m1, m2⟩ := hx
        cases (h1 x.entry).2 ⟨m2, x, m1, rfl⟩
      | cons e es =>
        obtain ⟨m, x, m1, rfl⟩ := (h1 e).1 (by simp)
        have hv : verdict ps pfx idSize w { id := id, err := .notFound, segs := [] } x.entry = .fail := by
          unfold verdict openRec
          rw [hg x m1 m]
          rfl
        have hi : getjobIter ps pfx idSize w (.ok { id := id, err := .notFound, segs := [] }) x.entry = (.fail, 1) := by
          unfold getjobIter
          simp only [hv]
        unfold Spec.deliver
        rw [hi]
        rfl
    rw [hfail]
    rfl

end Verif.Props
