/-
Property C81: after stores that were killed, reindexing makes an index again in which everything that was stored is found.
-/
import Verif.Proofs.RecoverIndex

namespace Verif.Props
open Verif Header Gzip Ident Index Wsilo Segjob Getjob Spec Inflate Crash
open _root_.Verif.Reindex (reindexMain)
open _root_.Verif.Commit (upd Silo)

/-- A resource or metadata. -/
def UserType (h : Hdr) : Prop := headerGet h b!"WARC-Type" = some b!"resource" ∨ headerGet h b!"WARC-Type" = some b!"metadata"

theorem userType_typed {h : Hdr} (ht : UserType h) : Typed h := by
  rcases ht with ht | ht
  · exact ⟨_, ht, by decide⟩
  · exact ⟨_, ht, by decide⟩

/-- What may happen to an archive, with stores that are killed: resources and metadata are stored, or their stores are cut off
somewhere, only not while a record is being appended to a silo; the index is housekept, silos are made with `mksilo`; silos are
write-protected, cache numbers forgotten, hold files made, and old hold files removed, except for those which the silo is
missing for. -/
inductive Killed {σ : Type} (env : Env) (D : Deflater σ) : World → World → Prop where
  | refl (w : World) : Killed env D w w
  | store {w w1 w2 : World} {fuel : Nat} {h : Hdr} {ident : Option Bytes} {cs : List Bytes} {uri : Bytes} :
      Killed env D w w1 → GoodJob env h → UserType h → GoodInput env cs → storeObj env D fuel w1 h ident cs = .ok (w2, uri) → Killed env D w w2
  | cut {w w1 w2 : World} {fuel : Nat} {h : Hdr} {ident : Option Bytes} {cs : List Bytes} {k : Nat} {a : At} :
      Killed env D w w1 → GoodJob env h → UserType h → GoodInput env cs → Untorn env a → storeCut env D fuel w1 h ident cs k a = .ok w2 → Killed env D w w2
  | housekeep {w w1 : World} {n : Nat} {d : Dir} : Killed env D w w1 → n % 32 = 0 → 0 < n → idxResort n w1.dir = .ok d →
      Killed env D w { w1 with dir := d }
  | mksilo {w w1 w2 : World} {n : Nat} {out : Mksilo.Out} : Killed env D w w1 → n < 2 ^ 32 → Mksilo.mksilo env w1 n = .ok (w2, out) → Killed env D w w2
  | other {w w1 w2 : World} : Killed env D w w1 → w2.dir = w1.dir → (∀ n, (w2.silos n).map (·.data) = (w1.silos n).map (·.data)) →
      (∀ n, w1.silos n = none → w1.holds n = true → w2.holds n = true) → Killed env D w w2

theorem killed_rough {σ : Type} {env : Env} {D : Deflater σ} {w w' : World} (h : Killed env D w w') : Rough env D w w' := by
  induction h with
  | refl => exact .refl _
  | store _ hj _ hc e ih => exact .store ih hj hc e
  | cut _ hj _ hc _ e ih => exact .cut ih hj hc e
  | housekeep _ hn hp e ih => exact .housekeep ih hn hp e
  | mksilo _ hn e ih => exact .mksilo ih hn e
  | other _ hd hs hh ih => exact .other ih hd hs hh

/-- What is there: the records `R`, which are objects, first segments of objects, and warcinfo records. -/
structure Site (env : Env) (w : World) (R P : List Item) (objs brk : List (Item × List Item)) (I : List Item) : Prop where
  lay : Layout w.silos R
  here : ∀ z ∈ R, Onsite env w.silos z
  pieces : Pieces env R P objs brk I

theorem site_add {env : Env} {w w' : World} {R P : List Item} {objs brk : List (Item × List Item)} {I : List Item} (h : Site env w R P objs brk I) (hg : Grown w.silos w'.silos)
    {Y : List Item} (hl : LayStep w.silos w'.silos Y) (hy : ∀ z ∈ Y, Onsite env w'.silos z) {P' : List Item} {objs' brk' : List (Item × List Item)} {I' : List Item}
    (hp : Pieces env (R ++ Y) P' objs' brk' I') : Site env w' (R ++ Y) P' objs' brk' I' := by
  refine ⟨hl R ?_ h.lay, ?_, hp⟩
  · intro z hz
    obtain ⟨⟨⟨f, _, _, e, -⟩, -⟩, -⟩ := h.here z hz
    rw [e]; simp
  · intro z hz
    rcases List.mem_append.1 hz with hz | hz
    · exact onsite_grown hg (h.here z hz)
    · exact hy z hz

/-- A successful store of something new. -/
theorem site_store {σ : Type} {env : Env} {D : Deflater σ} (hz : Zlib D) (he : EnvOk env) {G : Nat → Option Silo} {fuel : Nat} {w w' : World} {h : Hdr} (hj : GoodJob env h)
    (ht : UserType h) {ident : Option Bytes} {cs : List Bytes} (hc : GoodInput env cs) {uri : Bytes} {ops : List IdxOp} {A : List Item} (ha : ArchInv env (withGhosts G w) ops A)
    (hw : Haunted w G) (e : storeObj env D fuel w h ident cs = .ok (w', uri)) {R P : List Item} {objs brk : List (Item × List Item)} {I : List Item}
    (hs : Site env w R P objs brk I) :
    ∃ id, uri = env.pfx ++ id ∧ idxValidId env.pfx env.idSize uri = .ok id ∧ ∃ R' P' objs' I', Site env w' R' P' objs' brk I' ∧
      (∀ u us, Among P objs u us → Among P' objs' u us) ∧
      ((∃ gj, getjobNew env.ps env.pfx env.idSize fuel w id = .ok (.job gj)) ∨ ∃ B x ys, Holds env B id cs.flatten x ys ∧ Among P' objs' x ys) := by
  obtain ⟨id, u1, u2, -, -, u5, u6⟩ := store_ghosts hz he hj hc ha hw e
  refine ⟨id, u1, u2, ?_⟩
  rcases u6 with ⟨s0, s1, -⟩ | ⟨-, is2, X, x, ys, b1, b2, b3, b4, -, -, b7, c1, ⟨I2, c2, c3⟩, c4, c5, -⟩
  · exact ⟨R, P, objs, I, ⟨by rw [s1]; exact hs.lay, by rw [s1]; exact hs.here, hs.pieces⟩, fun _ _ h => h, .inl s0⟩
  · have hty : Typed x.hdr := by
      have := userType_typed ht
      unfold Typed at this ⊢
      rw [c4]; exact this
    obtain ⟨P', objs', p1, p2, p3⟩ := pieces_object hs.pieces c2 c3 hty (by rw [b4]; exact ((C11_valid_id _ _ _ _).1 u2).2.2) c5
    exact ⟨_, P', objs', _, site_add hs (grown_of_ghosts b2 u5) c1 (fun z hz => onsite_ghosts b1 (List.mem_append_right _ hz) (b7 z hz)) p1, p3, .inr ⟨_, x, ys, b3, p2⟩⟩

/-- After any such history the silos consist of complete records, and no object is lost. -/
theorem killed_inv {σ : Type} {env : Env} {D : Deflater σ} (hz : Zlib D) (he : EnvOk env) {w w' : World} (hl : Killed env D w w') {G : Nat → Option Silo} {ops : List IdxOp}
    {A : List Item} (ha : ArchInv env (withGhosts G w) ops A) (hw : Haunted w G) {R P : List Item} {objs brk : List (Item × List Item)} {I : List Item}
    (hs : Site env w R P objs brk I) :
    ∃ R' P' objs' brk' I', Site env w' R' P' objs' brk' I' ∧ ∀ u us, Among P objs u us → Among P' objs' u us := by
  induction hl with
  | refl => exact ⟨R, P, objs, brk, I, hs, fun _ _ h => h⟩
  | store h0 hj ht hc e ih =>
    obtain ⟨R1, P1, objs1, brk1, I1, s1, s2⟩ := ih
    obtain ⟨G', is, X, h1, h2, -⟩ := rough_inv hz he (killed_rough h0) ha hw
    obtain ⟨id, -, -, R2, P2, objs2, I2, t1, t2, -⟩ := site_store hz he hj ht hc h1 h2 e s1
    exact ⟨R2, P2, objs2, brk1, I2, t1, fun u us h => t2 u us (s2 u us h)⟩
  | cut h0 hj ht hc hu e ih =>
    obtain ⟨R1, P1, objs1, brk1, I1, s1, s2⟩ := ih
    obtain ⟨G', is, X, h1, h2, -⟩ := rough_inv hz he (killed_rough h0) ha hw
    obtain ⟨_, _, _, -, -, -, l4, l5⟩ := storeCut_left hz he hj hc h1 h2 e
    obtain ⟨Y, Z, J, y1, y2, y3, y4, y5⟩ := storeCut_real hz he hj hc h1 h2 hu e
    obtain ⟨P2, objs2, brk2, I2, t1, t2⟩ := pieces_stump s1.pieces y3 y4 y5 (userType_typed ht)
    exact ⟨_, P2, objs2, brk2, I2, site_add s1 (grown_of_ghosts l4 l5) y1 y2 t1, fun u us h => t2 u us (s2 u us h)⟩
  | housekeep _ _ _ _ ih =>
    obtain ⟨R1, P1, objs1, brk1, I1, s1, s2⟩ := ih
    exact ⟨R1, P1, objs1, brk1, I1, ⟨s1.lay, s1.here, s1.pieces⟩, s2⟩
  | mksilo h0 hn e ih =>
    obtain ⟨R1, P1, objs1, brk1, I1, s1, s2⟩ := ih
    obtain ⟨G', is, X, h1, h2, -⟩ := rough_inv hz he (killed_rough h0) ha hw
    rcases mksilo_inv e with ⟨-, rfl, -⟩ | ⟨m0, m1, m2, -, _, info, -, -, m4⟩
    · exact ⟨R1, P1, objs1, brk1, I1, s1, s2⟩
    · rcases mksilo_adds he h1 hn (ghosts_mksilo h2 e) with ⟨q, -⟩ | ⟨-, -, -, -, is2, y, a1, a2, a3, a4, a5, -, -⟩
      · rw [m0] at q; cases q
      · rename_i w1 w2 n _ _
        have hsn : w2.silos n = some { data := info, writable := true } := by rw [m4]; unfold upd; rw [if_pos rfl]
        have hby : info = y.record.bytes := by
          have := congrFun a5 n
          unfold withGhosts upd at this
          simp only [if_true, hsn, Option.some_or, Option.some.injEq, Silo.mk.injEq, and_true] at this
          exact this
        have hg : Grown w1.silos w2.silos := by
          rw [m4]
          exact grown_upd (fun g hg => by rw [m1] at hg; cases hg)
        refine ⟨_, P1, objs1, brk1, _, site_add (Y := [y]) s1 hg ?_ ?_ (pieces_info s1.pieces (fun z hz => by rw [List.mem_singleton] at hz; rw [hz]; exact a2)), s2⟩
        · intro B hB hl
          rw [m4]
          exact layout_one hB m1 a3 hby a4 hl
        · intro z hz
          refine onsite_ghosts a1 (List.mem_append_right _ hz) ?_
          rw [List.mem_singleton] at hz
          rw [hz, a3, hsn]
          simp
  | other _ hd hs' hh ih =>
    rename_i w1 w2 _
    obtain ⟨R1, P1, objs1, brk1, I1, s1, s2⟩ := ih
    have hg : Grown w1.silos w2.silos := by
      intro n f hf
      have := hs' n
      rw [hf] at this
      cases h : w2.silos n with
      | none => rw [h] at this; cases this
      | some g =>
        rw [h] at this
        simp only [Option.map_some, Option.some.injEq] at this
        exact ⟨g, [], rfl, by simp [this]⟩
    exact ⟨R1, P1, objs1, brk1, I1, ⟨layout_data hs' s1.lay, fun z hz => onsite_grown hg (s1.here z hz), s1.pieces⟩, s2⟩

theorem site_start {env : Env} {w0 : World} (hs0 : ∀ n, w0.silos n = none) : Site env w0 [] [] [] [] [] := by
  refine ⟨?_, fun z hz => (by cases hz), .refl _, fun x hx => (by cases hx), fun x hx => (by cases hx), fun x hx => (by cases hx), fun x hx => (by cases hx)⟩
  intro n f hf
  rw [hs0] at hf
  cases hf

/-- C81: the index can be made again after crashes.  However many stores have been killed before and after it, the silos consist
of complete records `R`; and if no two segmented objects among these have the same ID, then reindexing all silos into an empty
index succeeds.  Every entry of the new index is for one of the records; the object has its entries again; and if no record
clashes with it, getting its ID delivers exactly what was stored: index entries of silos that never came to be are gone. -/
theorem C81_recover_partial {σ : Type} {env : Env} {D : Deflater σ} (hz : Zlib D) (he : EnvOk env) {fuel : Nat} {w0 w w1 w2 : World} (hw0 : w0.dir = {}) (hs0 : ∀ n, w0.silos n = none)
    (hl0 : Killed env D w0 w) {h : Hdr} (hj : GoodJob env h) (ht : UserType h) {ident : Option Bytes} {cs : List Bytes} (hc : GoodInput env cs) {uri : Bytes}
    (e : storeObj env D fuel w h ident cs = .ok (w1, uri)) (hl : Killed env D w1 w2)
    (hnew : ∀ gj, getjobNew env.ps env.pfx env.idSize fuel w uri ≠ .ok (.job gj))
    {ns : List Nat} (hnd : ns.Nodup) (hns : ∀ n, n ∈ ns ↔ w2.silos n ≠ none) {sort fuel2 : Nat} (hsort : sort % 32 = 0 ∧ 0 < sort)
    (hfuel : ∀ n f, w2.silos n = some f → f.data.length < fuel2) :
    ∃ R id x ys, uri = env.pfx ++ id ∧ Layout w2.silos R ∧ (∀ z ∈ R, z.At env.ps env.pfx w2.silos) ∧ Holds env R id cs.flatten x ys ∧
      (FirstsDiffer R → R.length < 2 ^ 30 →
        ∃ d S ops A, reindexMain env.ps env.pfx env.idSize sort fuel2 w2.silos ns {} = .ok (d, S) ∧ ArchInv env { w2 with dir := d } ops A ∧
          (∀ z ∈ A, ∃ r ∈ R, SameRecord r z) ∧ (∀ s ∈ S, ∃ r ∈ R, s.id = r.hdr.id) ∧ Holds env A id cs.flatten x ys ∧
          (Clear env { w2 with dir := d } A id x ys → ∀ q, idxValidId env.pfx env.idSize q = .ok id → ∀ fuel3, ys.length < fuel3 →
            ∃ gj, getjobNew env.ps env.pfx env.idSize fuel3 { w2 with dir := d } q = .ok (.job gj) ∧
              ∀ cut : Bytes → List Bytes, (∀ b, (cut b).flatten = b) → getjobIterate env.ps cut gj collect [] false = .ok cs.flatten)) := by
  obtain ⟨s1, s2⟩ := rough_start (env := env) hw0
  obtain ⟨G, is, X, ha, hG, -⟩ := rough_inv hz he (killed_rough hl0) s1 s2
  obtain ⟨R0, P0, objs0, brk0, I0, t1, -⟩ := killed_inv hz he hl0 s1 s2 (site_start hs0)
  obtain ⟨id, u1, u2, R1, P1, objs1, I1, t2, -, u3⟩ := site_store hz he hj ht hc ha hG e t1
  obtain ⟨-, u6, u7⟩ := (C11_valid_id _ _ _ _).1 u2
  have hsame : getjobNew env.ps env.pfx env.idSize fuel w id = getjobNew env.ps env.pfx env.idSize fuel w uri := by
    have hb : idxValidId env.pfx env.idSize id = .ok id := by
      obtain ⟨p, hp⟩ := he.slash
      exact valid_bare _ _ _ (by rw [hp]; simp) u6 u7
    unfold getjobNew
    rw [hb, u2]
  rcases u3 with ⟨gj, u4⟩ | ⟨B, x, ys, u4, u5⟩
  · rw [hsame] at u4
    exact absurd u4 (hnew gj)
  · obtain ⟨G1, is1, X1, ha1, hG1, -⟩ := rough_inv hz he (.store (killed_rough hl0) hj hc e) s1 s2
    obtain ⟨R2, P2, objs2, brk2, I2, t3, t4⟩ := killed_inv hz he hl ha1 hG1 t2
    have hamong := t4 x ys u5
    have hpart : ∀ y ∈ x :: ys, y ∈ P2 ∨ y ∈ objs2.flatMap (fun o => o.1 :: o.2) := by
      intro y hy
      rcases hamong with ⟨rfl, h⟩ | h
      · rw [List.mem_singleton] at hy
        rw [hy]; exact .inl h
      · exact .inr (List.mem_flatMap.2 ⟨_, h, hy⟩)
    have hin : ∀ y ∈ x :: ys, y ∈ R2 := by
      intro y hy
      refine t3.pieces.perm.mem_iff.2 ?_
      simp only [List.mem_append]
      rcases hpart y hy with h | h
      · exact .inl h
      · exact .inr (.inl h)
    refine ⟨R2, id, x, ys, u1, t3.lay, fun z hz => (t3.here z hz).1, ⟨object_restrict hin u4.1, u4.2⟩, ?_⟩
    intro hf hfew
    obtain ⟨d, S, ops, A, Z, r1, r2, r3, -, r5, r6⟩ := reindex_pieces he t3.lay t3.here t3.pieces hf hfew hnd hns hsort hfuel
    have hbrk : ∀ r ∈ brk2.flatMap (fun o => o.1 :: o.2), r ∈ R2 := by
      intro r hr
      refine t3.pieces.perm.mem_iff.2 ?_
      simp only [List.mem_append]
      exact .inr (.inr (.inl hr))
    have hinA : ∀ y ∈ x :: ys, y ∈ A := by
      intro y hy
      refine r3.mem_iff.2 ?_
      simp only [List.mem_append]
      rcases hpart y hy with h | h
      · exact .inl h
      · exact .inr (.inl h)
    have hh : Holds env A id cs.flatten x ys := ⟨object_restrict hinA u4.1, u4.2⟩
    refine ⟨d, S, ops, A, r1, r2, ?_, ?_, hh, ?_⟩
    · intro z hz
      have hz := r3.mem_iff.1 hz
      simp only [List.mem_append] at hz
      have own : z ∈ R2 → ∃ r ∈ R2, SameRecord r z := fun h => ⟨z, h, rfl, rfl, rfl⟩
      rcases hz with h | h | h | h
      · exact own (t3.pieces.perm.mem_iff.2 (by simp only [List.mem_append]; exact .inl h))
      · exact own (t3.pieces.perm.mem_iff.2 (by simp only [List.mem_append]; exact .inr (.inl h)))
      · exact own (t3.pieces.perm.mem_iff.2 (by simp only [List.mem_append]; exact .inr (.inr (.inr h))))
      · obtain ⟨r, hr, h⟩ := r5 z h
        exact ⟨r, hbrk r hr, h⟩
    · intro s hs
      obtain ⟨r, hr, h⟩ := r6 s hs
      exact ⟨r, hbrk r hr, h⟩
    · intro hcl q hq fuel3 hf3
      obtain ⟨gj, g1, -, g3, -⟩ := C33_get_partial (gettable_of he r2 u6 u7 hh.1 hcl) hq hf3
      exact ⟨gj, g1, fun cut hcut => by rw [g3 cut hcut, hh.2.1]⟩

end Verif.Props
