/-
Property C69: storing comes to its end.
-/
import Verif.Proofs.CommitTotal
import Verif.Props.Dense

namespace Verif.Props
open Verif Header Gzip Ident Index Wsilo Segjob Getjob Spec Inflate
open _root_.Verif.Commit (upd Silo)

/-- What the archive is like: no silo and no hold file from number `N` on, and no silo is empty. -/
structure Roomful (w : World) (N : Nat) : Prop where
  free : ∀ n, N ≤ n → w.silos n = none ∧ w.holds n = false
  cache : (Cache.readCache w.cacheFile w.cache).firstNon ≤ N
  filled : ∀ n f, w.silos n = some f → f.data ≠ []

/-- C69, feeding: if zlib holds back no more than `Live` says, and a silo has room for two headers, then beginning a store job, feeding it any data in any
pieces, and ending its last segment come to their end: none of the assertions about the space left in a hold file, about what zlib returns, about
headers or about finding a silo number fails.  What remains is to be committed, and that comes to its end if no segment of several holds more
than ten times the size of a silo. -/
theorem C69_feed {σ : Type} {env : Env} {D : Deflater σ} {need : σ → Nat} (hz : Zlib D) (hL : Live D need) (he : EnvOk env) (hm : RoomEnv env) {w : World} {N : Nat}
    (hw : Roomful w N) {h : Hdr} {ident : Option Bytes} (hj : Storable env h ident) (hb : Begun h) {cs : List Bytes} (hc : GoodInput env cs)
    (hN : N + cs.flatten.length + 1 < 2 ^ 32) {fuel : Nat} (hfuel : 4 * cs.flatten.length + N + 4 ≤ fuel) :
    ∃ sj w1 sj1 w2 sj2, segjobNew env h ident = .ok sj ∧ feedAll env D fuel cs w sj = .ok (w1, sj1) ∧ feedLoop env D fuel w1 sj1 [] = .ok (w2, sj2) ∧
      sj2.segs.flatMap (·.content) = cs.flatten ∧
      ((∀ id, ObjectId env h ident cs.flatten id → ∃ g, getjobNew env.ps env.pfx env.idSize fuel w id = .ok g) →
        (sj2.segs.length ≤ 1 ∨ ∀ s ∈ sj2.segs, s.content.length ≤ 10 * env.max) → ∃ w' uri, storeObj env D fuel w h ident cs = .ok (w', uri)) := by
  obtain ⟨sj, e0⟩ := segjobNew_total (σ := σ) he hj hb
  obtain ⟨a1, a2, a3, a4, a5, a6⟩ := jobInv_new (D := D) (w := w) e0
  have hsegs : sj.segs.length = 0 ∧ sj.size = 0 := by
    unfold segjobNew at e0
    simp only [Res.bind_eq_ok, Res.check_eq_ok, exists_const, Res.pure_eq, Res.ok.injEq] at e0
    obtain ⟨-, -, -, rfl⟩ := e0
    exact ⟨rfl, rfl⟩
  have hcn : (curNo sj.cur).length = 0 := by rw [a5]; rfl
  have h62 : (2 : Nat) ^ 32 < 2 ^ 62 := by decide
  have hmx := hc.2.2
  obtain ⟨w1, sj1, N1, e1, b2, b3, b4, b5, b6⟩ := feedAll_total he hm hz hL (fuel := fuel) cs a1 (by rw [a2, a3]; exact hj) (by rw [a5]; intro c h; cases h) hw.free hw.cache hc.2.1
    hfuel hN (by omega) (by omega)
  obtain ⟨i1, i2, i3, i4, -, -, i7⟩ := feedAll_inv hz he.max cs a1 hc.2.1 e1
  have hcn1 : (curNo sj1.cur).length ≤ 1 := by cases sj1.cur <;> simp [curNo]
  have hsz1 : sj1.size = cs.flatten.length := by rw [i1.size, i2, a4, List.nil_append]
  obtain ⟨w2, sj2, N2, e2, -⟩ := feedLoop_total he hm hz hL fuel (ip := []) i1 (by rw [i3, i4, a2, a3]; exact hj) b2 b3 b4 (fun _ => i7 (.inr hc.1)) (by simp only [List.length_nil]; omega)
    (by simp only [List.length_nil]; omega) (by simp only [List.length_nil]; omega) (by simp only [List.length_nil]; omega)
  obtain ⟨c1, c2, c3, c4, c5, c6⟩ := fed_inv hz he.max hc.1 hc.2.1 e0 e1 e2
  have hp := c1.payload
  rw [c5] at hp
  simp only [curContent, Option.map_none, Option.getD_none, List.append_nil] at hp
  have hnd := c1.nodup
  have hown := c1.owned
  rw [c5] at hnd hown
  simp only [curNo, Option.map_none, Option.toList_none, List.append_nil] at hnd hown
  refine ⟨sj, w1, sj1, w2, sj2, e0, e1, e2, by rw [← hp, c2], ?_⟩
  intro hlook hten
  obtain ⟨⟨w', uri⟩, e3⟩ := commitJob_total (sj := sj2) (w := w2) (fuel := fuel) he (by rw [c3, c4]; exact hj) c1.segs hp c1.size
    (by rw [c2]; intro h0; have := hc.1; cases hcs : cs with
        | nil => exact this hcs
        | cons c cs' =>
          rw [hcs, List.flatten_cons] at h0
          exact hc.2.1 c (by rw [hcs]; simp) (List.append_eq_nil_iff.1 h0).1)
    (by rw [c2]; exact hc.2.2) hnd (fun s hs => (hown _ (List.mem_map_of_mem hs)).1) (fun n f hf => hw.filled n f (by rw [← c6.silos]; exact hf))
    (by
      intro id ho
      rw [c2, c3, c4] at ho
      obtain ⟨g, hg⟩ := hlook id ho
      exact ⟨g, by rw [getjobNew_congr c6.silos c6.dir]; exact hg⟩) hten
  refine ⟨w', uri, ?_⟩
  unfold storeObj segjobCommit
  rw [e0, Res.ok_bind, e1, Res.ok_bind, e2, Res.ok_bind, e3]

/-- C69: an object of at most ten times the size of a silo can be stored, if looking it up comes to an end. -/
theorem C69_store_partial {σ : Type} {env : Env} {D : Deflater σ} {need : σ → Nat} (hz : Zlib D) (hL : Live D need) (he : EnvOk env) (hm : RoomEnv env) {w : World} {N : Nat}
    (hw : Roomful w N) {h : Hdr} {ident : Option Bytes} (hj : Storable env h ident) (hb : Begun h) {cs : List Bytes} (hc : GoodInput env cs)
    (hten : cs.flatten.length ≤ 10 * env.max) (hN : N + cs.flatten.length + 1 < 2 ^ 32) {fuel : Nat} (hfuel : 4 * cs.flatten.length + N + 4 ≤ fuel)
    (hlook : ∀ id, ObjectId env h ident cs.flatten id → ∃ g, getjobNew env.ps env.pfx env.idSize fuel w id = .ok g) :
    ∃ w' uri, storeObj env D fuel w h ident cs = .ok (w', uri) := by
  obtain ⟨sj, w1, sj1, w2, sj2, -, -, -, e, k⟩ := C69_feed hz hL he hm hw hj hb hc hN hfuel
  refine k hlook (.inr fun s hs => ?_)
  have : s.content.length ≤ (sj2.segs.flatMap (·.content)).length := by
    obtain ⟨a, b, hab⟩ := List.append_of_mem hs
    rw [hab, List.flatMap_append, List.flatMap_cons, List.length_append, List.length_append]
    omega
  rw [e] at this
  omega

/-- A silo size that leaves room for a warcinfo record and a page. -/
theorem roomEnv_of {env : Env} (he : EnvOk env) (h : 2 * env.ps + 33000 ≤ env.max) : RoomEnv env := by
  intro n hn
  have h15 : (2 : Nat) ^ 15 = 32768 := by decide
  have h24 : crnlcrnl.length = 24 := rfl
  have hb := he.infoBody n hn
  unfold infoLen
  cases hi : infoHdr env n with
  | ok ih =>
    have := he.infoHdr n ih hn hi
    simp only
    omega
  | fail => simp only; omega
  | ub => simp only; omega

/-! ### Histories -/

theorem tidy_later {σ : Type} {env : Env} {D : Deflater σ} {P : Hdr → Option Bytes → Prop} {w0 w : World} (hl : Tidy env D P w0 w) : Later env D w0 w := by
  induction hl with
  | refl => exact .refl _
  | store _ hj hp hc e ih => exact .store ih hj hc e
  | housekeep _ h1 h2 e ih => exact .housekeep ih h1 h2 e
  | protect _ h1 h2 _ _ _ ih => exact .other ih h1 h2
  | process _ ih => exact .other ih rfl (fun _ => rfl)
  | lose _ ih => exact .other ih rfl (fun _ => rfl)

theorem store_filled {σ : Type} {env : Env} {D : Deflater σ} (hz : Zlib D) (he : EnvOk env) {fuel : Nat} {w w' : World} {h : Hdr} {ident : Option Bytes}
    {cs : List Bytes} (hc : GoodInput env cs) {uri : Bytes} (hw : Filled w) (e : storeObj env D fuel w h ident cs = .ok (w', uri)) : Filled w' := by
  unfold storeObj segjobCommit at e
  simp only [Res.bind_eq_ok] at e
  obtain ⟨sj, e0, ⟨w1, sj1⟩, e1, ⟨w2, sj2⟩, e2, e3⟩ := e
  simp only at e2 e3
  obtain ⟨-, -, -, -, -, a6⟩ := fed_inv hz he.max hc.1 hc.2.1 e0 e1 e2
  exact commitJob_filled he (fun n f hf => hw n f (by rw [← a6.silos]; exact hf)) e3

theorem tidy_filled {σ : Type} {env : Env} {D : Deflater σ} (hz : Zlib D) (he : EnvOk env) {P : Hdr → Option Bytes → Prop} {w0 w : World} (h0 : Filled w0)
    (hl : Tidy env D P w0 w) : Filled w := by
  induction hl with
  | refl => exact h0
  | store _ _ _ hc e ih => exact store_filled hz he hc ih e
  | housekeep _ _ _ _ ih => exact ih
  | protect _ _ hs _ _ _ ih =>
    rename_i w1 w2 _ _ _ _ _
    intro n f hf
    have := hs n
    rw [hf] at this
    cases h1 : w1.silos n with
    | none => rw [h1] at this; cases this
    | some g =>
      rw [h1] at this
      simp only [Option.map_some, Option.some.injEq] at this
      rw [this]
      exact ih n g h1
  | process _ ih => exact ih
  | lose _ ih => exact ih

/-- C69, histories: after any history of storing, housekeeping and write-protecting that began with an empty archive, any object of at most ten times the
size of a silo whose ID no record of the archive has can be stored, as long as there are silo numbers left. -/
theorem C69_history_partial {σ : Type} {env : Env} {D : Deflater σ} {need : σ → Nat} (hz : Zlib D) (hL : Live D need) (he : EnvOk env) (hm : RoomEnv env)
    {P : Hdr → Option Bytes → Prop} {w0 w : World} (hw0 : w0.dir = {}) (hs0 : ∀ n, w0.silos n = none) (hh0 : ∀ n, w0.holds n = false) (hc0 : w0.cache = ⟨0, 0⟩)
    (hf0 : w0.cacheFile = none) (hl : Tidy env D P w0 w) :
    ∃ ops A N, ArchInv env w ops A ∧ (∀ n, w.silos n ≠ none ↔ n < N) ∧
      ∀ {h : Hdr} {ident : Option Bytes} {cs : List Bytes} {fuel : Nat}, Storable env h ident → Begun h → GoodInput env cs → cs.flatten.length ≤ 10 * env.max →
        N + cs.flatten.length + 1 < 2 ^ 32 → 4 * cs.flatten.length + N + 4 ≤ fuel → A.length < 2 ^ 31 → (A = [] → w.dir = {}) →
        (∀ id, ObjectId env h ident cs.flatten id → (∀ x ∈ A, ¬ SameId x.hdr.id id) ∧ ∀ F, w.dir.sorted = some F → SeekSafe F id) →
        ∃ w' uri id, storeObj env D fuel w h ident cs = .ok (w', uri) ∧ uri = env.pfx ++ id ∧ ObjectId env h ident cs.flatten id ∧
          ∃ is X x ys, ArchInv env w' (ops ++ is) (A ++ X) ∧ Holds env (A ++ X) id cs.flatten x ys ∧ x.hdr.id = id := by
  obtain ⟨N, n1, n2, n3, n4⟩ := C56_no_gaps hz he hs0 hh0 hc0 hf0 hl
  have hstart : ArchInv env w0 [] [] := ⟨by rw [hw0]; rfl, fun o ho => (by cases ho), rfl, fun x hx => (by cases hx), fun x hx => (by cases hx)⟩
  obtain ⟨ops, A, ha, -⟩ := later_inv hz he (tidy_later hl) hstart
  simp only [List.nil_append] at ha
  have hfill := tidy_filled hz he (fun n f hf => by rw [hs0] at hf; cases hf) hl
  refine ⟨ops, A, N, ha, n1, ?_⟩
  intro h ident cs fuel hj hb hc hten hN hfuel hfew hempty hnew
  have hroom : Roomful w N := by
    refine ⟨fun n hn => ⟨?_, n2 n⟩, n4.non, hfill⟩
    by_cases hs : w.silos n = none
    · exact hs
    · have := (n1 n).1 hs
      omega
  obtain ⟨fuel', rfl⟩ : ∃ k, fuel = k + 1 := ⟨fuel - 1, by omega⟩
  have hlook : ∀ id, ObjectId env h ident cs.flatten id → getjobNew env.ps env.pfx env.idSize (fuel' + 1) w id = .ok (.error .notFound) := by
    intro id ho
    obtain ⟨g1, g2⟩ := objectId_good he hj.canId ho
    obtain ⟨p, hp⟩ := he.slash
    have hv := valid_bare env.pfx env.idSize id (by rw [hp]; simp) g1 g2
    by_cases h0 : A = []
    · exact C34_empty (hempty h0) hv
    · have h16 := he.idSize
      exact C34_not_found ha.there hv (arch_finds ha h0 hfew g1 (by omega) (hnew id ho).2) (hnew id ho).1
  obtain ⟨w', uri, e⟩ := C69_store_partial hz hL he hm hroom hj hb hc hten hN hfuel (fun id ho => ⟨_, hlook id ho⟩)
  obtain ⟨id, u1, -, u3, ⟨⟨gj, u4⟩, -⟩ | ⟨-, is, X, x, ys, v1, -, v3, v4, -⟩⟩ := store_adds hz he ⟨hj.job, hj.neat, hj.short⟩ hc ha e
  · rw [hlook id u3] at u4
    cases u4
  · exact ⟨w', uri, id, e, u1, u3, is, X, x, ys, v1, v3, v4⟩

end Verif.Props
