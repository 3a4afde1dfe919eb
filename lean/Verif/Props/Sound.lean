/-
Property C64: what is delivered for an ID is one of the objects stored with that ID, and all of it.
-/
import Verif.Proofs.Sound

namespace Verif.Props
open Verif Header Gzip Ident Index Wsilo Segjob Getjob Spec MainStore Rsilo Inflate

theorem got_plain {ps : Nat} {pfx : Bytes} {w : World} {n : Nat} {xs : List Item} {gj : GJ} (g1 : GotItems w n xs gj.segs)
    (hc : ∀ y ∈ xs, y.record.Complete pfx y.hdr) (cut : Bytes → List Bytes) (hcut : ∀ b, (cut b).flatten = b) :
    getjobIterate ps cut gj collect [] false = .ok (xs.map (·.record.data)).flatten := by
  unfold getjobIterate
  rw [if_pos rfl, iterPlain_items g1 hc, deliver_collectFn]
  simp only [Res.ok_bind, Res.pure_eq, List.nil_append]
  congr 1
  clear g1 hc
  induction xs with
  | nil => rfl
  | cons y ys ih => rw [List.flatMap_cons, List.flatten_append, hcut, ih]; rfl

theorem got_single {ps : Nat} {pfx : Bytes} {w : World} {n : Nat} {x : Item} {gj : GJ} (hps : 0 < ps) (g1 : GotItems w n [x] gj.segs)
    (hc : x.record.Complete pfx x.hdr) (cut : Bytes → List Bytes) : getjobIterate ps cut gj collect [] true = .ok x.record.bgz ∧
    totalLength gj true = .ok (x.record.bgz.length : Int) := by
  unfold getjobIterate totalLength
  rw [if_neg (by simp)]
  cases hgs : gj.segs with
  | nil => rw [hgs] at g1; cases g1
  | cons g gs =>
    rw [hgs] at g1
    cases g1 with
    | cons h h2 =>
      cases h2
      obtain ⟨pre, post, e, -⟩ := gseg_file h
      refine ⟨?_, ?_⟩
      · simp only
        obtain ⟨rs, e3⟩ := readGZ_rec hps (pre := pre) (post := post) hc (fun s d => .ok (collect s d)) [] x.record.bgz (by
          rw [deliver_collectFn, pieces_flatten _ (by omega) _ _ (by omega)]
          rfl)
        rw [e, e3]
        rfl
      · have hb := member_length hc.body
        simp only [sumLen, if_true, e]
        have : bodyLen (atBody (pre ++ x.record.bytes ++ post) pre.length x.record) = .ok (x.record.bgz.length : Int) := rfl
        rw [this]
        simp only [Res.ok_bind]
        rw [decide_eq_true (by omega)]
        simp

/-- A record's index search is safe, for the ID and for all the continuation fields. -/
def AllSafe (w : World) (A : List Item) (id : Bytes) : Prop :=
  ∀ F, w.dir.sorted = some F → SeekSafe F id ∧ ∀ y ∈ A, SeekSafe F y.entry.cont

/-- C64: in an archive made by `store` and housekeeping, where no two segmented objects have the same ID: whatever is found for an ID are the records of one
object with that ID, from the first to the last, in order. -/
theorem C64_found_partial {σ : Type} {env : Env} {D : Deflater σ} (hz : Zlib D) (he : EnvOk env) {g : Bool} {w0 w : World} (hw0 : w0.dir = {})
    (hs0 : ∀ n, w0.silos n = none) (h0 : Stores env D g w0 w) :
    ∃ ops A, ArchInv env w ops A ∧ (A.length < 2 ^ 31 → FirstsApart A → ∀ q id, idxValidId env.pfx env.idSize q = .ok id → AllSafe w A id →
      ∀ fuel gj, getjobNew env.ps env.pfx env.idSize fuel w q = .ok (.job gj) →
        ∃ x ys, (∀ y ∈ x :: ys, y ∈ A) ∧ Honest env g x ys ∧ SameId x.hdr.id id ∧ GotItems w 1 (x :: ys) gj.segs ∧
          ∀ cut : Bytes → List Bytes, (∀ b, (cut b).flatten = b) →
            getjobIterate env.ps cut gj collect [] false = .ok ((x :: ys).map (·.record.data)).flatten) := by
  obtain ⟨ops, A, P, objs, I, ha, -, hp⟩ := stores_inv hz he h0 hw0 hs0
  refine ⟨ops, A, ha, ?_⟩
  intro hfew hap q id hq hseek fuel gj hg
  obtain ⟨-, u6, u7⟩ := (C11_valid_id _ _ _ _).1 hq
  have hne : A ≠ [] := by
    rintro rfl
    exact getjob_empty ha hfew hq (fun F hF => (hseek F hF).1) (by have := he.idSize; omega) gj hg
  have hfind := arch_finds ha hne hfew u6 (by have := he.idSize; omega) (fun F hF => (hseek F hF).1)
  have hfinds : ∀ y ∈ A, Finds w.dir A y.entry.cont := by
    intro y hy
    obtain ⟨c1, c2⟩ := arch_cont ha hy
    exact arch_finds ha hne hfew c1 (by omega) (fun F hF => (hseek F hF).2 y hy)
  obtain ⟨x, ys, h1, h2, h3⟩ := getjobNew_exact hp ha.there hfew hap hq hfind hfinds hg
  have hmem : ∀ y ∈ x :: ys, y ∈ A := by
    intro y hy
    apply (hp.perm.mem_iff).2
    rcases h1 with ⟨h1, rfl⟩ | h1
    · rw [List.mem_singleton] at hy
      rw [hy]
      exact List.mem_append_left _ h1
    · exact List.mem_append_right _ (List.mem_append_left _ (List.mem_flatMap.2 ⟨(x, ys), h1, hy⟩))
  have hh : Honest env g x ys := by
    rcases h1 with ⟨h1, rfl⟩ | h1
    · exact (hp.plain x h1).2.2
    · exact (hp.several _ h1).2.2.2.2
  exact ⟨x, ys, hmem, hh, h2, h3, fun cut hcut => got_plain h3 (fun y hy => (ha.there y (hmem y hy)).2.1) cut hcut⟩

/-- C64 for the command: what `get` writes are the contents of one of the objects stored with that ID, and the header it prints describes them. -/
theorem C64_get_partial {σ : Type} {env : Env} {D : Deflater σ} (hz : Zlib D) (he : EnvOk env) {cfg : List Config.Section} (hl : Listed env cfg)
    {w0 w : World} (hw0 : w0.dir = {}) (hs0 : ∀ n, w0.silos n = none) (h0 : Session env D cfg w0 w) :
    ∃ ops A, ArchInv env w ops A ∧ (A.length < 2 ^ 31 → FirstsApart A → ∀ q id, idxValidId env.pfx env.idSize q = .ok id → AllSafe w A id →
      ∀ fuel cut, (∀ b, (cut b).flatten = b) → ∀ hdrOnly quiet out, mainGet env fuel cut w ⟨hdrOnly, quiet, false⟩ q = .ok (some out) →
        ∃ x ys H, (∀ y ∈ x :: ys, y ∈ A) ∧ Honest env true x ys ∧ SameId x.hdr.id id ∧ Describes env H ((x :: ys).map (·.record.data)).flatten ∧ H.id = x.hdr.id ∧
          out = ⟨if quiet then [] else headerSerialize env.pfx H, if hdrOnly then [] else ((x :: ys).map (·.record.data)).flatten⟩) := by
  obtain ⟨ops, A, ha, hmain⟩ := C64_found_partial hz he hw0 hs0 (C59_history he hl h0)
  refine ⟨ops, A, ha, ?_⟩
  intro hfew hap q id hq hseek fuel cut hcut hdrOnly quiet out h
  unfold mainGet at h
  rw [Res.bind_eq_ok] at h
  obtain ⟨g, hg, h⟩ := h
  cases g with
  | error er => cases h
  | job gj =>
    simp only [Res.bind_eq_ok, Res.pure_eq, Res.ok.injEq, Option.some.injEq] at h
    obtain ⟨hd, h1, obj, h2, rfl⟩ := h
    obtain ⟨x, ys, m1, m2, m3, m4, m5⟩ := hmain hfew hap q id hq hseek fuel gj hg
    have m2' := m2
    obtain ⟨jh, ident, -, ht, -⟩ := m2'
    obtain ⟨H, k1, k2, k3, k4, -⟩ := headers_of he ht (ha.there x (m1 x (by simp))).2.1.parse (gotItems_hdr m4)
    refine ⟨x, ys, H, m1, m2, m3, k4, k3, ?_⟩
    have e1 : hd = if quiet then [] else headerSerialize env.pfx H := by
      rw [k1] at h1
      cases quiet <;> (cases h1; rfl)
    have e2 : obj = if hdrOnly then [] else ((x :: ys).map (·.record.data)).flatten := by
      cases hdrOnly with
      | true => cases h2; rfl
      | false =>
        simp only [Bool.false_eq_true, if_false] at h2 ⊢
        unfold getObj at h2
        rw [Res.bind_eq_ok] at h2
        obtain ⟨h9, -, h2⟩ := h2
        rw [Res.bind_eq_ok] at h2
        obtain ⟨h8, -, h2⟩ := h2
        rw [getIter_collect, m5 cut hcut, Res.ok_bind, if_neg (by simp), Res.bind_eq_ok] at h2
        obtain ⟨u, -, h2⟩ := h2
        cases h2
        rfl
    rw [e1, e2]

end Verif.Props
