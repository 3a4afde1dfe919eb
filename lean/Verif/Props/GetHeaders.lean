/-
Property C55: the headers shown for a stored object describe the whole object.
-/
import Verif.Props.Store
import Verif.Props.HeaderParse
import Verif.Props.StoreExample

namespace Verif.Props
open Verif Header Gzip Ident Index Wsilo Segjob Getjob Spec Inflate
open _root_.Verif.Commit (upd Silo)

/-- A header that describes the contents: its digest and its length. -/
def Describes (env : Env) (h : Hdr) (payload : Bytes) : Prop :=
  headerGet h b!"WARC-Block-Digest" = some (b!"sha256:" ++ env.sha payload) ∧ headerGet h b!"Content-Length" = some (dec payload.length)

theorem cr_free_dec (n : Nat) : (13 : UInt8) ∉ dec n := (clean_dec n).1

theorem gjHeaders_one (pfx : Bytes) {gj : GJ} {g : GSeg} (h : gj.segs = [g]) : gjHeaders pfx gj = .ok (headerSerialize pfx g.hdr) := by
  unfold gjHeaders
  rw [h]

theorem gjHeaders_more (pfx : Bytes) {gj : GJ} {g : GSeg} {gs : List GSeg} (h : gj.segs = g :: gs) {l : GSeg} (hl : gs.getLast? = some l) {t p : Bytes}
    (ht : headerGet l.hdr b!"WARC-Segment-Total-Length" = some t) (hp : headerGet g.hdr b!"WARC-Payload-Digest" = some p) {h1 h2 : Hdr}
    (e1 : headerSet g.hdr b!"Content-Length" t = .ok h1) (e2 : headerSet h1 b!"WARC-Block-Digest" p = .ok h2) :
    gjHeaders pfx gj = .ok (headerSerialize pfx h2) := by
  unfold gjHeaders
  rw [h]
  cases gs with
  | nil => cases hl
  | cons g2 gs =>
    simp only [hl, ht, hp, clone_eq, e1, e2, Res.ok_bind, Res.pure_eq]

/-- The headers shown for an object whose records tell the truth. -/
theorem headers_of {env : Env} (he : EnvOk env) {jh : Hdr} {x : Item} {ys : List Item} (ht : Truthful env jh x ys) {t0 : Bytes}
    (hpx : headerParse env.pfx t0 = .ok x.hdr) {gj : GJ} (hg : gj.segs.map (·.hdr) = (x :: ys).map (·.hdr)) :
    ∃ H, gjHeaders env.pfx gj = .ok (headerSerialize env.pfx H) ∧ headerParse env.pfx (headerSerialize env.pfx H) = .ok H ∧ H.id = x.hdr.id ∧
      Describes env H ((x :: ys).map (·.record.data)).flatten ∧ ∀ m, Kept m → headerGet H m = headerGet jh m := by
  cases hgs : gj.segs with
  | nil => rw [hgs] at hg; cases hg
  | cons g gs =>
    rw [hgs] at hg
    simp only [List.map_cons, List.cons.injEq] at hg
    obtain ⟨g1, g2⟩ := hg
    by_cases hy : ys = []
    · subst hy
      have : gs = [] := by simpa using g2
      subst this
      refine ⟨x.hdr, by rw [gjHeaders_one _ hgs, g1], C14_parse_serialize _ _ _ hpx, rfl, ?_, ht.kept⟩
      show Describes env x.hdr [x.record.data].flatten
      rw [List.flatten_singleton]
      exact ht.told x (by simp)
    · have hd := ht.digest hy
      obtain ⟨payload, hpay⟩ : ∃ p, p = ((x :: ys).map (·.record.data)).flatten := ⟨_, rfl⟩
      obtain ⟨l, hl⟩ : ∃ l, gs.getLast? = some l := by
        cases h : gs.getLast? with
        | some l => exact ⟨l, rfl⟩
        | none =>
          rw [List.getLast?_eq_none_iff] at h
          rw [h] at g2
          exact absurd (List.map_eq_nil_iff.1 g2.symm) hy
      obtain ⟨z, hz⟩ : ∃ z, ys.getLast? = some z := by
        cases h : ys.getLast? with
        | some l => exact ⟨l, rfl⟩
        | none => exact absurd (List.getLast?_eq_none_iff.1 h) hy
      have hlz : l.hdr = z.hdr := by
        have h1 : (gs.map (·.hdr)).getLast? = some l.hdr := by rw [List.getLast?_map, hl]; rfl
        have h2 : (ys.map (·.hdr)).getLast? = some z.hdr := by rw [List.getLast?_map, hz]; rfl
        rw [g2, h2] at h1
        exact (Option.some.inj h1).symm
      have htot := ht.total hy z (by rw [List.getLast?_cons, hz]; rfl)
      rw [← hpay] at hd htot ⊢
      have hp := parse_printable hpx
      have hs := headerParse_sorted hpx
      obtain ⟨h1, e1, -⟩ := headerSet_spec x.hdr b!"Content-Length" (dec payload.length) hs (by decide)
      obtain ⟨i1, i2, i3, i4, -⟩ := headerSet_inv hs e1
      obtain ⟨h2, e2, -⟩ := headerSet_spec h1 b!"WARC-Block-Digest" (b!"sha256:" ++ env.sha payload) i3 (by decide)
      obtain ⟨j1, j2, j3, j4, -⟩ := headerSet_inv i3 e2
      have p1 := set_parsed hp.fields e1 (by decide) (cr_free_dec _)
      have p2 := set_parsed p1.1 e2 (by decide) (clean_sha he payload).1
      refine ⟨h2, gjHeaders_more env.pfx hgs hl (by rw [hlz]; exact htot) (by rw [g1]; exact hd) (by rw [g1]; exact e1) e2, ?_, by rw [j2, i2], ⟨?_, ?_⟩, ?_⟩
      · refine serialize_parse _ _ j3 ⟨hp.prefixSlash, hp.prefixChars, ?_, p2.1⟩
        rw [j2, i2]
        exact hp.idChars
      · rw [j4, if_pos (by decide)]
      · rw [j4, if_neg (by decide), i4, if_pos (by decide)]
      · intro m hm
        rw [j4, if_neg hm.2.1.1, i4, if_neg hm.2.1.2]
        exact ht.kept m hm

/-- C55: after an object has been stored, however many others are stored later, getting its ID shows headers that have
the ID, the SHA256 digest and the length of the whole contents, no matter in how many segments they were stored, and all
other fields as they were given; and these headers can be parsed again. -/
theorem C55_headers_partial {σ : Type} {env : Env} {D : Deflater σ} (hz : Zlib D) (he : EnvOk env) {fuel : Nat} {w0 w w1 w2 : World} (hw0 : w0.dir = {})
    (hl0 : Later env D w0 w) {h : Hdr} (hj : GoodJob env h) {ident : Option Bytes} {cs : List Bytes} (hc : GoodInput env cs) {uri : Bytes}
    (e : storeObj env D fuel w h ident cs = .ok (w1, uri)) (hl : Later env D w1 w2)
    (hnew : ∀ gj, getjobNew env.ps env.pfx env.idSize fuel w uri ≠ .ok (.job gj)) :
    ∃ id ops A x ys, uri = env.pfx ++ id ∧ ArchInv env w2 ops A ∧ Holds env A id cs.flatten x ys ∧
      (Clear env w2 A id x ys → ∀ q, idxValidId env.pfx env.idSize q = .ok id → ∀ fuel2, ys.length < fuel2 →
        ∃ gj H, getjobNew env.ps env.pfx env.idSize fuel2 w2 q = .ok (.job gj) ∧ gjHeaders env.pfx gj = .ok (headerSerialize env.pfx H) ∧
          headerParse env.pfx (headerSerialize env.pfx H) = .ok H ∧ H.id = id ∧ Describes env H cs.flatten ∧
          ∀ m, Kept m → headerGet H m = headerGet h m) := by
  have h0 : ArchInv env w0 [] [] := ⟨by rw [hw0]; rfl, fun o ho => (by cases ho), rfl, fun x hx => (by cases hx), fun x hx => (by cases hx)⟩
  obtain ⟨is, X, ha, -⟩ := later_inv hz he hl0 h0
  obtain ⟨id, u1, u2, -, u4⟩ := store_adds hz he hj hc ha e
  obtain ⟨-, u6, u7⟩ := (C11_valid_id _ _ _ _).1 u2
  have hsame : getjobNew env.ps env.pfx env.idSize fuel w id = getjobNew env.ps env.pfx env.idSize fuel w uri := by
    have hb : idxValidId env.pfx env.idSize id = .ok id := by
      obtain ⟨p, hp⟩ := he.slash
      exact valid_bare _ _ _ (by rw [hp]; simp) u6 u7
    unfold getjobNew
    rw [hb, u2]
  rcases u4 with ⟨⟨gj, u4⟩, -⟩ | ⟨-, is2, X2, x, ys, a1, -, a3, a4, -, -, a7⟩
  · rw [hsame] at u4
    exact absurd u4 (hnew gj)
  · obtain ⟨is3, X3, b1, -⟩ := later_inv hz he hl a1
    have hh := holds_mono (B := [] ++ X ++ X2 ++ X3) (fun x hx => List.mem_append_left _ hx) a3
    refine ⟨id, _, _, x, ys, u1, b1, hh, ?_⟩
    intro hcl q hq fuel2 hf
    obtain ⟨gj, g1, g2, -⟩ := C33_get_partial (gettable_of he b1 u6 u7 hh.1 hcl) hq hf
    obtain ⟨H, k1, k2, k3, k4, k5⟩ := headers_of he a7.2.2.2.2 (b1.there x hh.1.1).2.1.parse g2
    rw [hh.2.1] at k4
    exact ⟨gj, H, g1, k1, k2, by rw [k3, a4], k4, k5⟩

/-- Store an object and get its headers: the number of segments, and whether the headers are those of the whole. -/
def storeHeaders (max : Nat) (cs : List Bytes) : Res (Nat × Bool × Option Bytes) := do
  let env := Example.env max
  let r ← storeObj env Example.stored 10 emptyWorld Example.hdr none cs
  let g ← getjobNew env.ps env.pfx env.idSize 10 r.1 r.2
  match g with
  | .job a => do
    let t ← gjHeaders env.pfx a
    let h ← headerParse env.pfx t
    return (a.segs.length, headerGet h b!"WARC-Block-Digest" = some (b!"sha256:" ++ env.sha cs.flatten), headerGet h b!"Content-Length")
  | .error _ => .fail

set_option maxRecDepth 1000000 in
/-- An object in three segments. -/
example : storeHeaders 1120 [b!"hello and welcome", b!" world, hello and goodbye, and so on and so forth"] = .ok (3, true, some b!"66") := by decide +kernel

end Verif.Props
