/-
The hypotheses of the theorems about storing are met, and a store followed by a get.
-/
import Verif.Props.Store
import Verif.Props.Segjob

namespace Verif.Props
open Verif Header Gzip Ident Index Wsilo Segjob Getjob Spec Inflate

theorem hexLc_hex {n : Nat} (h : n < 16) : isHex (hexLc n) = true := by
  have : ∀ n : Fin 16, isHex (hexLc n) = true := by decide
  exact this ⟨n, h⟩

theorem hexStr_hex (b : Bytes) : ∀ c ∈ hexStr b, isHex c = true := by
  induction b with
  | nil => intro c hc; cases hc
  | cons x b ih =>
    intro c hc
    have := x.toNat_lt
    rcases List.mem_cons.1 hc with rfl | hc
    · exact hexLc_hex (by omega)
    · rcases List.mem_cons.1 hc with rfl | hc
      · exact hexLc_hex (by omega)
      · exact ih c hc

theorem toySha_hex (d : Bytes) : ∀ c ∈ Example.toySha d, isHex c = true := by
  intro c hc
  obtain ⟨l, hl, hc⟩ := List.mem_flatten.1 hc
  rw [(List.mem_replicate.1 hl).2] at hc
  exact hexStr_hex _ c hc

theorem example_body (max n : Nat) (hn : n < 2 ^ 32) : (infoBody (Example.env max) n).length ≤ 300 := by
  have := dec_length n 9 (by omega)
  unfold infoBody
  simp only [List.length_append]
  have k1 : ((Example.env max).name n).length = (dec n).length + 8 := by show (dec n ++ _).length = _; rw [List.length_append]; rfl
  have k2 : ((Example.env max).infoLines.map infoLine).flatten.length ≤ 20 := by show (([(b!"operator:", b!"me")] : List _).map infoLine).flatten.length ≤ 20; decide
  have k3 : (Example.env max).gitrev.length = 2 := rfl
  rw [k1, k3]
  simp only [List.length_cons, List.length_nil]
  omega

/-- The example environment is a good one. -/
theorem example_envOk (max : Nat) (hm : max < 2 ^ 63) : EnvOk (Example.env max) where
  slash := ⟨b!"x", rfl⟩
  pfx := by show 62 ∉ b!"x/" ∧ CleanText b!"x/"; decide
  idSize := by show 16 ≤ 24 ∧ 24 ≤ 64; decide
  sha := fun d => ⟨Example.toySha_length d, toySha_hex d⟩
  max := hm
  date := by show CleanText b!"2024-01-01T00:00:00Z"; decide
  name := fun n => clean_append (clean_dec n) (by decide)
  pack0 := fun t _ h => ⟨stored1_ok t (by omega), stored1_length t⟩
  grow := fun t => by show _ ≤ (stored1 t).length; rw [stored1_length]; omega
  pack9 := fun t _ h => ⟨stored1_ok t (by omega), by show (stored1 t).length ≤ _; rw [stored1_length]; omega⟩
  ps := by show 4096 ≤ 2 ^ 15; decide
  infoBody := fun n hn => by have := example_body max n hn; omega
  infoHdr := fun n h hn e => by
    unfold infoHdr at e
    simp only [Res.bind_eq_ok] at e
    obtain ⟨h1, e1, h2, e2, h3, e3, h4, e4, h5, e5, h6, e6, e7⟩ := e
    have n0 : Neat (headerNew (Example.env max).idSize) := neat_new _
    have n1 := neat_set n0 e1 (by decide) (clean_append (clean_dec n) (by decide))
    have n2 := neat_set n1 e2 (by decide) (by show CleanText b!"2024-01-01T00:00:00Z"; decide)
    have n3 := neat_set n2 e3 (by decide) (by decide)
    have n4 := neat_set n3 e4 (by decide) (by decide)
    have n5 := neat_set n4 e5 (by decide) (clean_dec _)
    have l1 := set_len_le (pfx := b!"x/") n0.1 e1
    have l2 := set_len_le (pfx := b!"x/") n1.1 e2
    have l3 := set_len_le (pfx := b!"x/") n2.1 e3
    have l4 := set_len_le (pfx := b!"x/") n3.1 e4
    have l5 := set_len_le (pfx := b!"x/") n4.1 e5
    have l6 := set_len_le (pfx := b!"x/") n5.1 e6
    have k0 : (headerSerialize b!"x/" (headerNew (Example.env max).idSize)).length ≤ 120 := by show (headerSerialize b!"x/" (headerNew 24)).length ≤ 120; decide
    have d1 := dec_length n 9 (by omega)
    have d2 := dec_length (infoBody (Example.env max) n).length 2 (by have := example_body max n hn; omega)
    have k1 : headerLen b!"WARC-Filename" ((Example.env max).name n) = 25 + (dec n).length := by
      show 13 + 2 + ((dec n) ++ b!".warc.gz").length + 2 = _
      rw [List.length_append]
      show 13 + 2 + (_ + 8) + 2 = _
      omega
    have k2 : headerLen b!"WARC-Date" (Example.env max).date = 33 := rfl
    have k3 : headerLen b!"WARC-Type" b!"warcinfo" = 21 := rfl
    have k4 : headerLen b!"Content-Type" b!"application/warc-fields" = 39 := rfl
    have k5 : headerLen b!"Content-Length" (dec (infoBody (Example.env max) n).length) = 18 + (dec (infoBody (Example.env max) n).length).length := by
      unfold headerLen
      show 14 + 2 + _ + 2 = _
      omega
    have k6 : headerLen b!"WARC-Block-Digest" (b!"sha256:" ++ (Example.env max).sha (infoBody (Example.env max) n)) = 92 := by
      unfold headerLen
      rw [List.length_append]
      have : ((Example.env max).sha (infoBody (Example.env max) n)).length = 64 := Example.toySha_length _
      rw [this]
      rfl
    have f7 := identSet_inv e7
    have hl : (headerSerialize b!"x/" h).length ≤ (headerSerialize b!"x/" h6).length + 24 := by
      rw [serialize_length, serialize_length, f7.1, f7.2]
      have : (Example.env max).idSize = 24 := rfl
      omega
    show (headerSerialize b!"x/" h).length + 61 ≤ 4096
    omega

/-- The example header may be used for store jobs. -/
theorem example_goodJob (max : Nat) : GoodJob (Example.env max) Example.hdr := by
  refine ⟨⟨?_, ?_, ?_, ?_, ?_, ?_, ?_⟩, ⟨?_, ?_, ?_⟩, ?_⟩
  · unfold SortedF; decide
  · rfl
  · decide
  · decide
  · decide
  · decide
  · decide
  · unfold SortedF; decide
  · intro f hf
    simp only [Example.hdr, List.mem_cons, List.not_mem_nil, or_false] at hf
    rcases hf with rfl | rfl | rfl <;> exact (nameOk_iff _).1 (by decide)
  · unfold CleanHdr; decide
  · unfold Short; show (headerSerialize b!"x/" Example.hdr).length + 2 + 600 ≤ 4096; decide +kernel

/-- Store two objects and the first one again, housekeep, and get the objects. -/
def storeGet (max : Nat) : Res (Bytes × Bytes × Bytes × Bytes × Bytes) := do
  let env := Example.env max
  let r1 ← storeObj env Example.stored 10 emptyWorld Example.hdr none [b!"hello", b!" world"]
  let r2 ← storeObj env Example.stored 10 r1.1 Example.hdr none [b!"goodbye"]
  let d ← idxResort 32 r2.1.dir
  let w2 := { r2.1 with dir := d }
  let r3 ← storeObj env Example.stored 10 w2 Example.hdr none [b!"hell", b!"o world"]
  Res.check (r3.1.dir = d ∧ r3.2 = r1.2)
  let g1 ← getjobNew env.ps env.pfx env.idSize 10 r3.1 r1.2
  let g2 ← getjobNew env.ps env.pfx env.idSize 10 r3.1 r2.2
  match g1, g2 with
  | .job a, .job b => do
    let x ← getjobIterate env.ps (fun b => [b]) a collect [] false
    let y ← getjobIterate env.ps (fun b => [b]) b collect [] false
    return (r1.2, r2.2, r3.2, x, y)
  | _, _ => .fail

set_option maxRecDepth 1000000 in
example : (do let r ← storeGet 5000; return (r.2.2.2)) = .ok (b!"hello world", b!"goodbye") := by decide +kernel

/-- Store one object and get it: the number of segments, and the contents. -/
def storeSegments (max : Nat) (cs : List Bytes) : Res (Nat × Bytes) := do
  let env := Example.env max
  let r ← storeObj env Example.stored 10 emptyWorld Example.hdr none cs
  let g ← getjobNew env.ps env.pfx env.idSize 10 r.1 r.2
  match g with
  | .job a => do
    let x ← getjobIterate env.ps (fun b => [b]) a collect [] false
    return (a.segs.length, x)
  | .error _ => .fail

set_option maxRecDepth 1000000 in
/-- An object in three segments. -/
example : storeSegments 1120 [b!"hello and welcome", b!" world, hello and goodbye, and so on and so forth"] =
    .ok (3, b!"hello and welcome world, hello and goodbye, and so on and so forth") := by decide +kernel

end Verif.Props
