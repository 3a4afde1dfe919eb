/-
Property C31: cutting objects into segments.
-/
import Verif.Proofs.Segjob
import Verif.Proofs.ExampleZ
import Verif.Spec.Record

namespace Verif.Props
open Verif Header Gzip Ident Index Wsilo Segjob Spec Inflate

/-- What a hold file has: the warcinfo record, the space for the header, and the compressed contents with
their length, followed by the line ends. -/
def HoldFile (env : Env) (s : Seg) : Prop :=
  ∃ info head gz, s.silo.hold = info ++ head ++ gz ++ separator ∧ info.length = s.silo.hdStart ∧ head.length = s.silo.hdLen ∧
    gunzip gz = some s.content ∧ Segment gz s.content ∧ Member gz s.content ∧ s.silo.hold.length < env.max

theorem segDone_holdFile {env : Env} {jh : Hdr} {ident : Option Bytes} {before : Nat} {s : Seg} (h : SegDone env jh ident before s) :
    HoldFile env s := by
  obtain ⟨h0, gz, ⟨-, -, ⟨ih, info, res, -, -, i3, i4, i5⟩, -, -⟩, g1, g2, -⟩ := h.state
  exact ⟨info, res, gz, by rw [i5, ← List.append_assoc]; rfl, i3, i4, segment_gunzip g1, g1, g2, h.max⟩

theorem segDone_hdr {env : Env} {jh : Hdr} {ident : Option Bytes} {before : Nat} {s : Seg} (hsha : ∀ d, (env.sha d).length = 64)
    (hj : JobHdr env.idSize jh) (h : SegDone env jh ident before s) :
    SortedF s.hdr.fields ∧ s.hdr.id.length = env.idSize ∧ headerGet s.hdr b!"Content-Length" = some (dec s.content.length) ∧
    headerGet s.hdr b!"WARC-Block-Digest" = some (b!"sha256:" ++ env.sha s.content) ∧
    (s.segno ≠ 1 → headerGet s.hdr b!"WARC-Segment-Number" = some (dec s.segno)) := by
  obtain ⟨h0, gz, hb, -, -, hf⟩ := h.state
  rw [hb.size] at hf
  by_cases hn : s.segno = 1
  · have e0 := hb.hdr0
    rw [hn] at e0
    obtain ⟨s0, i0, g1, g2, g3⟩ := seg0_first hj.sorted e0
    obtain ⟨s1, i1, -, k1, k2, -⟩ := finishHdr_inv s0 g1 g2 (by rw [hsha, hsha]) (by rw [i0, hj.id]) hf
    exact ⟨s1, i1, k2, k1, fun h => absurd hn h⟩
  · obtain ⟨s0, i0, g1, g2, g3, g4, g5, l5, g6⟩ := seg0_cont hn hj.sorted hb.hdr0
    obtain ⟨s1, i1, -, k1, k2, k3⟩ := finishHdr_inv s0 g1 g2 (by rw [hsha, hsha]) (by rw [i0, hj.id]) hf
    exact ⟨s1, i1, k2, k1, fun _ => by rw [k3 _ ⟨by decide, by decide⟩, g3]⟩

theorem jobInv_new {σ : Type} {env : Env} {D : Deflater σ} {w : World} {h : Hdr} {ident : Option Bytes} {sj : Job σ} (he : segjobNew env h ident = .ok sj) :
    JobInv env D w sj ∧ sj.hdr = h ∧ sj.ident = ident ∧ sj.payload = [] ∧ sj.cur = none ∧ nos sj = [] := by
  unfold segjobNew at he
  simp only [Res.bind_eq_ok, Res.check_eq_ok, exists_const, Res.pure_eq, Res.ok.injEq] at he
  obtain ⟨-, -, -, rfl⟩ := he
  exact ⟨⟨trivial, fun c h => (by cases h), rfl, rfl, by simp [curNo], by simp [curNo], by simp [curNo, Rising]⟩, rfl, rfl, rfl, rfl, rfl⟩

/-- The store job when all has been fed, for commit. -/
theorem fed_inv {σ : Type} {env : Env} {D : Deflater σ} (hz : Zlib D) (hmax : env.max < 2 ^ 63) {fuel : Nat} {w w1 w2 : World} {h : Hdr} {ident : Option Bytes}
    {sj sj1 sj2 : Job σ} {cs : List Bytes} (hne : cs ≠ []) (hcs : ∀ c ∈ cs, c ≠ []) (e0 : segjobNew env h ident = .ok sj)
    (e1 : feedAll env D fuel cs w sj = .ok (w1, sj1)) (e2 : feedLoop env D fuel w1 sj1 [] = .ok (w2, sj2)) :
    JobInv env D w2 sj2 ∧ sj2.payload = cs.flatten ∧ sj2.hdr = h ∧ sj2.ident = ident ∧ sj2.cur = none ∧ SameArchive w w2 (nos sj2) := by
  obtain ⟨a1, a2, a3, a4, a5, a6⟩ := jobInv_new (D := D) (w := w) e0
  obtain ⟨b1, b2, b3, b4, b5, b6, b7⟩ := feedAll_inv hz hmax cs a1 hcs e1
  obtain ⟨c1, c2, c3, c4, c5, c6, -, c8⟩ := feedLoop_inv hz hmax fuel b1 (fun _ => b7 (.inr hne)) e2
  exact ⟨c1, by rw [c2, b2, a4]; simp, by rw [c3, b3, a2], by rw [c4, b4, a3], c8 rfl, b5.trans c5 c6⟩

theorem segsDone_mem {env : Env} {jh : Hdr} {ident : Option Bytes} (ss : List Seg) : ∀ {n before : Nat}, SegsDone env jh ident n before ss →
    ∀ s ∈ ss, ∃ b, SegDone env jh ident b s := by
  induction ss with
  | nil => intro _ _ _ s hs; cases hs
  | cons t ss ih =>
    intro n before h s hs
    obtain ⟨-, h2, h3⟩ := h
    rcases List.mem_cons.1 hs with rfl | hs
    · exact ⟨_, h2⟩
    · exact ih h3 s hs

theorem segsDone_segno {env : Env} {jh : Hdr} {ident : Option Bytes} (ss : List Seg) : ∀ {n before : Nat}, SegsDone env jh ident n before ss →
    ss.map (·.segno) = List.range' n ss.length := by
  induction ss with
  | nil => intro _ _ _; rfl
  | cons t ss ih =>
    intro n before h
    obtain ⟨h1, -, h3⟩ := h
    rw [List.map_cons, h1, ih h3, List.length_cons, List.range'_succ]

/-- C31: however the input is cut into calls, the segments' contents are the input, in order; they are numbered
from 1 on, each hold file has the compressed contents, each header the right length, digest and number, and the total
length is right.  A segment is empty only if its headers leave less than 76 bytes of the permitted size. -/
theorem C31_segments_partial {σ : Type} {env : Env} {D : Deflater σ} (hz : Zlib D) (hmax : env.max < 2 ^ 63) (hsha : ∀ d, (env.sha d).length = 64)
    {fuel : Nat} {w w1 w2 : World} {h : Hdr} (hj : JobHdr env.idSize h) {ident : Option Bytes} {sj sj1 sj2 : Job σ} {cs : List Bytes}
    (hne : cs ≠ []) (hcs : ∀ c ∈ cs, c ≠ []) (e0 : segjobNew env h ident = .ok sj)
    (e1 : feedAll env D fuel cs w sj = .ok (w1, sj1)) (e2 : feedLoop env D fuel w1 sj1 [] = .ok (w2, sj2)) :
    (sj2.segs.map (·.content)).flatten = cs.flatten ∧ sj2.size = cs.flatten.length ∧ sj2.segs.map (·.segno) = List.range' 1 sj2.segs.length ∧
    ∀ s ∈ sj2.segs, HoldFile env s ∧ s.size = s.content.length ∧ headerGet s.hdr b!"Content-Length" = some (dec s.content.length) ∧
      headerGet s.hdr b!"WARC-Block-Digest" = some (b!"sha256:" ++ env.sha s.content) ∧
      (s.segno ≠ 1 → headerGet s.hdr b!"WARC-Segment-Number" = some (dec s.segno)) ∧
      (s.silo.hdStart + s.silo.hdLen + 76 ≤ env.max → s.content ≠ []) := by
  obtain ⟨a1, a2, a3, a4, a5, -⟩ := fed_inv hz hmax hne hcs e0 e1 e2
  have hp := a1.payload
  rw [a5, a2] at hp
  simp only [curContent, Option.map_none, Option.getD_none, List.append_nil] at hp
  have hs := a1.segs
  rw [a3, a4] at hs
  refine ⟨by rw [hp, List.flatMap_def], by rw [a1.size, a2], segsDone_segno _ hs, ?_⟩
  intro s hs'
  obtain ⟨b, hd⟩ := segsDone_mem _ hs s hs'
  obtain ⟨-, -, k1, k2, k3⟩ := segDone_hdr hsha hj hd
  obtain ⟨_, _, hb, -⟩ := hd.state
  refine ⟨segDone_holdFile hd, hb.size, k1, k2, k3, ?_⟩
  intro hm
  rcases hd.nonempty with h | h
  · exact h
  · omega

/-- Nothing in the archive changes while the job is fed, except for hold files with numbers not used before. -/
theorem C31_archive_untouched {σ : Type} {env : Env} {D : Deflater σ} (hz : Zlib D) (hmax : env.max < 2 ^ 63)
    {fuel : Nat} {w w1 w2 : World} {h : Hdr} {ident : Option Bytes} {sj sj1 sj2 : Job σ} {cs : List Bytes}
    (hne : cs ≠ []) (hcs : ∀ c ∈ cs, c ≠ []) (e0 : segjobNew env h ident = .ok sj)
    (e1 : feedAll env D fuel cs w sj = .ok (w1, sj1)) (e2 : feedLoop env D fuel w1 sj1 [] = .ok (w2, sj2)) :
    w2.silos = w.silos ∧ w2.dir = w.dir ∧ w2.cacheFile = w.cacheFile ∧ (∀ n, n ∉ sj2.segs.map (·.silo.no) → w2.holds n = w.holds n) ∧
    (sj2.segs.map (·.silo.no)).Nodup ∧ ∀ n ∈ sj2.segs.map (·.silo.no), w.silos n = none := by
  obtain ⟨a1, -, -, -, a5, a6⟩ := fed_inv hz hmax hne hcs e0 e1 e2
  have hn : nos sj2 = sj2.segs.map (·.silo.no) := by unfold nos; rw [a5]; simp [curNo]
  have h1 := a1.nodup
  have h2 := a1.owned
  rw [a5] at h1 h2
  simp only [curNo, Option.map_none, Option.toList_none, List.append_nil] at h1 h2
  rw [hn] at a6
  exact ⟨a6.silos, a6.dir, a6.cacheFile, a6.holds, h1, fun n hn => by rw [← a6.silos]; exact (h2 n hn).1⟩

/-! ### Examples -/

def emptyWorld : World := { silos := fun _ => none, holds := fun _ => false, dir := {}, cache := ⟨0, 0⟩, cacheFile := none }

/-- A store job with short IDs, up to the commit: the segments. -/
def exampleJob (max : Nat) (cs : List Bytes) : Res (List Seg) := do
  let env := { Example.env max with idSize := 16 }
  let sj ← segjobNew env ⟨List.replicate 16 95, Example.hdr.fields⟩ none
  let r ← feedAll env Example.stored 10 cs emptyWorld sj
  let q ← feedLoop env Example.stored 10 r.1 r.2 []
  return q.2.segs

set_option maxRecDepth 1000000 in
/-- The contents are cut where the silo is full. -/
example : (do let ss ← exampleJob 1090 [b!"hello", b!" and goodbye, and hello again, and so on"]; return ss.map (·.content)) =
    (.ok [b!"hello", b!" and goodbye, and hello again, and so on"] : Res (List Bytes)) := by decide +kernel

set_option maxRecDepth 1000000 in
/-- C31 is false for very small silos: with 1060 bytes the first segment is empty, since its headers leave less than
52 bytes for the compressor; those of the second one, which has no space for a payload digest, leave more. -/
theorem C31_counterexample_empty : (do let ss ← exampleJob 1060 [b!"hello"]; return ss.map (·.content)) =
    (.ok [[], b!"hello"] : Res (List Bytes)) := by decide +kernel

end Verif.Props
