/-
How the headers of segments change while a store job runs.
-/
import Verif.Proofs.Wsilo

namespace Verif.Wsilo
open Verif Header Gzip Ident Index Segjob

/-- The header given to a store job. -/
structure JobHdr (idSize : Nat) (h : Hdr) : Prop where
  sorted : SortedF h.fields
  id : h.id.length = idSize
  segno : headerGet h b!"WARC-Segment-Number" = none
  payload : headerGet h b!"WARC-Payload-Digest" = none
  origin : headerGet h b!"WARC-Segment-Origin-ID" = none
  total : headerGet h b!"WARC-Segment-Total-Length" = none
  pad : headerGet h b!"z" = none

/-- Names that finishing a segment does not touch. -/
def Other (m : Bytes) : Prop := strcasecmp m b!"WARC-Block-Digest" ≠ .eq ∧ strcasecmp m b!"Content-Length" ≠ .eq

theorem seg0_first {env : Env} {h h0 : Hdr} (hs : SortedF h.fields) (he : seg0Hdr env h 1 = .ok h0) :
    SortedF h0.fields ∧ h0.id = h.id ∧ headerGet h0 b!"WARC-Block-Digest" = some (b!"sha256:" ++ env.sha []) ∧
    headerGet h0 b!"Content-Length" = some (b!"00" ++ dec env.max) ∧ ∀ m, Other m → headerGet h0 m = headerGet h m := by
  unfold seg0Hdr at he
  simp only [Res.bind_eq_ok, if_true, Res.pure_eq, Res.ok.injEq] at he
  obtain ⟨h1, e1, h2, e2, rfl⟩ := he
  have hc : headerClone h = h := by
    unfold headerClone
    simp
  rw [hc] at e1
  obtain ⟨-, i1, s1, g1, -, -⟩ := headerSet_inv hs e1
  obtain ⟨-, i2, s2, g2, -, -⟩ := headerSet_inv s1 e2
  refine ⟨s2, by rw [i2, i1], ?_, ?_, ?_⟩
  · rw [g2, if_neg (by decide), g1, if_pos (by decide)]
  · rw [g2, if_pos (by decide)]
  · rintro m ⟨o1, o2⟩
    rw [g2, if_neg o2, g1, if_neg o1]

theorem seg0_cont {env : Env} {h h0 : Hdr} {n : Nat} (hn : n ≠ 1) (hs : SortedF h.fields) (he : seg0Hdr env h n = .ok h0) :
    SortedF h0.fields ∧ h0.id = h.id ∧ headerGet h0 b!"WARC-Block-Digest" = some (b!"sha256:" ++ env.sha []) ∧
    headerGet h0 b!"Content-Length" = some (b!"00" ++ dec env.max) ∧
    headerGet h0 b!"WARC-Segment-Number" = some (dec n) ∧ headerGet h0 b!"WARC-Type" = some b!"continuation" ∧
    headerGet h0 b!"WARC-Segment-Origin-ID" = some (b!"<" ++ env.pfx ++ (env.sha []).take env.idSize ++ b!">") ∧ env.idSize ≤ (env.sha []).length ∧
    ∀ m, Other m → strcasecmp m b!"WARC-Segment-Number" ≠ .eq → strcasecmp m b!"WARC-Type" ≠ .eq →
      strcasecmp m b!"WARC-Segment-Origin-ID" ≠ .eq → headerGet h0 m = headerGet h m := by
  unfold seg0Hdr at he
  simp only [Res.bind_eq_ok, if_neg hn] at he
  obtain ⟨h1, e1, h2, e2, h3, e3, h4, e4, e5⟩ := he
  have hc : headerClone h = h := by
    unfold headerClone
    simp
  rw [hc] at e1
  obtain ⟨l5, e5⟩ := headerSetRef_inv e5
  obtain ⟨-, i1, s1, g1, -, -⟩ := headerSet_inv hs e1
  obtain ⟨-, i2, s2, g2, -, -⟩ := headerSet_inv s1 e2
  obtain ⟨-, i3, s3, g3, -, -⟩ := headerSet_inv s2 e3
  obtain ⟨-, i4, s4, g4, -, -⟩ := headerSet_inv s3 e4
  obtain ⟨-, i5, s5, g5, -, -⟩ := headerSet_inv s4 e5
  refine ⟨s5, by rw [i5, i4, i3, i2, i1], ?_, ?_, ?_, ?_, ?_, l5, ?_⟩
  · rw [g5, if_neg (by decide), g4, if_neg (by decide), g3, if_neg (by decide), g2, if_neg (by decide), g1, if_pos (by decide)]
  · rw [g5, if_neg (by decide), g4, if_neg (by decide), g3, if_neg (by decide), g2, if_pos (by decide)]
  · rw [g5, if_neg (by decide), g4, if_neg (by decide), g3, if_pos (by decide)]
  · rw [g5, if_neg (by decide), g4, if_pos (by decide)]
  · rw [g5, if_pos (by decide)]
  · rintro m ⟨o1, o2⟩ o3 o4 o5
    rw [g5, if_neg o5, g4, if_neg o4, g3, if_neg o3, g2, if_neg o2, g1, if_neg o1]

/-- The header of a finished segment. -/
def finishHdr (env : Env) (h : Hdr) (dig : Bytes) (size : Nat) (ident : Option Bytes) : Res Hdr := do
  let h ← headerSet h b!"WARC-Block-Digest" (b!"sha256:" ++ dig)
  let h ← headerSet h b!"Content-Length" (dec size)
  identSet env.sha env.pfx env.idSize h dig ident

theorem finishseg_hdr {σ : Type} {env : Env} {D : Deflater σ} {ident : Option Bytes} {c : Cur σ} {s : Seg}
    (h : finishseg env D ident c = .ok s) :
    ∃ h' sl, finishHdr env c.seg.hdr (env.sha c.seg.content) c.seg.size (if c.seg.segno = 1 then ident else none) = .ok h' ∧
      wsiloFinish c.seg.silo = .ok sl ∧ s = { c.seg with hdr := h', silo := { sl with hd := h' } } := by
  unfold finishseg at h
  simp only [Res.bind_eq_ok, Res.check_eq_ok, exists_const, Res.pure_eq, Res.ok.injEq] at h
  obtain ⟨-, h1, e1, h2, e2, h3, e3, sl, e4, e5⟩ := h
  refine ⟨h3, sl, ?_, e4, e5.symm⟩
  unfold finishHdr
  rw [e1, Res.ok_bind, e2, Res.ok_bind, e3]

theorem finishHdr_inv {env : Env} {h h' : Hdr} {dig o c : Bytes} {size : Nat} {ident : Option Bytes} (hs : SortedF h.fields)
    (ho : headerGet h b!"WARC-Block-Digest" = some (b!"sha256:" ++ o)) (hc : headerGet h b!"Content-Length" = some c)
    (hl : dig.length = o.length) (hid : h.id.length = env.idSize) (he : finishHdr env h dig size ident = .ok h') :
    SortedF h'.fields ∧ h'.id.length = env.idSize ∧
    (headerSerialize env.pfx h').length + c.length = (headerSerialize env.pfx h).length + (dec size).length ∧
    headerGet h' b!"WARC-Block-Digest" = some (b!"sha256:" ++ dig) ∧ headerGet h' b!"Content-Length" = some (dec size) ∧
    ∀ m, Other m → headerGet h' m = headerGet h m := by
  unfold finishHdr at he
  simp only [Res.bind_eq_ok] at he
  obtain ⟨h1, e1, h2, e2, e3⟩ := he
  obtain ⟨-, i1, s1, g1, -, -⟩ := headerSet_inv hs e1
  obtain ⟨-, i2, s2, g2, -, -⟩ := headerSet_inv s1 e2
  obtain ⟨f3, i3⟩ := identSet_inv e3
  have l1 := set_len_replace (pfx := env.pfx) hs e1 ho
  have l2 := set_len_replace (pfx := env.pfx) s1 e2 (o := c) (by rw [g1, if_neg (by decide), hc])
  have l3 := setId_len (pfx := env.pfx) f3 (by rw [i3, i2, i1, hid])
  refine ⟨by rw [f3]; exact s2, i3, ?_, ?_, ?_, ?_⟩
  · simp only [List.length_append] at l1
    omega
  · rw [get_of_fields f3, g2, if_neg (by decide), g1, if_pos (by decide)]
  · rw [get_of_fields f3, g2, if_pos (by decide)]
  · rintro m ⟨o1, o2⟩
    rw [get_of_fields f3, g2, if_neg o2, g1, if_neg o1]

end Verif.Wsilo
