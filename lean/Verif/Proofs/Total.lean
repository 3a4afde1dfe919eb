/-
Steps that cannot fail.
-/
import Verif.Proofs.Archive

namespace Verif.Props
open Verif Header Gzip Ident Index Wsilo Segjob Spec Inflate
open _root_.Verif.Commit (upd Silo)

theorem idxInsert_total (d : Dir) {i : Ins} (h : i.Valid) : ∃ d', idxInsert d i.id i.flags i.silo i.off i.cont = .ok d' := by
  obtain ⟨r, hr, -⟩ := idxRecord_spec h
  exact ⟨_, by unfold idxInsert; rw [hr]; rfl⟩

theorem headerSetId_total {n : Nat} {h : Hdr} {id : Bytes} (hx : ∀ c ∈ id, isHex c = true) (hl : n ≤ id.length) :
    headerSetId n h id = .ok { h with id := id.take n } := by
  unfold headerSetId
  rw [show id.all isGraph = true from List.all_eq_true.2 (fun c hc => hex_graph (hx c hc)), decide_eq_true hl]
  rfl

/-- The header of a warcinfo record can always be made. -/
theorem infoHdr_total {env : Env} (he : EnvOk env) (n : Nat) : ∃ h, infoHdr env n = .ok h := by
  obtain ⟨h1, e1, -, s1, g1⟩ := headerSet_spec (headerNew env.idSize) b!"WARC-Filename" (env.name n) (neat_new _).1 (by decide)
  obtain ⟨h2, e2, -, s2, g2⟩ := headerSet_spec h1 b!"WARC-Date" env.date s1 (by decide)
  obtain ⟨h3, e3, -, s3, g3⟩ := headerSet_spec h2 b!"WARC-Type" b!"warcinfo" s2 (by decide)
  obtain ⟨h4, e4, -, s4, g4⟩ := headerSet_spec h3 b!"Content-Type" b!"application/warc-fields" s3 (by decide)
  obtain ⟨h5, e5, -, s5, g5⟩ := headerSet_spec h4 b!"Content-Length" (dec (infoBody env n).length) s4 (by decide)
  obtain ⟨h6, e6, -, s6, g6⟩ := headerSet_spec h5 b!"WARC-Block-Digest" (b!"sha256:" ++ env.sha (infoBody env n)) s5 (by decide)
  have ht : headerGet h6 b!"WARC-Type" = some b!"warcinfo" := by
    rw [g6, if_neg (by decide), g5, if_neg (by decide), g4, if_neg (by decide), g3, if_pos (by decide)]
  obtain ⟨sl, sh⟩ := he.sha (infoBody env n)
  have hid := he.idSize
  refine ⟨{ h6 with id := ((env.sha (infoBody env n)).take env.idSize).take env.idSize }, ?_⟩
  unfold infoHdr
  simp only [e1, e2, e3, e4, e5, e6, Res.ok_bind]
  unfold identSet identCreate
  simp only [ht]
  rw [if_neg (by decide), if_neg (by decide), if_pos trivial, Res.ok_bind]
  refine headerSetId_total (fun c hc => sh c (List.mem_of_mem_take hc)) ?_
  rw [List.length_take]
  omega

theorem storeFit_total {max : Nat} {sl : Sl} {d : Bytes} (h0 : d ≠ []) (h1 : (sl.hold ++ d).length ≤ max) (h2 : d.length ≤ 2 ^ 20) :
    storeFit max sl d = .ok { sl with hold := sl.hold ++ d } := by
  have hp : 0 < d.length := List.length_pos_iff.2 h0
  rw [List.length_append] at h1
  unfold storeFit store
  rw [decide_eq_true (show (d.length : Int) ≤ getSpace max sl by unfold getSpace; split <;> omega), decide_eq_true hp, decide_eq_true h2]
  rfl

theorem infoBody_ne (env : Env) (n : Nat) : infoBody env n ≠ [] := by
  intro h0
  unfold infoBody at h0
  exact absurd (List.append_eq_nil_iff.1 h0).2 (by decide)

theorem pack0_len {env : Env} (he : EnvOk env) {t : Bytes} (h0 : t ≠ []) (h : t.length < 2 ^ 15) : (env.pack0 t).length = t.length + 37 := (he.pack0 t h0 h).2

/-- The number of bytes of the warcinfo record of a silo. -/
def infoLen (env : Env) (n : Nat) : Nat :=
  match infoHdr env n with
  | .ok h => (headerSerialize env.pfx h).length + (infoBody env n).length + 74 + crnlcrnl.length
  | _ => 0

/-- A silo can be begun if there is room for its warcinfo record. -/
theorem warcinfoNew_total {env : Env} (he : EnvOk env) {sl : Sl} (hn : sl.no < 2 ^ 32) (hh : sl.hold = []) (hm : infoLen env sl.no ≤ env.max) :
    ∃ ih info, InfoRec env sl.no ih info ∧ info.length = infoLen env sl.no ∧ warcinfoNew env sl = .ok { sl with hold := info, infoId := ih.id } := by
  obtain ⟨h, e⟩ := infoHdr_total he sl.no
  have hl := he.infoHdr _ _ hn e
  have hb := he.infoBody _ hn
  have hps := he.ps
  have p1 := pack0_len he (serialize_ne env.pfx h) (by omega)
  have p2 := pack0_len he (infoBody_ne env sl.no) hb
  have hlen : infoLen env sl.no = (headerSerialize env.pfx h).length + (infoBody env sl.no).length + 74 + crnlcrnl.length := by
    unfold infoLen; rw [e]
  rw [hlen] at hm
  have h15 : (2 : Nat) ^ 15 = 32768 := by decide
  have h20 : (2 : Nat) ^ 20 = 1048576 := by decide
  refine ⟨h, _, ⟨e, rfl⟩, by simp only [List.length_append, p1, p2, hlen]; omega, ?_⟩
  unfold warcinfoNew
  rw [e, Res.ok_bind, storeFit_total (List.ne_nil_of_length_pos (by omega)) (by rw [hh, List.nil_append]; omega) (by omega), Res.ok_bind]
  simp only
  rw [storeFit_total (List.ne_nil_of_length_pos (by omega)) (by simp only [hh, List.nil_append, List.length_append]; omega) (by omega), Res.ok_bind]
  rw [storeFit_total (by decide) (by simp only [hh, List.nil_append, List.length_append]; omega) (by decide), Res.ok_bind]
  simp only [hh, List.nil_append, Res.pure_eq]

end Verif.Props
