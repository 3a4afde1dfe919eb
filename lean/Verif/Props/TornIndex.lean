/-
Property C82: index entries that were written in part.
-/
import Verif.Proofs.TornIndex
import Verif.Props.StoreExample

namespace Verif.Props
open Verif Header Gzip Ident Index Wsilo Segjob Getjob Spec Inflate Crash

/-- C82: what was found before is found as before.  Whatever part of an entry, or anything else, is behind the last entry of an index
that is not being housekept: the same segments of the same object are found for every ID that had an object. -/
theorem C82_found {ps : Nat} {pfx : Bytes} {idSize fuel : Nat} {w : World} (hh : w.dir.housekeep = none) (ha : (w.dir.appendix.getD []).length % 32 = 0)
    {key : Bytes} {flags silo off k : Nat} {cont : Option Bytes} {d : Dir} (e : idxTorn w.dir key flags silo off cont k = .ok d)
    {id : Bytes} {gj : GJ} (h : getjobNew ps pfx idSize fuel w id = .ok (.job gj)) : getjobNew ps pfx idSize fuel { w with dir := d } id = .ok (.job gj) := by
  unfold idxTorn at e
  simp only [Res.bind_eq_ok, Res.pure_eq, Res.ok.injEq] at e
  obtain ⟨r, -, rfl⟩ := e
  unfold getjobNew at h ⊢
  split
  · rename_i hv
    rw [hv] at h
    cases h
  · rename_i hv
    rw [hv] at h
    exact getLoop_found hh ha _ _ _ _ _ h

/-- C82: part of an entry makes the index torn. -/
theorem C82_torn {d d' : Dir} (ha : (d.appendix.getD []).length % 32 = 0) {key : Bytes} {flags silo off k : Nat} {cont : Option Bytes} (hk : 0 < k ∧ k < 32)
    (e : idxTorn d key flags silo off cont k = .ok d') : TornDir d' := by
  unfold idxTorn at e
  simp only [Res.bind_eq_ok, Res.pure_eq, Res.ok.injEq] at e
  obtain ⟨r, h, rfl⟩ := e
  refine .inl ⟨_, rfl, ?_⟩
  have h1 : (r.take k).length = k := by rw [List.length_take, idxRecord_size h]; omega
  rw [List.length_append, Nat.add_mod, ha, h1]
  omega

/-- C82: neither later entries nor housekeeping make the index whole again. -/
theorem C82_stays (ops : List IdxOp) {d d' : Dir} (hn : ∀ n, .housekeep n ∈ ops → 0 < n) (hd : TornDir d) (e : runOps d ops = .ok d') : TornDir d' :=
  runOps_torn ops d d' hn e hd

/-- C82: no lookup of something that is not there comes to its end, and no listing. -/
theorem C82_miss {σ : Type} {d : Dir} (hd : TornDir d) (kp : Option Bytes) (f : σ → Entry → σ × Int) (s : σ) :
    (∀ s', idxIter d kp f s ≠ .ok (s', 0)) ∧ ((∀ s e, (f s e).2 = 0) → ∀ r, idxIter d kp f s ≠ .ok r) := by
  refine ⟨fun s' e => (torn_miss hd e).1 rfl, fun h r e => ?_⟩
  obtain ⟨q1, s0, e0, q2⟩ := torn_miss (s' := r.1) (i := r.2) hd e
  have := h s0 e0
  rw [q2] at this
  exact q1 this

/-- C82: `get` of an ID that is not in the index does not say so: it aborts. -/
theorem C82_unknown {ps : Nat} {pfx : Bytes} {idSize fuel : Nat} {w : World} (hd : TornDir w.dir) {id : Bytes} : getjobNew ps pfx idSize fuel w id ≠ .ok (.error .notFound) := by
  unfold getjobNew
  intro h
  split at h
  · cases h
  · exact getLoop_torn hd _ _ _ _ h rfl

/-- C82: nothing new can be stored.  A store that succeeds has found the object, and changes nothing; or it has found another record
with its ID. -/
theorem C82_store {σ : Type} {env : Env} {D : Deflater σ} (hz : Zlib D) (hmax : env.max < 2 ^ 63) {fuel : Nat} {w w' : World} {h : Hdr} {ident : Option Bytes} {cs : List Bytes}
    (hne : cs ≠ []) (hcs : ∀ c ∈ cs, c ≠ []) {uri : Bytes} (hd : TornDir w.dir) (e : storeObj env D fuel w h ident cs = .ok (w', uri)) :
    ∃ id, uri = env.pfx ++ id ∧
      ((∃ gj, getjobNew env.ps env.pfx env.idSize fuel w id = .ok (.job gj)) ∧ w'.silos = w.silos ∧ w'.dir = w.dir ∨
       ∃ er, getjobNew env.ps env.pfx env.idSize fuel w id = .ok (.error er) ∧ er ≠ .notFound) := by
  unfold storeObj segjobCommit at e
  simp only [Res.bind_eq_ok] at e
  obtain ⟨sj, e0, ⟨w1, sj1⟩, e1, ⟨w2, sj2⟩, e2, e3⟩ := e
  simp only at e2 e3
  obtain ⟨a1, a2, -⟩ := C31_archive_untouched hz hmax hne hcs e0 e1 e2
  unfold commitJob at e3
  simp only [Res.check_bind_eq_ok] at e3
  obtain ⟨-, e3⟩ := e3
  split at e3
  · cases e3
  · simp only [Res.bind_eq_ok] at e3
    obtain ⟨s, -, id, h1, g, h2, e3⟩ := e3
    unfold digest2Ident at h1
    simp only [Res.check_bind_eq_ok, Res.pure_eq, Res.ok.injEq] at h1
    rw [getjobNew_congr a1 a2] at h2
    refine ⟨s.hdr.id, ?_⟩
    cases g with
    | job gj =>
      simp only [Res.pure_eq, Res.ok.injEq, Prod.mk.injEq] at e3
      obtain ⟨rfl, rfl⟩ := e3
      refine ⟨h1.2.symm, .inl ⟨⟨gj, h2⟩, ?_⟩⟩
      obtain ⟨d1, d2, -⟩ := destroy_same (s :: _) w2
      exact ⟨by rw [d1, a1], by rw [d2, a2]⟩
    | error er =>
      simp only [Res.bind_eq_ok, Res.pure_eq, Res.ok.injEq, Prod.mk.injEq] at e3
      obtain ⟨_, -, -, rfl⟩ := e3
      refine ⟨h1.2.symm, .inr ⟨er, h2, ?_⟩⟩
      intro he
      rw [he] at h2
      exact C82_unknown hd h2

/-- C82: housekeeping aborts, or it does nothing, because another run left its hold file or because there is nothing new. -/
theorem C82_housekeep {n : Nat} (hn : 0 < n) {d d' : Dir} (hd : TornDir d) (e : idxResort n d = .ok d') : d' = d ∧ (d.hold = true ∨ d.appendix = none) :=
  resort_torn hn hd e

/-- An index of one entry, part of another one, and an entry that is written afterwards. -/
def raggedIndex (k : Nat) : Res Dir := do
  let d ← idxInsert {} b!"0123456789abcdef01234567" 0 5 1000 none
  let d ← idxTorn d b!"aaaaaaaaaaaaaaaaaaaaaaaa" 4 6 2000 none k
  idxInsert d b!"000000070000000000000bad" 8 9 3000 none

/-- The first entry is found, the second and the third one are not. -/
example : (match raggedIndex 20 with
    | .ok d => (idxIter d (some b!"0123456789abcdef") (fun _ e => (some e, 1)) none,
        idxIter d (some b!"aaaaaaaaaaaaaaaa") (fun (_ : Option Entry) _ => (none, 0)) none, idxIter d (some b!"0000000700000000") (fun _ e => (some e, 1)) none,
        idxResort 64 d)
    | _ => (.fail, .fail, .fail, .fail)) =
    (.ok (some ⟨b!"0123456789abcdef01234567", 0, 5, 1000, b!"00000000"⟩, 1), .fail, .fail, .fail) := by decide +kernel

/-- C82: an entry that was written in part and the entry behind it are taken for one, which points to a place that neither of them
has: here silo 7 and position 2989. -/
theorem C82_counterexample_bogus : ∃ d1 d2 d3, idxInsert {} b!"0123456789abcdef01234567" 0 5 1000 none = .ok d1 ∧
    idxTorn d1 b!"aaaaaaaaaaaaaaaaaaaaaaaa" 4 6 2000 none 16 = .ok d2 ∧ idxInsert d2 b!"000000070000000000000bad" 8 9 3000 none = .ok d3 ∧
    idxIter d3 (some b!"aaaaaaaaaaaaaaaaaaaaaaaa") (fun _ e => (some e, 1)) none = .ok (some ⟨b!"aaaaaaaaaaaaaaaaaaaaaaaa", 4, 7, 2989, b!"00000008"⟩, 1) := by
  refine ⟨_, _, _, rfl, rfl, rfl, ?_⟩
  decide +kernel

end Verif.Props
