/-
Silos that were cut short: what reindexing, storing and getting make of one, and what happens to records behind the damage.
-/
import Verif.Props.Torn
import Verif.Props.CrashExample
import Verif.Props.RecoverExample

namespace Verif.Props
open Verif Header Gzip Ident Index Wsilo Segjob Getjob Spec Inflate Crash MainStore
open _root_.Verif.Reindex (reindexSilos)

/-- Store "hello"; when "goodbye" is to be stored the disk is full after 320 of the 359 bytes of the record.  (The header has
286 of them.)  The archive, and the ID that the second object would have. -/
def tornArchive : Res (World × Bytes × Bytes) := do
  let env := Example.env 5000
  let r1 ← storeObj env Example.stored 10 emptyWorld Example.hdr none [b!"hello"]
  let r2 ← storeObj env Example.stored 10 r1.1 Example.hdr none [b!"goodbye"]
  let w ← storeCut env Example.stored 10 r1.1 Example.hdr none [b!"goodbye"] 0 (.writing 0 320)
  return (w, r1.2, r2.2)

set_option maxRecDepth 1000000 in
/-- The audit of that silo fails. -/
example : (do
    let env := Example.env 5000
    let r ← tornArchive
    match r.1.silos 0 with
    | none => .fail
    | some f => return (f.data.length, failed (Audit.auditSilo env.ps env.pfx (fun b => [b]) env.sha env.idSize false 0 2000 f.data))) =
    Res.ok (1400, true) := by decide +kernel

/-- What comes out of `get`; `none` if an assertion fails or there is nothing. -/
def gotBytes (max : Nat) (w : World) (id : Bytes) (zip : Bool) : Option Bytes :=
  match mainGet (Example.env max) 10 (fun b => [b]) w ⟨false, true, zip⟩ id with
  | .ok (some o) => some o.obj
  | _ => none

/-- The index is made anew, and "goodbye" is stored again: what is printed, whether the archive has changed, and what `get` and
`get -z` deliver. -/
def tornReindex : Res (Bool × Bool × Option Bytes × Option Bytes) := do
  let env := Example.env 5000
  let r ← tornArchive
  let y ← reindexSilos env.ps env.pfx env.idSize 32 2000 r.1.silos [0] {} []
  let w := { r.1 with dir := y.1 }
  let s ← storeObj env Example.stored 10 w Example.hdr none [b!"goodbye"]
  return (s.2 = r.2.2, s.1.dir = w.dir ∧ s.1.silos 0 = w.silos 0 ∧ s.1.silos 1 = none, gotBytes 5000 s.1 s.2 false, gotBytes 5000 s.1 s.2 true)

set_option maxRecDepth 1000000 in
theorem tornReindex_eq : tornReindex = .ok (true, true, none,
    some [31, 139, 8, 4, 0, 0, 0, 0, 2, 3, 12, 0, 65, 97, 8, 0, 49, 0, 0, 0, 0, 0, 0, 0, 0, 7, 0, 248, 255, 103, 111, 111, 100, 98]) := by decide +kernel

/-- C74: after a full disk, reindexing enters the record that was cut short in the index.  From then on `store` takes the object
for being there: it prints its ID, and stores nothing.  `get` aborts, and `get -z` delivers half a gzip file. -/
theorem C74_counterexample_lost : ∃ w uri1 uri2 y w2 bytes, tornArchive = .ok (w, uri1, uri2) ∧
    reindexSilos (Example.env 5000).ps (Example.env 5000).pfx (Example.env 5000).idSize 32 2000 w.silos [0] {} [] = .ok y ∧
    storeObj (Example.env 5000) Example.stored 10 { w with dir := y.1 } Example.hdr none [b!"goodbye"] = .ok (w2, uri2) ∧
    w2.silos 0 = w.silos 0 ∧ w2.silos 1 = none ∧
    gotBytes 5000 w2 uri2 false = none ∧ gotBytes 5000 w2 uri2 true = some bytes ∧ gunzip1 bytes = none := by
  have h := tornReindex_eq
  unfold tornReindex at h
  rw [Res.bind_eq_ok] at h
  obtain ⟨⟨w, u1, u2⟩, h1, h⟩ := h
  rw [Res.bind_eq_ok] at h
  obtain ⟨y, h2, h⟩ := h
  rw [Res.bind_eq_ok] at h
  obtain ⟨⟨w2, u3⟩, h3, h⟩ := h
  simp only [Res.pure_eq, Res.ok.injEq, Prod.mk.injEq, decide_eq_true_eq] at h
  obtain ⟨rfl, ⟨-, h4, h5⟩, h6, h7⟩ := h
  exact ⟨w, u1, _, y, w2, _, h1, h2, h3, h4, h5, h6, h7, by decide +kernel⟩

/-- The hold file is removed, and a third object is stored.  The number of silos does not change; what `get` makes of the first
and of the third object; and whether reindexing and the audit fail. -/
def tornBehind : Res (Bool × Option Bytes × Option Bytes × Bool × Bool) := do
  let env := Example.env 5000
  let r ← tornArchive
  let s ← storeObj env Example.stored 10 { r.1 with holds := fun _ => false } Example.hdr none [b!"later"]
  return (s.1.silos 1 = none, gotBytes 5000 s.1 r.2.1 false, gotBytes 5000 s.1 s.2 false,
    failed (reindexSilos env.ps env.pfx env.idSize 32 2000 s.1.silos [0] {} []),
    (match s.1.silos 0 with
      | none => false
      | some f => failed (Audit.auditSilo env.ps env.pfx (fun b => [b]) env.sha env.idSize false 0 2000 f.data)))

set_option maxRecDepth 1000000 in
theorem tornBehind_eq : tornBehind = .ok (true, some b!"hello", some b!"later", true, true) := by decide +kernel

/-- C74: once the hold file is removed, records are put behind the one that was cut short.  They can be got, but no index can be
made from the silos any more, and no audit comes to its end. -/
theorem C74_counterexample_behind : ∃ w uri1 uri2 w2 uri3 f, tornArchive = .ok (w, uri1, uri2) ∧
    storeObj (Example.env 5000) Example.stored 10 { w with holds := fun _ => false } Example.hdr none [b!"later"] = .ok (w2, uri3) ∧
    w2.silos 1 = none ∧ w2.silos 0 = some f ∧ gotBytes 5000 w2 uri1 false = some b!"hello" ∧ gotBytes 5000 w2 uri3 false = some b!"later" ∧
    reindexSilos (Example.env 5000).ps (Example.env 5000).pfx (Example.env 5000).idSize 32 2000 w2.silos [0] {} [] = .fail ∧
    Audit.auditSilo (Example.env 5000).ps (Example.env 5000).pfx (fun b => [b]) (Example.env 5000).sha (Example.env 5000).idSize false 0 2000 f.data = .fail := by
  have hf : ∀ {α : Type} {r : Res α}, failed r = true → r = .fail := by
    intro α r h
    cases r with
    | fail => rfl
    | ok _ => cases h
    | ub => cases h
  have h := tornBehind_eq
  unfold tornBehind at h
  rw [Res.bind_eq_ok] at h
  obtain ⟨⟨w, u1, u2⟩, h1, h⟩ := h
  rw [Res.bind_eq_ok] at h
  obtain ⟨⟨w2, u3⟩, h3, h⟩ := h
  simp only [Res.pure_eq, Res.ok.injEq, Prod.mk.injEq, decide_eq_true_eq] at h
  obtain ⟨h4, h5, h6, h7, h8⟩ := h
  split at h8
  · cases h8
  · rename_i f hs
    exact ⟨w, u1, u2, w2, u3, f, h1, h3, h4, hs, h5, h6, hf h7, hf h8⟩

end Verif.Props
