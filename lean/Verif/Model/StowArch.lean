/-
Model of a stow job together with the archive: the machine of Model/StowData.lean, in which the jobs that /repo/main_stevedore.c starts
are the commands `filter` (Model/Filter.lean) and `store` (Model/MainStore.lean) on the files of the archive.

Simplifications: a job reads and changes the archive in one step, so that it is not disturbed by others while it runs; a job that fails or
prints a message instead of a result ends the server (main_stevedore.c:157-161).
-/
import Verif.Model.StowData
import Verif.Model.Filter
import Verif.Model.MainStore

namespace Verif.StowArch
open Verif StowData Filter MainStore Segjob
open _root_.Verif.Wsilo (World Env)
open _root_.Verif.Stow (Job)

/-- The programs' surroundings: those of the archive, zlib, the configuration, `BUFSIZ`, and `qsort(3)`. -/
structure Ctx (σ : Type) where
  env : Env
  D : Deflater σ
  conf : List Config.Section
  buf : Nat
  qs : List Elem → List Elem

/-- The job, and the archive. -/
structure JSys where
  s : Sys
  w : World

/-- The lines of a text, as VLU delivers them (Model/Vlu.lean); what comes after the last newline is no line. -/
def jobLines : (acc : Bytes) → Bytes → List Bytes
  | _, [] => []
  | acc, c :: rest => if c = 10 then acc :: jobLines [] rest else jobLines (acc ++ [c]) rest

/-- main_stevedore.c:223-233: what is written to a filter job; every entry of the queue ends in a newline (:346-347). -/
def jobText (ls : List Bytes) : Bytes := (ls.map (· ++ [10])).flatten

/-- No part of the program: whether there is an entry in the index whose key is the first 24 digits of this. -/
def knownOf (w : World) (x : Bytes) : Bool :=
  match Index.idxIter w.dir none (fun b e => (b || e.key == x.take 24, 0)) false with
  | .ok r => r.1
  | _ => false

/-- main_stevedore.c:219 `filter -`: the lines that it prints. -/
def filterJob {σ : Type} (x : Ctx σ) (w : World) (inp : List Bytes) : Res (List Bytes) := do
  let r ← mainFilter x.buf x.env.ps x.env.pfx x.env.idSize x.qs w false false false [jobText inp]
  match r with
  | none => .fail
  | some out => return jobLines [] out

/-- main_stevedore.c:263-267 `store -`, :292-305 `store -t metadata -m application/json -r ref -`: the archive afterwards, and the line printed. -/
def storeJob {σ : Type} (x : Ctx σ) (fuel : Nat) (w : World) (opts : List Opt) (pieces : List Bytes) : Res (World × Bytes) := do
  let r ← mainStore x.env x.D fuel x.conf w opts (some ⟨pieces, false⟩)
  match r.2 with
  | .refused _ => .fail
  | .printed uri => return (r.1, uri)

/-- The options of the metadata job, main_stevedore.c:299-304. -/
def metaOpts (ref : Bytes) : List Opt := [.t b!"metadata", .m b!"application/json", .r ref]

/-- One step of one of the parties.  `pieces` is what the calls of `read(2)` in a job return. -/
inductive JEv where
  /-- a step in which no job takes part but to end or to print -/
  | plain (e : Ev)
  | run
  | stored (fuel : Nat) (pieces : List Bytes)
  | metaStored (fuel : Nat) (pieces : List Bytes)
  /-- others do something with the archive -/
  | other (w' : World)

/-- The steps of Model/StowData.lean that do not concern the archive. -/
def isPlain : Ev → Bool
  | .run | .stored | .metaStored | .other _ => false
  | _ => true

/-- One step; `none` if it is not possible now. -/
def jstep {σ : Type} (x : Ctx σ) (g : Cfg) (p : JSys) : JEv → Option (Res JSys)
  | .plain e =>
    if isPlain e then (step g p.s e).map (fun r => r >>= fun s => .ok ⟨s, p.w⟩) else none
  | .run =>
    match p.s.sv.job with
    | some ⟨inp, none, skip⟩ =>
      some (do
        let ls ← filterJob x p.w inp
        .ok ⟨{ p.s with sv := { p.s.sv with job := some ⟨inp, some ls, skip⟩ },
                        log := p.s.log ++ inp.map (fun l => (l.take g.n, decide (l ∈ ls))) }, p.w⟩)
    | _ => none
  | .stored fuel pieces =>
    match p.s.pend with
    | none => none
    | some d =>
      if pieces.flatten = d ∧ [] ∉ pieces then
        some (do
          let r ← storeJob x fuel p.w [] pieces
          .ok ⟨{ p.s with pend := none, stored := p.s.stored ++ [d], known := knownOf r.1, down := p.s.down ++ [.data r.2] }, r.1⟩)
      else none
  | .metaStored fuel pieces =>
    match p.s.mpend with
    | none => none
    | some (ref, b) =>
      if pieces.flatten = b ∧ [] ∉ pieces then
        some (do
          let r ← storeJob x fuel p.w (metaOpts ref) pieces
          .ok ⟨{ p.s with mpend := none, metas := p.s.metas ++ [(ref, b)], known := knownOf r.1, down := p.s.down ++ [.info r.2] }, r.1⟩)
      else none
  | .other w' => some (.ok ⟨{ p.s with known := knownOf w' }, w'⟩)

/-- A sequence of steps. -/
def jrun {σ : Type} (x : Ctx σ) (g : Cfg) (p : JSys) : List JEv → Option (Res JSys)
  | [] => some (.ok p)
  | e :: es =>
    match jstep x g p e with
    | none => none
    | some (.ok p') => jrun x g p' es
    | some r => some r

/-- The start of a job for the archive `w`. -/
def jstart (g : Cfg) (files : List Stow.Item) (w : World) : JSys := ⟨start g files [] (knownOf w), w⟩

end Verif.StowArch
