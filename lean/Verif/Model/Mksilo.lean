/-
Model of /repo/main_mksilo.c: making a silo with nothing but a warcinfo record.
-/
import Verif.Model.Wsilo
import Verif.Model.Audit

namespace Verif.Mksilo
open Verif Header Gzip Ident Index Cache Wsilo
open _root_.Verif.Commit (upd Silo)
open _root_.Verif.Audit (strtoul0)

/-- wsilo.c:115-191 `Wsilo_New` for a silo number: `none` if there is such a silo, or a hold file for it.  The directory is
always made. -/
def wsiloNew (env : Env) (w : World) (n : Nat) : Res (Option (World × Sl)) :=
  if (w.silos n).isSome = true ∨ w.holds n = true then .ok none
  else do
    let sl ← warcinfoNew env { no := n, idx := 0, hold := [], hd := ⟨[], []⟩, hdStart := 0, hdLen := 0, infoId := [] }
    return some ({ w with holds := upd w.holds n true }, sl)

/-- wsilo.c:464-483 `Wsilo_Install`. -/
def wsiloInstall (w : World) (sl : Sl) : Res World := do
  let d ← idxInsert w.dir sl.infoId F_WARCINFO sl.no 0 none
  Res.check (w.silos sl.no = none)
  let w := { w with dir := d, silos := upd w.silos sl.no (some { data := sl.hold, writable := true }) }
  return abandon (putCache w (bumpNon sl.no w.cache)) sl

/-- How the program ends. -/
inductive Out where
  | noNumber
  | couldNot
  | made
  deriving DecidableEq, Repr

/-- main_mksilo.c:79: `unsigned u = strtoul(argv[0], NULL, 0)` -/
def siloArg (t : Bytes) : Nat := ((strtoul0 t).elim 0 (·.1)) % 2 ^ 32

/-- main_mksilo.c:80-86: the silo with the given number. -/
def mksilo (env : Env) (w : World) (n : Nat) : Res (World × Out) := do
  match ← wsiloNew env w n with
  | none => return (w, .couldNot)
  | some (w, sl) => do
    let w ← wsiloInstall w sl
    return (w, .made)

/-- main_mksilo.c:51-89 `main_mksilo`, with the arguments behind the options (of which there are none but `-h`). -/
def mainMksilo (env : Env) (w : World) (args : List Bytes) : Res (World × Out) :=
  match args with
  | [] => .ok (w, .noNumber)
  | t :: _ => mksilo env w (siloArg t)

end Verif.Mksilo
