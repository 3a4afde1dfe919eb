/-
main_audit.c: auditing the files that are named on the command line.
-/
import Verif.Model.Audit

namespace Verif.Audit
open Verif Header Rsilo
open _root_.Verif.Commit (Silo)

/-- main_audit.c:426-428: the files, up to the first that cannot be opened.  `fs` are the files that can be (`Rsilo_Open`, rsilo.c:105-126); the place
of a file among the arguments stands for its name in the list of segments. -/
def auditFiles (ps : Nat) (pfx : Bytes) (cut : Bytes → List Bytes) (sha : Bytes → Bytes) (idSize : Nat) (ign : Bool) (fs : Bytes → Option Bytes) (lf : Nat) :
    (args : List Bytes) → (i : Nat) → Res (List (Ap × List Msg × Option Int))
  | [], _ => .ok []
  | a :: args, i =>
    match fs a with
    | none => .ok []
    | some f => do
      let x ← auditSilo ps pfx cut sha idSize ign i lf f
      let r ← auditFiles ps pfx cut sha idSize ign fs lf args (i + 1)
      return x ++ r

/-- What the audit can find when it goes back to a segment (main_audit.c:146): the file of that argument. -/
def namedSilos (fs : Bytes → Option Bytes) (args : List Bytes) (i : Nat) : Option Silo :=
  (args[i]?.bind fs).map fun f => { data := f, writable := false }

/-- main_audit.c:392-444 `main_audit`: with arguments or without.  The status is 0 in any case (line 443). -/
def auditCmd (ps : Nat) (pfx : Bytes) (cut : Bytes → List Bytes) (sha : Bytes → Bytes) (idSize : Nat) (ign : Bool) (silos : Nat → Option Silo)
    (fs : Bytes → Option Bytes) (fuel : Nat) (args : List Bytes) : Res (Option (List (Ap × List Msg × Option Int) × List Pend × List Ap)) :=
  if args = [] then mainAudit ps pfx cut sha idSize ign silos fuel
  else do
    let l ← auditFiles ps pfx cut sha idSize ign fs fuel args 0
    let p ← allPending ps pfx cut sha idSize (namedSilos fs args) fuel (pendingOf l)
    return p.map fun x => (l, x.1, x.2)

end Verif.Audit
