/-
Model of main_stow in /repo/main_stow.c:689-777: which jobs `stow` is to do, and with which status it ends.
What happens during a job is in Model/StowData.lean and Model/Evloop.lean.
-/
import Verif.Model.Config
import Verif.Basic.Res

namespace Verif.StowMain
open Verif Config

/-- main_stow.c:81-93: the variables of a job that come from the configuration. -/
structure Vars where
  directory : Option Bytes := none
  remote : Option Bytes := none
  cmd : Option Bytes := none
  exclude : Option Bytes := none
  deriving DecidableEq, Repr

/-- main_stow.c:675-686 `arg_iter`; EINVAL is 22. -/
def argIter (v : Vars) (name : Bytes) (arg : Option Bytes) : Vars × Int :=
  if name = b!"directory" then ({ v with directory := arg }, 0)
  else if name = b!"remote" then ({ v with remote := arg }, 0)
  else if name = b!"cmd" then ({ v with cmd := arg }, 0)
  else if name = b!"exclude" then ({ v with exclude := arg }, 0)
  else (v, 22)

/-- A job: its name, and the configuration for it. -/
structure Job where
  name : Bytes
  vars : Vars
  deriving DecidableEq, Repr

/-- main_stow.c:719-753: one argument.  `bufsiz` is BUFSIZ, `canOpen` says which directories can be opened.  `none` if the program exits with status 1.  Simplification: `tmpfile(3)` does
not fail. -/
def target (cfg : List Section) (bufsiz : Nat) (canOpen : Bytes → Bool) (name : Bytes) : Res (Option Job) := do
  Res.check (decide (name.length + 5 < bufsiz))
  let r := configIter cfg (b!"stow." ++ name) argIter {}
  if r.2 = 2 then return none
  else if r.2 = 22 then return none
  else do
    Res.check (decide (r.2 = 0))
    match r.1.directory with
    | none => return none
    | some d => if canOpen d = false then return none else return some ⟨name, r.1⟩

/-- main_stow.c:719-753: the loop over the arguments. -/
def targets (cfg : List Section) (bufsiz : Nat) (canOpen : Bytes → Bool) : List Bytes → Res (Option (List Job))
  | [] => .ok (some [])
  | a :: as => do
    let r ← target cfg bufsiz canOpen a
    match r with
    | none => return none
    | some j => do
      let rs ← targets cfg bufsiz canOpen as
      return rs.map (j :: ·)

/-- main_stow.c:281-291: the arguments of mtree(8); the first NULL ends them. -/
def mtreeArgs (v : Vars) : List Bytes :=
  let a := [b!"mtree", b!"-n", b!"-c", b!"-Ksha256digest", b!"-j", b!"-p"]
  match v.directory, v.exclude with
  | none, _ => a
  | some d, none => a ++ [d]
  | some d, some e => a ++ [d, b!"-X", e]

/-- main_stow.c:647-651: the command that is to be the server. -/
def serverArgs (v : Vars) : List Bytes :=
  match v.remote with
  | some r => [b!"ssh", r] ++ v.cmd.toList
  | none => [b!"/bin/sh", b!"-ec"] ++ v.cmd.toList

/-- How a job ends: the event loop ends and `wait4(2)` says how the command has ended; or the program exits or fails an assertion during the job. -/
inductive JobEnd where
  | waited (status : Nat)
  | exits (code : Nat)
  | aborts
  deriving DecidableEq, Repr

/-- How the program ends. -/
inductive End where
  | exit (code : Nat)
  | abort
  deriving DecidableEq, Repr

/-- main_stow.c:755-776: the jobs one after the other.  `does` says how each of them ends; the list in the result has the jobs that were started. -/
def jobs (does : Nat → Job → JobEnd) : (i : Nat) → List Job → List Job × End
  | _, [] => ([], .exit 0)
  | i, j :: js =>
    match does i j with
    | .aborts => ([j], .abort)
    | .exits c => ([j], .exit c)
    | .waited st => if st ≠ 0 then ([j], .exit 2) else (j :: (jobs does (i + 1) js).1, (jobs does (i + 1) js).2)

/-- main_stow.c:715-777, after the options (Model/Main.lean). -/
def mainStow (cfg : List Section) (bufsiz : Nat) (canOpen : Bytes → Bool) (does : Nat → Job → JobEnd) (args : List Bytes) : Res (List Job × End) := do
  if args = [] then return ([], .exit 1)
  else do
    let r ← targets cfg bufsiz canOpen args
    match r with
    | none => return ([], .exit 1)
    | some js => return jobs does 0 js

end Verif.StowMain
