/-
main_stevedore.c: the jobs of the server as processes, with the ends of pipes that they inherit.

A job is a child of the server, which reads from a pipe until nobody has its writing end any more.  The server has that end until it
closes it; and each job that is started in between inherits it with `fork(2)`, and has it until it exits (main_stevedore.c:111-133 closes
only the ends of the job's own pipes).  `Model/Stevedore.lean` has what the jobs read and print, and no descriptors.

Simplifications: writes to pipes do not wait (C71 is about those that do), a job that has read its input comes to print its result and
to exit.  When a filter job is started is left open: any time when there is none (main_stevedore.c:196-197, 349-350), which allows more
than the queue does.
-/
import Verif.Basic.Bytes

namespace Verif.StevJobs
open Verif

/-- Which job: main_stevedore.c:218, 266, 299. -/
inductive Kind where
  | filter
  | store
  | info
  deriving DecidableEq, Repr

/-- A job reads its input or has not yet printed its result, has printed it, or has exited. -/
inductive Phase where
  | reads
  | printed
  | gone
  deriving DecidableEq, Repr

/-- main_stevedore.c:48-61 `struct job`: `up` says that the server has the writing end of its input (`fd_to`); `held` are the numbers of
the jobs whose writing ends it has inherited. -/
structure Job where
  kind : Kind
  phase : Phase
  up : Bool
  held : List Nat
  deriving DecidableEq, Repr

/-- The server: its jobs in the order they were started, `filter_job`, `store_job`, `meta_job`, and whether it waits for a job, `stdin_ev`
being disabled. -/
structure Srv where
  jobs : List Job
  filter : Option Nat
  store : Option Nat
  info : Option Nat
  waits : Bool
  deriving DecidableEq, Repr

/-- main_stevedore.c:474-484: at the start. -/
def start : Srv := { jobs := [], filter := none, store := none, info := none, waits := false }

/-- The numbers of the jobs whose inputs the server has open; `k` is the number of the first one. -/
def opened : (k : Nat) → List Job → List Nat
  | _, [] => []
  | k, j :: js => if j.up then k :: opened (k + 1) js else opened (k + 1) js

/-- main_stevedore.c:97-147 `job_start`: `fork(2)` gives the child all descriptors; `up` as it is when the handler returns. -/
def jobStart (s : Srv) (kind : Kind) (up : Bool) : List Job := s.jobs ++ [{ kind := kind, phase := .reads, up := up, held := opened 0 s.jobs }]

/-- Change one job. -/
def onJob (f : Job → Job) : (k : Nat) → List Job → List Job
  | _, [] => []
  | 0, j :: js => f j :: js
  | k + 1, j :: js => j :: onJob f k js

/-- Does a job that has not exited have the writing end of the input of job `k`? -/
def inherited (s : Srv) (k : Nat) : Bool := s.jobs.any fun j => decide (j.phase ≠ .gone) && j.held.contains k

/-- What can happen.  The first ones are messages of the client. -/
inductive Ev where
  /-- `PROTO_FILTER`, main_stevedore.c:330-351, or the end of another filter job, if a job is started -/
  | filter
  /-- `PROTO_DATA` with data, main_stevedore.c:363-381 -/
  | data
  /-- `PROTO_DATA` of size 0, main_stevedore.c:353-362 -/
  | dataEnd
  /-- the first `PROTO_META`, main_stevedore.c:383-396 -/
  | info
  /-- `PROTO_META` of size 0, main_stevedore.c:412-417 -/
  | infoEnd
  /-- job `k` has read its input and prints the result, main_stevedore.c:242-251, 272-281 -/
  | prints (k : Nat)
  /-- job `k` exits, main_stevedore.c:149-165, 183-199 -/
  | exits (k : Nat)
  deriving DecidableEq, Repr

/-- Is this a message of the client? -/
def Ev.client : Ev → Bool
  | .filter | .data | .dataEnd | .info | .infoEnd => true
  | _ => false

/-- main_stevedore.c:242-251, 272-281: store and metadata jobs print an ID, and `stdin_ev` is enabled. -/
def jobPrints (s : Srv) (k : Nat) (j : Job) : Option Srv :=
  if j.phase ≠ .reads ∨ j.up ∨ inherited s k then none
  else some { s with jobs := onJob (fun j => { j with phase := .printed }) k s.jobs, waits := if j.kind = .filter then s.waits else false }

/-- main_stevedore.c:149-165: a job exits, and the descriptors it has are closed. -/
def jobExits (s : Srv) (k : Nat) (j : Job) : Option Srv :=
  if j.phase ≠ .printed then none
  else some { s with jobs := onJob (fun j => { j with phase := .gone }) k s.jobs, filter := if s.filter = some k then none else s.filter }

/-- One event; `none` if it is not possible now, or an assertion of the server fails. -/
def step (s : Srv) : Ev → Option Srv
  | .filter => if s.filter.isSome then none else some { s with jobs := jobStart s .filter false, filter := some s.jobs.length }
  | .data =>
    if s.waits then none
    else if s.store.isSome then some s
    else some { s with jobs := jobStart s .store true, store := some s.jobs.length }
  | .dataEnd =>
    if s.waits then none
    else match s.store with
      | none => none
      | some k => some { s with jobs := onJob (fun j => { j with up := false }) k s.jobs, store := none, waits := true }
  | .info =>
    if s.waits ∨ s.info.isSome then none
    else some { s with jobs := jobStart s .info true, info := some s.jobs.length }
  | .infoEnd =>
    if s.waits then none
    else match s.info with
      | none => none
      | some k => some { s with jobs := onJob (fun j => { j with up := false }) k s.jobs, info := none }
  | .prints k => (s.jobs[k]?).bind (jobPrints s k)
  | .exits k => (s.jobs[k]?).bind (jobExits s k)

/-- A sequence of events. -/
def run : Srv → List Ev → Option Srv
  | s, [] => some s
  | s, e :: es => (step s e).bind fun s => run s es

end Verif.StevJobs
