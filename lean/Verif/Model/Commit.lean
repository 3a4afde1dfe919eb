/-
Model of silo creation and commit as a set of interleaved processes (/repo/wsilo.c), with crashes.

Every system call that another process can notice is one step.  A process here is one `struct wsilo` from
`Wsilo_New` to `Wsilo_Commit`; a store job with several segments is several of them, which allows more
interleavings than the program has.  The numbers from the cache file only choose where the searches start:
here any silo number may be tried next, at any time, and a search may stop at any time, which covers every
content of the cache file.  A process that is not scheduled any more has been killed; `crash` says so
explicitly, so that its hold files may be removed by hand.
-/
import Verif.Basic.Res
import Verif.Basic.Bytes

namespace Verif.Commit
open Verif

/-- What a process stores: the warcinfo record at the start of silo `n` (wsilo.c:186), the object's header
record at its reserved length (wsilo.c:529-549), the compressed header record (wsilo.c:506), the body
record with the separator, and whether it is a segment (wsilo.c:500). -/
structure Job where
  info : Nat → Bytes
  hdr : Bytes
  hdrz : Bytes
  body : Bytes
  segd : Bool

/-- The hold file when it is linked to become silo `n`. -/
def Job.hold (j : Job) (n : Nat) : Bytes := j.info n ++ j.hdr ++ j.body

/-- What is appended to an existing silo (wsilo.c:420-428). -/
def Job.appended (j : Job) : Bytes := j.hdrz ++ j.body

/-- A silo file. -/
structure Silo where
  data : Bytes
  writable : Bool
  deriving DecidableEq, Repr

/-- Who inserted an index entry: `silo_attempt_append`, `Wsilo_Commit`, or `Wsilo_Install`. -/
inductive Kind where
  | app | obj | info
  deriving DecidableEq, Repr

/-- An index entry made by process `proc`. -/
structure Entry where
  proc : Nat
  kind : Kind
  silo : Nat
  off : Nat
  deriving DecidableEq, Repr

/-- A process.  `n` is the number of its own hold file, `sn` the silo it tries to append to. -/
inductive Pc where
  /-- before `stat(silo)`, wsilo.c:129 -/
  | idle
  /-- before `stat(hold)`, wsilo.c:144 -/
  | probed (n : Nat)
  /-- before `open(hold, O_CREAT | O_EXCL)`, wsilo.c:152 -/
  | opening (n : Nat)
  /-- the hold file is its own; between two calls of `silo_attempt_append` -/
  | ready (n : Nat)
  /-- before `open(hold sn, O_EXCL)`, wsilo.c:393 -/
  | appLock (n sn : Nat)
  /-- before `open(silo sn)` and `fstat`, wsilo.c:397-408 -/
  | appCheck (n sn : Nat)
  /-- before `writev`, wsilo.c:430 -/
  | appWrite (n sn : Nat)
  /-- before `IDX_Insert`, wsilo.c:441; the record was written at `off` -/
  | appIdx (n sn off : Nat)
  /-- before `unlink(hold sn)`, wsilo.c:450 -/
  | appUnlock (n sn : Nat) (ok : Bool)
  /-- before `IDX_Insert`, wsilo.c:564 -/
  | final (n : Nat)
  /-- before `IDX_Insert` of the warcinfo record, wsilo.c:471 -/
  | install (n : Nat)
  /-- before `link`, wsilo.c:477 -/
  | linking (n : Nat)
  /-- before `unlink(hold)`, wsilo.c:217 -/
  | del (n : Nat)
  | done
  /-- killed, or aborted by an assertion -/
  | dead
  deriving DecidableEq, Repr

/-- The hold files a process has. -/
def Pc.owns : Pc → List Nat
  | .idle | .probed _ | .opening _ | .done | .dead => []
  | .ready n | .appLock n _ | .final n | .install n | .linking n | .del n => [n]
  | .appCheck n sn | .appWrite n sn | .appIdx n sn _ | .appUnlock n sn _ => [n, sn]

/-- The files, the index entries in the order they were inserted, and the processes. -/
structure St where
  silos : Nat → Option Silo
  holds : Nat → Bool
  idx : List Entry
  procs : List Pc

/-- Change one value of a function. -/
def upd {α : Type} (f : Nat → α) (n : Nat) (x : α) : Nat → α := fun m => if m = n then x else f m

/-- What can happen next: a process makes its next step, tries to create silo `n`, tries to append to silo
`sn`, gives up appending, or drops what it was about to store; a process is killed; somebody removes a left over hold file or write-protects
a silo. -/
inductive Act where
  | go (p : Nat)
  | create (p n : Nat)
  | append (p sn : Nat)
  | giveUp (p : Nat)
  | drop (p : Nat)
  | crash (p : Nat)
  | rmHold (n : Nat)
  | protect (n : Nat)
  deriving DecidableEq, Repr

def setPc (s : St) (p : Nat) (pc : Pc) : St := { s with procs := s.procs.set p pc }

/-- wsilo.c:399-408: the silo can be opened, is writable, and has room. -/
def hasRoom (max : Nat) (j : Job) : Option Silo → Bool
  | none => false
  | some f => f.writable && decide (f.data.length + j.appended.length ≤ max)

/-- wsilo.c:352-394: the checks before the hold file is taken. -/
def stepTry (max : Nat) (j : Job) (s : St) (p n sn : Nat) : St :=
  match s.silos sn with
  | none => setPc s p (.ready n)
  | some f =>
    if f.writable = false then setPc s p (.final n)
    else if f.data.length + j.appended.length > max then setPc s p (.ready n)
    else setPc s p (.appLock n sn)

/-- wsilo.c:429-440: append.  The assertion at line 440 is that the record is not the first one. -/
def stepWrite (j : Job) (s : St) (p n sn : Nat) : St :=
  match s.silos sn with
  | none => setPc s p .dead
  | some f =>
    let s := { s with silos := upd s.silos sn (some { f with data := f.data ++ j.appended }) }
    if f.data.length = 0 then setPc s p .dead else setPc s p (.appIdx n sn f.data.length)

/-- wsilo.c:477: `link(2)` fails if the silo exists. -/
def stepLink (j : Job) (s : St) (p n : Nat) : St :=
  match s.silos n with
  | some _ => setPc s p .dead
  | none => setPc { s with silos := upd s.silos n (some { data := j.hold n, writable := true }) } p (.del n)

/-- The next step of a process that has no choice. -/
def stepGo (max : Nat) (j : Job) (s : St) (p : Nat) : Pc → Option St
  | .probed n => some (setPc s p (if s.holds n then .idle else .opening n))
  | .opening n => some (if s.holds n then setPc s p .idle else setPc { s with holds := upd s.holds n true } p (.ready n))
  | .appLock n sn => some (if s.holds sn then setPc s p (.ready n) else setPc { s with holds := upd s.holds sn true } p (.appCheck n sn))
  | .appCheck n sn => some (setPc s p (if hasRoom max j (s.silos sn) then .appWrite n sn else .appUnlock n sn false))
  | .appWrite n sn => some (stepWrite j s p n sn)
  | .appIdx n sn off => some (setPc { s with idx := s.idx ++ [⟨p, .app, sn, off⟩] } p (.appUnlock n sn true))
  | .appUnlock n sn ok => some (setPc { s with holds := upd s.holds sn false } p (if ok then .del n else .ready n))
  | .final n => some (setPc { s with idx := s.idx ++ [⟨p, .obj, n, (j.info n).length⟩] } p (.install n))
  | .install n => some (setPc { s with idx := s.idx ++ [⟨p, .info, n, 0⟩] } p (.linking n))
  | .linking n => some (stepLink j s p n)
  | .del n => some (setPc { s with holds := upd s.holds n false } p .done)
  | .idle | .ready _ | .done | .dead => none

/-- wsilo.c:129: a silo number in use is not taken. -/
def stepCreate (s : St) (p n : Nat) : Pc → Option St
  | .idle => some (setPc s p (if (s.silos n).isSome then .idle else .probed n))
  | _ => none

/-- wsilo.c:500-508: only what is no segment, and only silos in front of the own one. -/
def stepAppend (max : Nat) (j : Job) (s : St) (p sn : Nat) : Pc → Option St
  | .ready n => if j.segd = false ∧ sn < n then some (stepTry max j s p n sn) else none
  | _ => none

def stepGiveUp (s : St) (p : Nat) : Pc → Option St
  | .ready n => some (setPc s p (.final n))
  | _ => none

/-- wsilo.c:567-579 `Wsilo_Abandon`, from segjob.c:81-96: the object is in the archive already. -/
def stepDrop (s : St) (p : Nat) : Pc → Option St
  | .ready n => some (setPc s p (.del n))
  | _ => none

/-- Write-protect a silo (wsilo.c:361-365 expects that somebody does). -/
def stepProtect (s : St) (n : Nat) : Option St :=
  match s.silos n with
  | none => none
  | some f => some { s with silos := upd s.silos n (some { f with writable := false }) }

/-- One action; `none` if it is not possible. -/
def step (max : Nat) (jobs : Nat → Job) (s : St) : Act → Option St
  | .go p => (s.procs[p]?).bind (stepGo max (jobs p) s p)
  | .create p n => (s.procs[p]?).bind (stepCreate s p n)
  | .append p sn => (s.procs[p]?).bind (stepAppend max (jobs p) s p sn)
  | .giveUp p => (s.procs[p]?).bind (stepGiveUp s p)
  | .drop p => (s.procs[p]?).bind (stepDrop s p)
  | .crash p => if p < s.procs.length then some (setPc s p .dead) else none
  | .rmHold n => if s.procs.any (fun pc => pc.owns.contains n) then none else some { s with holds := upd s.holds n false }
  | .protect n => stepProtect s n

/-- A sequence of actions. -/
def run (max : Nat) (jobs : Nat → Job) : St → List Act → Option St
  | s, [] => some s
  | s, a :: as => (step max jobs s a).bind fun s' => run max jobs s' as

/-- The empty archive and `np` processes. -/
def init (np : Nat) : St :=
  { silos := fun _ => none, holds := fun _ => false, idx := [], procs := List.replicate np .idle }

end Verif.Commit
