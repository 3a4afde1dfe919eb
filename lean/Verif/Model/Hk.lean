/-
Model of housekeeping as a set of interleaved processes on the index files (/repo/index.c), with crashes.

The file system has inodes; the names `index.appendix` and `index.housekeep` refer to inodes, and a
process that has a file open keeps its inode when the name goes away.  The appendix and its snapshots
are lists of 32 byte records here, because every write to them is one record (index.c:243-245).
`index.sorted` only ever changes by rename(2) of a complete file, so the name is given its contents.
Every system call that another process can notice is one step.  A process that is not scheduled any more
has been killed; `crash` only says so explicitly, so that the hold file may be removed by hand.
-/
import Verif.Model.Index
import Verif.Spec.Index

namespace Verif.Hk
open Verif Index

/-- A housekeeping process in index.c:559-653.  `ret` is the variable `retval` of
`idx_attempt_merge`. -/
inductive HkPc where
  /-- before `open(hold, O_CREAT | O_EXCL)`, index.c:626 -/
  | start
  /-- before `link(appendix, housekeep)`, index.c:568 -/
  | link
  /-- before `unlink(appendix)`, index.c:570 -/
  | unlinkApp
  /-- before `open(housekeep)`, index.c:587 -/
  | opening (ret : Bool)
  /-- before `read`, index.c:597; the snapshot is open at record `pos` -/
  | read (ino pos : Nat) (ret : Bool)
  /-- before opening the sorted file, index.c:494; `chunk` has been read from the snapshot -/
  | merge (ino pos : Nat) (chunk : List Bytes) (ret : Bool)
  /-- before `rename(tmp, sorted)`, index.c:547; `new` is the contents of the temporary file -/
  | rename (ino pos : Nat) (chunk : List Bytes) (new : Bytes) (ret : Bool)
  /-- before `unlink(housekeep)`, index.c:612 -/
  | unlinkHk (ret : Bool)
  /-- before `unlink(hold)`, index.c:651 -/
  | release
  | done
  /-- killed, or aborted by an assertion -/
  | dead
  deriving DecidableEq, Repr

/-- An inserting process, index.c:224-249: before the `open`, before the `write`, or done. -/
inductive InsPc where
  | start (r : Bytes)
  | opened (r : Bytes) (ino : Nat)
  | done (r : Bytes)
  deriving DecidableEq, Repr

/-- A process that goes through the index, index.c:403-473.  `seen` are the records read so far. -/
inductive RdPc where
  /-- before `fopen(sorted)` -/
  | start
  /-- before `fopen(appendix)` -/
  | openApp (seen : List Bytes)
  /-- before reading the appendix (`none`: there was none) -/
  | readApp (seen : List Bytes) (ino : Option Nat)
  /-- before `fopen(housekeep)` -/
  | openHk (seen : List Bytes)
  /-- before reading the snapshot -/
  | readHk (seen : List Bytes) (ino : Option Nat)
  | done (seen : List Bytes)
  deriving DecidableEq, Repr

/-- The files and the processes.  `safe` is not part of the program: it lists the records that were
written while their file was still called `index.appendix`, or called `index.housekeep` and not yet read to
its end. -/
structure St where
  inodes : List (List Bytes)
  sorted : Option Bytes
  appendix : Option Nat
  housekeep : Option Nat
  hold : Bool
  hks : List HkPc
  inss : List InsPc
  rds : List RdPc
  safe : List Bytes
  deriving DecidableEq, Repr

/-- Contents of an inode. -/
def St.file (s : St) (i : Nat) : List Bytes := s.inodes.getD i []

/-- All records of a sorted index file. -/
def sortedRows : Option Bytes → List Bytes
  | none => []
  | some F => (List.range (Spec.numRecs F)).map fun j => Spec.row F (2 ^ (Spec.tblBits F - 2) + j)

/-- What can happen next. -/
inductive Act where
  | hk (p : Nat)
  | crash (p : Nat)
  | rmHold
  | ins (p : Nat)
  | rd (p : Nat)
  deriving DecidableEq, Repr

/-- The process has the hold file. -/
def HkPc.inside : HkPc → Bool
  | .start | .done | .dead => false
  | _ => true

def setHk (s : St) (p : Nat) (pc : HkPc) : St := { s with hks := s.hks.set p pc }
def setIns (s : St) (p : Nat) (pc : InsPc) : St := { s with inss := s.inss.set p pc }
def setRd (s : St) (p : Nat) (pc : RdPc) : St := { s with rds := s.rds.set p pc }

/-- index.c:568-585: `link(2)` reports a missing appendix before an existing snapshot. -/
def stepLink (s : St) (p : Nat) : St :=
  match s.appendix with
  | none => setHk s p .release
  | some a =>
    match s.housekeep with
    | none => setHk { s with housekeep := some a } p .unlinkApp
    | some _ => setHk s p (.opening true)

/-- index.c:587-594: open the snapshot. -/
def stepOpen (s : St) (p : Nat) (ret : Bool) : St :=
  match s.housekeep with
  | none => setHk s p .release
  | some i => setHk s p (.read i 0 ret)

/-- index.c:597-606: read up to `m` records (`index_sort_size / 32`). -/
def stepRead (m : Nat) (s : St) (p ino pos : Nat) (ret : Bool) : St :=
  let c := ((s.file ino).drop pos).take m
  if c = [] then setHk s p (.unlinkHk ret) else setHk s p (.merge ino pos c ret)

/-- index.c:608-609, 475-546: sort, merge with the sorted file into a temporary file. -/
def stepMerge (s : St) (p ino pos : Nat) (c : List Bytes) (ret : Bool) : St :=
  match idxMerge s.sorted (qsortRecs c) with
  | .ok new => setHk s p (.rename ino pos c new ret)
  | _ => setHk s p .dead

/-- index.c:547, 610: rename, and go on if the read was a full one. -/
def stepRename (m : Nat) (s : St) (p ino pos : Nat) (c : List Bytes) (new : Bytes) (ret : Bool) : St :=
  setHk { s with sorted := some new } p (if c.length = m then .read ino (pos + c.length) ret else .unlinkHk ret)

/-- One step of a housekeeping process. -/
def stepHk (m : Nat) (s : St) (p : Nat) : HkPc → Option St
  | .start => some (if s.hold then setHk s p .done else setHk { s with hold := true } p .link)
  | .link => some (stepLink s p)
  | .unlinkApp => some (setHk { s with appendix := none } p (.opening false))
  | .opening ret => some (stepOpen s p ret)
  | .read ino pos ret => some (stepRead m s p ino pos ret)
  | .merge ino pos c ret => some (stepMerge s p ino pos c ret)
  | .rename ino pos c new ret => some (stepRename m s p ino pos c new ret)
  | .unlinkHk ret => some (setHk { s with housekeep := none } p (if ret then .link else .release))
  | .release => some (setHk { s with hold := false } p .done)
  | .done | .dead => none

/-- The housekeeper has done its last read of the snapshot (a short one), but has not removed it. -/
def HkPc.pastLastRead (m : Nat) : HkPc → Bool
  | .merge _ _ c _ => c.length ≠ m
  | .rename _ _ c _ _ => c.length ≠ m
  | .unlinkHk _ => true
  | _ => false

/-- The file will still be read by somebody. -/
def St.live (m : Nat) (s : St) (i : Nat) : Bool :=
  decide (s.appendix = some i) || (decide (s.housekeep = some i) && !s.hks.any (HkPc.pastLastRead m))

/-- One step of an inserting process: `open(O_WRONLY | O_CREAT | O_APPEND)`, then `write`. -/
def stepIns (m : Nat) (s : St) (p : Nat) : InsPc → Option St
  | .start r =>
    match s.appendix with
    | some a => some (setIns s p (.opened r a))
    | none => some (setIns { s with inodes := s.inodes ++ [[]], appendix := some s.inodes.length } p (.opened r s.inodes.length))
  | .opened r i => some (setIns { s with
      inodes := s.inodes.set i (s.file i ++ [r])
      safe := if s.live m i then s.safe ++ [r] else s.safe } p (.done r))
  | .done _ => none

/-- One step of a reading process; an open file is read to its end in one step. -/
def stepRd (s : St) (p : Nat) : RdPc → Option St
  | .start => some (setRd s p (.openApp (sortedRows s.sorted)))
  | .openApp seen => some (setRd s p (.readApp seen s.appendix))
  | .readApp seen ino => some (setRd s p (.openHk (seen ++ (ino.map s.file).getD [])))
  | .openHk seen => some (setRd s p (.readHk seen s.housekeep))
  | .readHk seen ino => some (setRd s p (.done (seen ++ (ino.map s.file).getD [])))
  | .done _ => none

/-- The hold file may be removed by hand when no living process has it. -/
def stepRmHold (s : St) : Option St :=
  if s.hks.any HkPc.inside then none else some { s with hold := false }

/-- One action; `none` if it is not possible. -/
def step (m : Nat) (s : St) : Act → Option St
  | .hk p => (s.hks[p]?).bind (stepHk m s p)
  | .crash p => if p < s.hks.length then some (setHk s p .dead) else none
  | .rmHold => stepRmHold s
  | .ins p => (s.inss[p]?).bind (stepIns m s p)
  | .rd p => (s.rds[p]?).bind (stepRd s p)

/-- A sequence of actions. -/
def run (m : Nat) : St → List Act → Option St
  | s, [] => some s
  | s, a :: as => (step m s a).bind fun s' => run m s' as

/-- The archive at the beginning: no index files, `nh` housekeepers, one inserter for each of the records,
`nr` readers. -/
def init (nh : Nat) (rs : List Bytes) (nr : Nat) : St :=
  { inodes := [], sorted := none, appendix := none, housekeep := none, hold := false,
    hks := List.replicate nh .start, inss := rs.map .start, rds := List.replicate nr .start, safe := [] }

/-- The index files as seen by the sequential model. -/
def St.dir (s : St) : Dir :=
  { sorted := s.sorted, appendix := s.appendix.map fun i => (s.file i).flatten,
    housekeep := s.housekeep.map fun i => (s.file i).flatten, hold := s.hold }

end Verif.Hk
