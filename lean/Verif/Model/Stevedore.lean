/-
Model of /repo/main_stevedore.c as it meets a client that may send anything, and may go away at any
time.  (Model/StowData.lean has the server together with the client of the package.)

The client's bytes are a list; behind it is the end of the file.  Every `read(2)` of the loops may return
fewer bytes than asked for.  Simplifications: `read(2)` does not fail; a `write(2)` to a job is complete
or kills the server (SIGPIPE), which may happen at any time anyway.
-/
import Verif.Model.Proto
import Verif.Model.Rsilo

namespace Verif.Stevedore
open Verif Proto
open _root_.Verif.Rsilo (cstr)

/-- main_stevedore.c:67-72 `struct filter`; `freed` after `FREE_OBJ` without removal from the queue. -/
structure Filt where
  id : Bytes
  freed : Bool
  deriving DecidableEq, Repr

/-- The filter job: what was written to it, and `filter_skip`. -/
structure FJob where
  input : Bytes
  skip : Nat
  deriving DecidableEq, Repr

/-- A store job (`arg` is empty) or a metadata job (`arg` is its argument of `-r`) that has come to the end
of its input; `printed` whether it has printed the line with the ID. -/
structure Pend where
  arg : Option Bytes
  input : Bytes
  printed : Bool
  deriving DecidableEq, Repr

/-- The server.  `inp` is what the client will still send; `ev` is `stdin_ev`: removed, disabled, or enabled; `store` and `info` are
`store_job` and `meta_job` with what was written to them; `pend` are jobs whose input is closed, which only have
an event; `down` is what the client gets.
No part of the program: `given` and `infos`, what the jobs have got as their whole input. -/
structure Srv where
  inp : Bytes
  ev : Option Bool
  queue : List Filt
  fjob : Option FJob
  store : Option Bytes
  info : Option (Bytes × Bytes)
  pend : List Pend
  down : List (Nat × Bytes)
  given : List Bytes
  infos : List (Bytes × Bytes)
  deriving DecidableEq, Repr

/-- What comes out of a handler: the server goes on, calls `exit(3)`, fails an assertion, is killed, or does something that has no meaning in C. -/
inductive Out where
  | go (s : Srv)
  | exit (code : Nat) (s : Srv)
  | abort (s : Srv)
  | ub
  deriving DecidableEq, Repr

/-- The loops over `read(2)`, e.g. main_stevedore.c:337-345: `need` bytes are wanted, at most `cap` at a time, the `i`th call returns no more
than `cs i + 1`.  What was read, what is left, and whether it is complete. -/
def readAll (cap : Nat) (cs : Nat → Nat) : (fuel i need : Nat) → Bytes → Bytes × Bytes × Bool
  | 0, _, need, s => ([], s, need == 0)
  | fuel + 1, i, need, s =>
    if need = 0 then ([], s, true)
    else if s = [] then ([], [], false)
    else
      let k := min (min (cs i + 1) (min need cap)) s.length
      let r := readAll cap cs fuel (i + 1) (need - k) (s.drop k)
      (s.take k ++ r.1, r.2)

/-- main_stevedore.c:223-233: from the queue to the filter job; `none` if it looks at an entry that was freed. -/
def batch : (max : Nat) → List Filt → Option (List Filt × List Filt)
  | 0, q => some ([], q)
  | _, [] => some ([], [])
  | max + 1, f :: q =>
    if f.freed = true then none
    else if f.id = [] then some ([], f :: q)
    else (batch max q).map fun r => (f :: r.1, r.2)

/-- main_stevedore.c:208-238 `start_filter`.  `max` is 40960. -/
def startFilter (max : Nat) : List Filt → Srv → Out
  | [], s => .go { s with queue := [] }
  | f :: q, s =>
    if f.freed = true then .ub
    else if f.id = [] then startFilter max q { s with down := s.down ++ [(1, [])] }
    else if s.fjob.isSome then .abort s
    else
      match batch max (f :: q) with
      | none => .ub
      | some (b, q') =>
        if b = [] then .abort s
        else .go { s with queue := q', fjob := some ⟨(b.map (·.id)).flatten, b.length⟩ }

/-- main_stevedore.c:349-350 -/
def kick (max : Nat) (s : Srv) : Out :=
  if s.fjob.isSome then .go s else startFilter max s.queue s

/-- main_stevedore.c:330-351: `PROTO_FILTER`; the ID goes to an array of 66 bytes. -/
def inputFilter (n max : Nat) (cs : Nat → Nat) (len : Nat) (s : Srv) : Out :=
  if len = 0 then kick max { s with queue := s.queue ++ [⟨[], false⟩] }
  else if ¬(n ≤ len ∧ len ≤ 64) then .abort s
  else if ¬(len + 1 < 66) then .ub
  else
    let r := readAll len cs len 0 len s.inp
    if r.2.2 = false then .go { s with inp := r.2.1, ev := none, queue := s.queue ++ [⟨r.1, true⟩] }
    else kick max { s with inp := r.2.1, queue := s.queue ++ [⟨cstr (r.1 ++ [10]), false⟩] }

/-- proto.c:115-126 `proto_ctl_ev` of `stdin_ev` -/
def ctl (b : Bool) (s : Srv) : Out :=
  if s.ev.isNone then .abort s else .go { s with ev := some b }

/-- main_stevedore.c:352-381: `PROTO_DATA` -/
def inputData (cs : Nat → Nat) (len : Nat) (s : Srv) : Out :=
  if len = 0 then
    match s.store with
    | none => .abort s
    | some d => ctl false { s with store := none, pend := s.pend ++ [⟨none, d, false⟩], given := s.given ++ [d] }
  else
    let r := readAll 8192 cs len 0 len s.inp
    let s' := { s with inp := r.2.1, store := some (s.store.getD [] ++ r.1) }
    if r.2.2 = false then .exit 3 { s' with ev := none } else .go s'

/-- main_stevedore.c:382-418: `PROTO_META`, with :292-305 `start_meta` -/
def inputMeta (n : Nat) (cs : Nat → Nat) (len : Nat) (s : Srv) : Out :=
  match s.info with
  | none =>
    if ¬(len + 1 < 8192) then .abort s
    else
      let r := readAll len cs len 0 len s.inp
      if r.2.2 = false then .go { s with inp := r.2.1, ev := none }
      else .go { s with inp := r.2.1, info := some ((cstr r.1).take n, []) }
  | some (ref, d) =>
    if len = 0 then .go { s with info := none, pend := s.pend ++ [⟨some ref, d, false⟩], infos := s.infos ++ [(ref, d)] }
    else
      let r := readAll 8192 cs len 0 len s.inp
      let s' := { s with inp := r.2.1, info := some (ref, d ++ r.1) }
      if r.2.2 = false then .exit 3 { s' with ev := none } else .go s'

/-- main_stevedore.c:419-431: an unknown command.  `msg` is the text of the complaint. -/
def inputOther (msg : Nat → Nat → Bytes) (cs : Nat → Nat) (cmd len : Nat) (s : Srv) : Out :=
  .go { s with inp := (readAll 8192 cs len 0 len s.inp).2.1, down := s.down ++ [(0, msg cmd len)] }

/-- main_stevedore.c:326-432: the header of the message has been read. -/
def inputMsg (n max : Nat) (msg : Nat → Nat → Bytes) (cs : Nat → Nat) (cmd len : Nat) (s : Srv) : Out :=
  if cmd = 0 then .abort s
  else if cmd = 1 then inputFilter n max cs len s
  else if cmd = 2 then inputData cs len s
  else if cmd = 3 then inputMeta n cs len s
  else inputOther msg cs cmd len s

/-- main_stevedore.c:309-433 `input` -/
def input (n max : Nat) (msg : Nat → Nat → Bytes) (cs : Nat → Nat) (s : Srv) : Out :=
  match protoIn s.inp with
  | .eof => .go { s with inp := [], ev := none }
  | .err => .exit 42 { s with inp := [] }
  | .hdr cmd len rest => inputMsg n max msg cs cmd len { s with inp := rest }

/-- main_stevedore.c:169-181 `filter_line`: the line has to be between 16 and 64 bytes, and `id_size` of them are sent. -/
def filterLine (n : Nat) (l : Bytes) (s : Srv) (j : FJob) : Out :=
  if ¬(16 ≤ l.length ∧ l.length ≤ 64) then .abort s
  else if ¬(n ≤ l.length + 1) then .ub
  else .go { s with fjob := some { j with skip := 0 }, down := s.down ++ [(1, (l ++ [0]).take n)] }

/-- main_stevedore.c:183-199 `filter_end`, with :149-165 `job_end`: the job must have exited with status 0. -/
def filterEnd (max : Nat) (ok : Bool) (s : Srv) (j : FJob) : Out :=
  let s' := { s with fjob := none, down := if j.skip ≠ 0 then s.down ++ [(1, beEnc 4 j.skip)] else s.down }
  if ok = false then .abort s'
  else if s'.queue = [] then .go s' else startFilter max s'.queue s'

/-- Something that can happen. -/
inductive Ev where
  /-- there is something to read from the client; `cs` are the sizes of what the calls of `read(2)` return -/
  | input (cs : Nat → Nat)
  /-- the filter job prints a line -/
  | line (l : Bytes)
  /-- the filter job ends, with status 0 or not -/
  | filterEnd (ok : Bool)
  /-- job number `k` of those whose input is closed prints the ID -/
  | id (k : Nat) (l : Bytes)
  /-- that job ends with status 0, after it has printed the ID -/
  | ended (k : Nat)
  /-- one of the store and metadata jobs fails -/
  | failed
  /-- the server is killed -/
  | kill

/-- proto.c:128-152: the loop ends when there is no event, and asserts that one is enabled. -/
def settle : Out → Out
  | .go s =>
    if s.fjob.isSome || s.store.isSome || s.info.isSome || s.pend ≠ [] then .go s
    else
      match s.ev with
      | none => .exit 0 s
      | some false => .abort s
      | some true => .go s
  | o => o

/-- main_stevedore.c:242-251 `store_line`, :272-281 `meta_line` -/
def idLine (k : Nat) (l : Bytes) (s : Srv) (p : Pend) : Out :=
  ctl true { s with pend := s.pend.set k { p with printed := true }, down := s.down ++ [(if p.arg.isNone then 2 else 3, l)] }

/-- The parameters: `id_size`, the number of IDs for a filter job, the text of complaints, and which lines a filter job may print for its input. -/
structure Cfg where
  n : Nat
  max : Nat
  msg : Nat → Nat → Bytes
  prints : Bytes → Bytes → Bool

/-- One event; `none` if it cannot happen now. -/
def step (g : Cfg) (s : Srv) : Ev → Option Out
  | .input cs => if s.ev = some true then some (settle (input g.n g.max g.msg cs s)) else none
  | .line l =>
    match s.fjob with
    | none => none
    | some j => if g.prints j.input l then some (settle (filterLine g.n l s j)) else none
  | .filterEnd ok =>
    match s.fjob with
    | none => none
    | some j => some (settle (filterEnd g.max ok s j))
  | .id k l =>
    match s.pend[k]? with
    | none => none
    | some p => if p.printed = false then some (settle (idLine k l s p)) else none
  | .ended k =>
    match s.pend[k]? with
    | none => none
    | some p => if p.printed = true then some (settle (.go { s with pend := s.pend.eraseIdx k })) else none
  | .failed => if s.store.isSome || s.info.isSome || s.pend.any (fun p => !p.printed) then some (.abort s) else none
  | .kill => some (.abort s)

/-- A sequence of events.  `none` if one of them cannot happen, or happens after the end. -/
def run (g : Cfg) : Srv → List Ev → Option Out
  | s, [] => some (.go s)
  | s, e :: es =>
    match step g s e with
    | none => none
    | some (.go s') => run g s' es
    | some o => if es.isEmpty then some o else none

/-- main_stevedore.c:474-484: the server starts if the configuration allows the type of the metadata; `hi` and `no` are the texts of the messages. -/
def start (allowed : Bool) (hi no : Bytes) (inp : Bytes) : Out :=
  let s : Srv := { inp := inp, ev := none, queue := [], fjob := none, store := none, info := none, pend := [], down := [(0, hi)], given := [], infos := [] }
  if allowed = false then .exit 0 { s with down := s.down ++ [(0, no)] } else .go { s with ev := some true }

/-- What the store jobs have got, once the server is no more: the pipe to the one that was still reading has been closed. -/
def Srv.stored (s : Srv) : List Bytes := s.given ++ s.store.toList

/-- The same for metadata. -/
def Srv.storedInfo (s : Srv) : List (Bytes × Bytes) := s.infos ++ s.info.toList

end Verif.Stevedore
