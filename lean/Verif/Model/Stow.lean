/-
Model of the filter exchange between /repo/main_stow.c (the client, which has files) and
/repo/main_stevedore.c (the server, which has the archive).

The client sends the digest of every file and gets told which ones the archive does not have.  Client,
server, the server's filter job, and the store jobs that make the archive grow run interleaved in any
order; messages in flight are two queues.  Framing of the messages is in Model/Proto.lean, splitting of
the filter job's output in lines in Model/Vlu.lean, the filter itself in Model/Filter.lean.
-/
import Verif.Basic.CStr
import Verif.Basic.Res

namespace Verif.Stow
open Verif

/-- main_stow.c:62-69 `struct subj`: a file (`isFile` stands for `directory != NULL`), the output of mtree
(`isFile = false`) or the end mark (`isFile = false`, empty digest). -/
structure Item where
  isFile : Bool
  name : Bytes
  digest : Bytes
  deriving DecidableEq, Repr

/-- The client's lists (main_stow.c:71-73) and `struct stow_job` as far as it matters here.  `subj` starts
with everything mtree will ever list: an item that is not listed yet is one which is not sent yet.  `get`
keeps all items that were put on the `get_list`; `flushed` are the ones `subj_flush` dropped. -/
structure Client where
  subj : List Item
  wait : List Item
  get : List Item
  flushed : List Item
  info : Option Item
  idSize : Nat
  deriving DecidableEq, Repr

/-- main_stow.c:398-412 `subj_flush` of the first item on `wait_list`; `info` is `sj->meta`. -/
def subjFlush (c : Client) (cp : Item) (rest : List Item) : Client :=
  { c with wait := rest, flushed := c.flushed ++ [cp],
           info := if cp.isFile = false ∧ cp.digest ≠ [] then some cp else c.info }

/-- main_stow.c:421-426: flush everything. -/
def flushAll : List Item → Client → Client
  | [], c => c
  | cp :: rest, c => flushAll rest (subjFlush c cp rest)

/-- main_stow.c:429-434: flush `u` items; `CHECK_OBJ_NOTNULL` fails when there are fewer. -/
def flushN : (u : Nat) → List Item → Client → Res Client
  | 0, _, c => .ok c
  | _ + 1, [], _ => .fail
  | u + 1, cp :: rest, c => flushN u rest (subjFlush c cp rest)

/-- main_stow.c:440-455: flush until the item with this ID, which goes to the `get_list`.  `memcmp` looks
at `p.length` bytes of the digest and its NUL. -/
def flushTo (p : Bytes) : List Item → Client → Res Client
  | [], _ => .fail
  | cp :: rest, c => do
    Res.access (decide (p.length ≤ cp.digest.length + 1))
    if (cp.digest ++ [0]).take p.length = p then
      .ok { c with wait := rest, get := c.get ++ [cp] }
    else flushTo p rest (subjFlush c cp rest)

/-- main_stow.c:414-461 `filter_resp` -/
def filterResp (c : Client) (p : Bytes) : Res Client :=
  if p.length = 0 then .ok (flushAll c.wait c)
  else if p.length = 4 then flushN (beDec p) c.wait c
  else if 16 ≤ p.length ∧ p.length ≤ 64 then
    flushTo p c.wait { c with idSize := p.length }
  else .fail

/-- The filter job (main_stevedore.c:51-61): what was written to it, what it will still print (`none`
before it has looked at the index) and `filter_skip`. -/
structure Job where
  input : List Bytes
  out : Option (List Bytes)
  skip : Nat
  deriving DecidableEq, Repr

/-- The server: `filter_queue` without the newlines, and `filter_job`. -/
structure Server where
  queue : List Bytes
  job : Option Job
  deriving DecidableEq, Repr

/-- main_stevedore.c:231: the largest number of IDs for one job. -/
def maxBatch : Nat := 40960

/-- main_stevedore.c:201-238 `start_filter`: an empty message for every empty entry in front, then a job
for the following entries up to the next empty one.  `max` is `maxBatch`. -/
def startFilter (max : Nat) : List Bytes → List Bytes × Server
  | [] => ([], ⟨[], none⟩)
  | [] :: q => ([] :: (startFilter max q).1, (startFilter max q).2)
  | q =>
    let batch := (q.takeWhile (fun f => f ≠ [])).take max
    ([], ⟨q.drop batch.length, some ⟨batch, none, batch.length⟩⟩)

/-- main_stevedore.c:330-351 `input`, case `PROTO_FILTER`: the messages sent and the new state. -/
def input (idSize max : Nat) (v : Server) (p : Bytes) : Res (List Bytes × Server) := do
  Res.check (decide (p.length = 0 ∨ (idSize ≤ p.length ∧ p.length ≤ 64)))
  match v.job with
  | none => .ok (startFilter max (v.queue ++ [p]))
  | some _ => .ok ([], { v with queue := v.queue ++ [p] })

/-- main_stevedore.c:169-181 `filter_line` -/
def filterLine (idSize : Nat) (j : Job) (l : Bytes) (ls : List Bytes) : Res (Bytes × Job) := do
  Res.check (decide (16 ≤ l.length ∧ l.length ≤ 64))
  Res.access (decide (idSize ≤ l.length + 1))
  .ok ((l ++ [0]).take idSize, { j with out := some ls, skip := 0 })

/-- main_stevedore.c:183-199 `filter_end`; the job exits with status 0. -/
def filterEnd (max : Nat) (v : Server) (j : Job) : List Bytes × Server :=
  let m := if j.skip ≠ 0 then [beEnc 4 j.skip] else []
  if v.queue = [] then (m, ⟨[], none⟩)
  else (m ++ (startFilter max v.queue).1, (startFilter max v.queue).2)

/-- Client, server, the messages in flight and the archive.  `known` are the IDs the filter finds in the
archive's index.  `log` is no part of the program: the verdicts of the filter jobs, in order, `true` for
an ID that was printed as missing. -/
structure Sys where
  cl : Client
  sv : Server
  up : List Bytes
  down : List Bytes
  known : Bytes → Bool
  log : List (Bytes × Bool)

/-- One step of one of the parties. -/
inductive Ev where
  /-- main_stow.c:566-576: the client sends one digest -/
  | send
  /-- the server gets a message -/
  | recv
  /-- the filter job reads the index -/
  | run
  /-- the filter job prints a line -/
  | line
  /-- the filter job ends -/
  | eof
  /-- the client gets a message -/
  | resp
  /-- something is stored in the archive; these IDs are found from then on, too -/
  | store (ids : Bytes → Bool)

/-- The lines the filter prints. -/
def missing (idSize : Nat) (known : Bytes → Bool) (ls : List Bytes) : List Bytes :=
  ls.filter (fun l => !known (l.take idSize))

/-- One step; `none` if it is not possible now. -/
def step (idSize max : Nat) (s : Sys) : Ev → Option (Res Sys)
  | .send =>
    match s.cl.subj with
    | [] => none
    | cp :: rest =>
      some (.ok { s with cl := { s.cl with subj := rest, wait := s.cl.wait ++ [cp] },
                         up := s.up ++ [cp.digest.take s.cl.idSize] })
  | .recv =>
    match s.up with
    | [] => none
    | p :: up =>
      some (do
        let r ← input idSize max s.sv p
        .ok { s with sv := r.2, up := up, down := s.down ++ r.1 })
  | .run =>
    match s.sv.job with
    | some ⟨inp, none, skip⟩ =>
      some (.ok { s with sv := { s.sv with job := some ⟨inp, some (missing idSize s.known inp), skip⟩ },
                         log := s.log ++ inp.map (fun l => (l.take idSize, !s.known (l.take idSize))) })
    | _ => none
  | .line =>
    match s.sv.job with
    | some ⟨inp, some (l :: ls), skip⟩ =>
      some (do
        let r ← filterLine idSize ⟨inp, some (l :: ls), skip⟩ l ls
        .ok { s with sv := { s.sv with job := some r.2 }, down := s.down ++ [r.1] })
    | _ => none
  | .eof =>
    match s.sv.job with
    | some ⟨inp, some [], skip⟩ =>
      let r := filterEnd max s.sv ⟨inp, some [], skip⟩
      some (.ok { s with sv := r.2, down := s.down ++ r.1 })
    | _ => none
  | .resp =>
    match s.down with
    | [] => none
    | p :: down =>
      some (do
        let c ← filterResp s.cl p
        .ok { s with cl := c, down := down })
  | .store ids => some (.ok { s with known := fun x => s.known x || ids x })

/-- A sequence of steps. -/
def run (idSize max : Nat) (s : Sys) : List Ev → Option (Res Sys)
  | [] => some (.ok s)
  | e :: es =>
    match step idSize max s e with
    | none => none
    | some (.ok s') => run idSize max s' es
    | some r => some r

/-- The start: nothing has been sent.  `files` is what mtree lists, `tree` the digest of its output
(main_stow.c:250-260). -/
def start (files : List Item) (tree : Bytes) (known : Bytes → Bool) : Sys where
  cl := { subj := files ++ [⟨false, [], tree⟩, ⟨false, [], []⟩], wait := [], get := [], flushed := [],
          info := none, idSize := 64 }
  sv := ⟨[], none⟩
  up := []
  down := []
  known := known
  log := []

end Verif.Stow
