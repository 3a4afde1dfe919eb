/-
Model of the whole of one stow job: the filter exchange of Model/Stow.lean, the sending of the files, and
the metadata, in /repo/main_stow.c (the client) and /repo/main_stevedore.c (the server).

Both sides are event loops (/repo/proto.c:128-160).  One event of the model is one round of the client's
loop, in which `stevedore_out` is called if it is enabled and the connection can be written to, and then `stevedore_in` if there is a message;
or one call of a handler on the server's side; or something one of the jobs does.  Simplifications: files can be opened; the store jobs do not fail (see
C59 for when they do); the output of mtree is taken as the list of files it makes.
-/
import Verif.Model.Stow
import Verif.Model.Rsilo

namespace Verif.StowData
open Verif Stow
open _root_.Verif.Rsilo (cstr)

/-- The messages, proto.c:32-45; debug messages are left out. -/
inductive Msg where
  | filter (p : Bytes)
  | data (p : Bytes)
  | info (p : Bytes)
  deriving DecidableEq, Repr

/-- What does not change during a job: the length of IDs, the largest batch for a filter job, the prefix of IDs, SHA256, the ID
which the archive gives to the metadata, the output of mtree, the name of the job, the time, and `BUFSIZ`. -/
structure Cfg where
  n : Nat
  max : Nat
  pfx : Bytes
  sha : Bytes → Bytes
  mid : Bytes → Bytes → Bytes
  text : Bytes
  job : Bytes
  time : Bytes
  bufsiz : Nat

/-- The ID that `store` gives to contents (C49, C59). -/
def Cfg.ident (g : Cfg) (c : Bytes) : Bytes := (g.sha c).take g.n

/-- Client, server and the messages in flight.  `cl`, `sv`, `known`, `log` are as in Model/Stow.lean.
Client: `avail` is the number of items of `cl.subj` that are on the `subj_list` (the others mtree has not listed yet); `taken`
the number of items of `cl.get` that are not on the `get_list` any more; `ack` the `ack_list`; `send` what there is still to read from
`send_fd`; `changed` the contents of `sj->changed`; `closed` whether that has been closed; `enable` whether `stevedore_out` is enabled;
`gone` whether it has been removed.
Server: `store` what the store job has got so far; `pend` the input of a store job which has not printed its line yet, so that
standard input is disabled; `mjob`, `mpend` the same for the metadata job, with its argument `-r`.
No part of the program: `sent`, the items in the order in which they were opened, and what was in them; `stored`, what was stored, and `metas`, the
metadata stored. -/
structure Sys where
  cl : Client
  avail : Nat
  taken : Nat
  ack : List Item
  send : Option Bytes
  changed : Bytes
  closed : Bool
  enable : Bool
  gone : Bool
  sv : Server
  store : Option Bytes
  pend : Option Bytes
  mjob : Option (Bytes × Bytes)
  mpend : Option (Bytes × Bytes)
  up : List Msg
  down : List Msg
  known : Bytes → Bool
  log : List (Bytes × Bool)
  sent : List (Item × Bytes)
  stored : List Bytes
  metas : List (Bytes × Bytes)

/-- main_stow.c:566-576: the first `k` items of the `subj_list` -/
def sendIds : (k : Nat) → Sys → Sys
  | 0, s => s
  | k + 1, s =>
    match s.cl.subj with
    | [] => s
    | cp :: rest =>
      sendIds k { s with cl := { s.cl with subj := rest, wait := s.cl.wait ++ [cp] }, avail := s.avail - 1,
                         up := s.up ++ [.filter (cp.digest.take s.cl.idSize)] }

/-- main_stow.c:577-586: the next piece of the file, of at most `sz` bytes; `false` if the handler returns -/
def sendPiece (sz : Nat) (s : Sys) : Sys × Bool :=
  match s.send with
  | none => (s, true)
  | some r =>
    let s' := { s with up := s.up ++ [Msg.data (r.take sz)] }
    if r.take sz ≠ [] then ({ s' with send := some (r.drop sz) }, false) else ({ s' with send := none }, true)

/-- main_stow.c:590-619: open the next file; `c` is what is in it.  `false` if the handler returns. -/
def openNext (g : Cfg) (c : Bytes) (s : Sys) : Sys × Bool :=
  match s.cl.get.drop s.taken with
  | [] => (s, true)
  | cp :: _ =>
    let s' := { s with taken := s.taken + 1, ack := s.ack ++ [cp] }
    if cp.isFile = false then ({ s' with send := some g.text, sent := s.sent ++ [(cp, g.text)] }, false)
    else ({ s' with send := some c, sent := s.sent ++ [(cp, c)] }, true)

/-- Pieces of at most `k + 1` bytes, as `fread(3)` gives them. -/
def pieces (k : Nat) : (fuel : Nat) → Bytes → List Bytes
  | 0, _ => []
  | fuel + 1, b => if b = [] then [] else b.take (k + 1) :: pieces k fuel (b.drop (k + 1))

/-- main_stow.c:354-394 `send_metadata` and :335-351 `metafile`: what is sent.  Nothing is ever written to `sj->missing`. -/
def metaMsgs (g : Cfg) (digest changed : Bytes) : List Bytes :=
  let v0 := b!"[\n    \"STOW3.0\",\n    {\n"
  let v1 := b!"\t\"mtree\": \"sha256:" ++ digest ++ b!"\",\n\t\"target\": \"" ++ g.job ++ b!"\",\n\t\"time\": " ++ g.time ++ b!"\n    }\n]\n"
  if 0 < changed.length then
    let f := changed.drop 2
    digest :: (v0 ++ b!"\t\"changed\": {\n") :: pieces (g.bufsiz - 1) f.length f ++ [b!"\n\t},\n" ++ v1, []]
  else [digest, v0 ++ v1, []]

/-- main_stow.c:620-621 -/
def sendInfo (g : Cfg) (s : Sys) : Res Sys :=
  match s.cl.info with
  | none => .ok s
  | some cp => do
    Res.access (!s.closed)
    .ok { s with cl := { s.cl with info := none }, closed := true, up := s.up ++ (metaMsgs g cp.digest s.changed).map .info }

/-- proto.c:115-126 `proto_ctl_ev` of `stevedore_0_ev` -/
def ctl (b : Bool) (s : Sys) : Res Sys := do
  Res.check (!s.gone)
  .ok { s with enable := b }

/-- main_stow.c:550-625 `stevedore_out` -/
def out (g : Cfg) (sz : Nat) (c : Bytes) (s : Sys) : Res Sys :=
  let r := sendPiece sz (sendIds (min 10 s.avail) s)
  if r.2 = false then .ok r.1
  else if 0 < r.1.avail then .ok r.1
  else
    let q := openNext g c r.1
    if q.2 = false then .ok q.1
    else do
      let s ← sendInfo g q.1
      ctl false s

/-- `strrchr(p, '/') + 1` -/
def afterSlash (p : Bytes) : Option Bytes :=
  if (47 : UInt8) ∈ p then some (p.reverse.takeWhile (· ≠ 47)).reverse else none

/-- main_stow.c:489-491: the entry for a file which has changed -/
def changedEntry (digest id : Bytes) : Bytes := b!",\n\t    \"sha256:" ++ digest ++ b!"\": \"id:" ++ id ++ b!"\""

/-- main_stow.c:463-498 `data_resp` -/
def dataResp (s : Sys) (p : Bytes) : Res Sys :=
  match s.ack with
  | [] => .fail
  | cp :: rest =>
    match afterSlash (cstr p) with
    | none => .fail
    | some pp =>
      if cp.isFile = false ∧ cp.digest ≠ [] then do
        Res.check (pp.isPrefixOf cp.digest)
        ctl true { s with cl := { s.cl with info := some cp } }
      else if pp.isPrefixOf cp.digest then ctl true { s with ack := rest }
      else do
        Res.access (cp.isFile && !s.closed)
        ctl true { s with ack := rest, changed := s.changed ++ changedEntry cp.digest pp }

/-- main_stow.c:500-546 `stevedore_in`; a message has at most 1023 bytes (:520). -/
def inn (s : Sys) : Res Sys :=
  match s.down with
  | [] => .ok s
  | .filter p :: down => do
    Res.check (p.length < 1024)
    let c ← filterResp s.cl p
    ctl true { s with cl := c, down := down }
  | .data p :: down => do
    Res.check (p.length < 1024)
    dataResp { s with down := down } p
  | .info p :: down => do
    Res.check (p.length < 1024)
    Res.check (!s.gone)
    .ok { s with down := down, enable := false, gone := true }

/-- One round of the client's loop, proto.c:128-160. -/
def round (g : Cfg) (sz : Nat) (c : Bytes) (ready hasIn : Bool) (s : Sys) : Res Sys :=
  (if ready && s.enable then out g sz c s else .ok s) >>= fun s => if hasIn then inn s else .ok s

/-- main_stow.c:161-172, :250-262: mtree lists one more file; at its end, the output itself and the end mark. -/
def mtree (s : Sys) : Res Sys :=
  ctl true { s with avail := if s.cl.subj.length ≤ s.avail + 2 then s.cl.subj.length else s.avail + 1 }

/-- main_stevedore.c:309-423 `input`, with `start_store` and `start_meta` -/
def input (g : Cfg) (s : Sys) : List Msg → Res Sys
  | [] => .ok s
  | .filter p :: up => do
    let r ← Stow.input g.n g.max s.sv p
    .ok { s with up := up, sv := r.2, down := s.down ++ r.1.map .filter }
  | .data p :: up =>
    if p = [] then do
      Res.check s.store.isSome
      .ok { s with up := up, store := none, pend := s.store }
    else .ok { s with up := up, store := some (s.store.getD [] ++ p) }
  | .info p :: up =>
    match s.mjob with
    | none => do
      Res.check (p.length + 1 < 8192)
      .ok { s with up := up, mjob := some ((cstr p).take g.n, []) }
    | some (ref, b) =>
      if p ≠ [] then .ok { s with up := up, mjob := some (ref, b ++ p) }
      else .ok { s with up := up, mjob := none, mpend := some (ref, b) }

/-- One step of one of the parties. -/
inductive Ev where
  /-- the client's loop: `sz` is the size of the buffer for reading, `c` what is in the file if one is opened, `ready` whether the
  connection can be written to, `hasIn` whether there is a message -/
  | round (sz : Nat) (c : Bytes) (ready hasIn : Bool)
  /-- mtree lists a file -/
  | mtree
  /-- the server gets a message -/
  | recv
  /-- the filter job reads the index, prints a line, ends -/
  | run
  | line
  | eof
  /-- the store job stores its input and prints the ID; main_stevedore.c:242-251 -/
  | stored
  /-- the metadata job stores its input, if what it refers to is there, and prints the ID; main_stevedore.c:272-281 -/
  | metaStored
  /-- others store something -/
  | other (ids : Bytes → Bool)

/-- One step; `none` if it is not possible now. -/
def step (g : Cfg) (s : Sys) : Ev → Option (Res Sys)
  | .round sz c ready hasIn => some (round g sz c ready hasIn s)
  | .mtree => if s.avail < s.cl.subj.length then some (mtree s) else none
  | .recv => if s.pend = none ∧ s.up ≠ [] then some (input g s s.up) else none
  | .run =>
    match s.sv.job with
    | some ⟨inp, none, skip⟩ =>
      some (.ok { s with sv := { s.sv with job := some ⟨inp, some (missing g.n s.known inp), skip⟩ },
                         log := s.log ++ inp.map (fun l => (l.take g.n, !s.known (l.take g.n))) })
    | _ => none
  | .line =>
    match s.sv.job with
    | some ⟨inp, some (l :: ls), skip⟩ =>
      some (do
        let r ← filterLine g.n ⟨inp, some (l :: ls), skip⟩ l ls
        .ok { s with sv := { s.sv with job := some r.2 }, down := s.down ++ [.filter r.1] })
    | _ => none
  | .eof =>
    match s.sv.job with
    | some ⟨inp, some [], skip⟩ =>
      let r := filterEnd g.max s.sv ⟨inp, some [], skip⟩
      some (.ok { s with sv := r.2, down := s.down ++ r.1.map .filter })
    | _ => none
  | .stored =>
    match s.pend with
    | none => none
    | some d =>
      some (.ok { s with pend := none, stored := s.stored ++ [d], known := fun x => s.known x || x == g.ident d,
                         down := s.down ++ [.data (g.pfx ++ g.ident d)] })
  | .metaStored =>
    match s.mpend with
    | none => none
    | some (ref, b) =>
      some (do
        Res.check (s.known ref)
        .ok { s with mpend := none, metas := s.metas ++ [(ref, b)], down := s.down ++ [.info (g.pfx ++ g.mid ref b)] })
  | .other ids => some (.ok { s with known := fun x => s.known x || ids x })

/-- A sequence of steps. -/
def run (g : Cfg) (s : Sys) : List Ev → Option (Res Sys)
  | [] => some (.ok s)
  | e :: es =>
    match step g s e with
    | none => none
    | some (.ok s') => run g s' es
    | some r => some r

/-- The start.  `files` is what mtree will list, `ack` what is on the `ack_list` from an earlier job. -/
def start (g : Cfg) (files : List Item) (ack : List Item) (known : Bytes → Bool) : Sys where
  cl := { subj := files ++ [⟨false, [], g.sha g.text⟩, ⟨false, [], []⟩], wait := [], get := [], flushed := [],
          info := none, idSize := 64 }
  avail := 0
  taken := 0
  ack := ack
  send := none
  changed := []
  closed := false
  enable := false
  gone := false
  sv := ⟨[], none⟩
  store := none
  pend := none
  mjob := none
  mpend := none
  up := []
  down := []
  known := known
  log := []
  sent := []
  stored := []
  metas := []

end Verif.StowData
