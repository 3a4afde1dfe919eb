/-
Model of the client in /repo/main_stow.c as it meets a server that may send anything, at any time, and may go away.
(Model/StowData.lean has the client together with the server of the package; its functions for the
client are used here.)

The handlers may be called in any order.  Simplification: the contents of a file are what they are when it is opened.
-/
import Verif.Model.StowData

namespace Verif.StowAny
open Verif Stow StowData

/-- What there is to read from the server: a message, the end of the file, or the end of the file inside a message. -/
inductive In where
  | msg (cmd : Nat) (p : Bytes)
  | eof
  | cut
  deriving DecidableEq, Repr

/-- The client: the fields of `sys` that are the client's, with `up` for all it has sent; `fin` is whether `stevedore_in` was removed.
No part of the program: `got`, the messages that the client has taken. -/
structure Cl where
  sys : StowData.Sys
  fin : Bool
  got : List (Nat × Bytes)

/-- What comes of a call of a handler: it returns; the program exits with status 2, fails an assertion, or does what C does not define. -/
inductive Out where
  | go (c : Cl)
  | exit (c : Cl)
  | abort (c : Cl)
  | ub

/-- What happens: `stevedore_out` is called, with room for pieces of `sz + 1` bytes, `file` what is in the file if one is to be opened and
can be; the same with POLLHUP; `stevedore_in`; mtree lists a file; the server closes its error output (`diag`). -/
inductive Ev where
  | out (sz : Nat) (file : Option Bytes)
  | hup
  | inn (i : In)
  | mtree
  | lost

/-- `Out` of a result. -/
def ofRes (c : Cl) (got : List (Nat × Bytes)) : Res StowData.Sys → Out
  | .ok s => .go { c with
      sys := s
      got := got }
  | .fail => .abort c
  | .ub => .ub

/-- main_stow.c:590-607: whether a file is to be opened now -/
def opens (s : StowData.Sys) : Bool :=
  match s.cl.get.drop s.taken with
  | [] => false
  | cp :: _ => cp.isFile

/-- main_stow.c:550-625 `stevedore_out`: :608-618 if the file cannot be opened. -/
def out (g : Cfg) (sz : Nat) (file : Option Bytes) (c : Cl) : Out :=
  let r := sendPiece (sz + 1) (sendIds (min 10 c.sys.avail) c.sys)
  if r.2 = true ∧ r.1.avail = 0 ∧ opens r.1 = true ∧ file = none then .exit { c with sys := r.1 }
  else ofRes c c.got (StowData.out g (sz + 1) (file.getD []) c.sys)

/-- main_stow.c:500-546 `stevedore_in` -/
def inn (c : Cl) : In → Out
  | .eof => .go { c with fin := true }
  | .cut => .abort c
  | .msg cmd p =>
    if 1024 ≤ p.length then .abort c
    else if cmd = 0 then .go { c with got := c.got ++ [(cmd, p)] }
    else if cmd = 1 then ofRes c (c.got ++ [(cmd, p)]) (StowData.inn { c.sys with down := [.filter p] })
    else if cmd = 2 then ofRes c (c.got ++ [(cmd, p)]) (StowData.inn { c.sys with down := [.data p] })
    else if cmd = 3 then ofRes c (c.got ++ [(cmd, p)]) (StowData.inn { c.sys with down := [.info p] })
    else .exit { c with got := c.got ++ [(cmd, p)] }

/-- One call of a handler; `none` if it cannot be called now.  `lost` is main_stow.c:317-323. -/
def step (g : Cfg) (c : Cl) : Ev → Option Out
  | .out sz file => if c.sys.enable = true ∧ c.sys.gone = false then some (out g sz file c) else none
  | .hup => if c.sys.enable = true ∧ c.sys.gone = false then some (ofRes c c.got (ctl false c.sys)) else none
  | .inn i => if c.fin = false then some (inn c i) else none
  | .mtree => if c.sys.avail < c.sys.cl.subj.length then some (ofRes c c.got (StowData.mtree c.sys)) else none
  | .lost => some (.go { c with
      sys := { c.sys with
        enable := false
        gone := true }
      fin := true })

/-- A sequence of calls. -/
def run (g : Cfg) (c : Cl) : List Ev → Option Out
  | [] => some (.go c)
  | e :: es =>
    match step g c e with
    | none => none
    | some (.go c') => run g c' es
    | some o => some o

/-- The start of a job; `files` is what mtree will list. -/
def start (g : Cfg) (files : List Item) : Cl := ⟨StowData.start g files [] (fun _ => false), false, []⟩

end Verif.StowAny
