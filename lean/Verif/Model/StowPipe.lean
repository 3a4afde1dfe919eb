/-
Model of a stow job over pipes with limited room: the machine of Model/StowData.lean, with a write(2) that waits.

Client and server are connected by two pipes (/repo/main_stow.c:627-663), and write to them with writev(2) in `proto_out`
(/repo/proto.c:212-247), which does not return before all bytes are in the pipe.  A program that waits there does nothing else.  `up` and `down` of
Model/StowData.lean hold what was written and not read yet, and what is still being written: a program waits in write(2) as long
as there are more bytes than the pipe has room for.

A round of the client's loop, in which both handlers may be called, is two steps here, because the client can wait within the first.  Simplifications: as in
Model/StowData.lean; a program gets a message in one step, also if the other is still writing it.
-/
import Verif.Model.StowData

namespace Verif.StowPipe
open Verif Stow StowData

/-- The bytes of a message. -/
def payload : Msg → Bytes
  | .filter p => p
  | .data p => p
  | .info p => p

/-- proto.c:222-241: how many bytes a message with this payload has on the wire. -/
def wireLen (p : Bytes) : Nat :=
  if p.length = 0 then 1
  else if p.length = 32 then 1 + p.length
  else if p.length < 256 then 2 + p.length
  else 5 + p.length

/-- How many bytes these messages have. -/
def load : List Msg → Nat
  | [] => 0
  | m :: ms => wireLen (payload m) + load ms

/-- The room in the two pipes, and how much of it must be free for poll(2) to say that one can write (`PIPE_BUF`). -/
structure Pipes where
  up : Nat
  down : Nat
  low : Nat

/-- `mid`: the client is in the middle of a round, `stevedore_in` is the next to be called. -/
structure PSys where
  s : StowData.Sys
  mid : Bool

/-- main_stow.c:556: the buffer of `stevedore_out` -/
def bufLen : Nat := 131072

/-- The steps. -/
inductive PEv where
  /-- poll(2) returns in the client, and `stevedore_out` is called; `c` is what is in the file if one is opened -/
  | out (c : Bytes)
  /-- `stevedore_in` is called, in the same round or in one in which `stevedore_out` is not -/
  | inn
  /-- what else there is in Model/StowData.lean -/
  | other (e : StowData.Ev)

/-- Does the client wait in write(2)? -/
def clientWaits (q : Pipes) (s : StowData.Sys) : Prop := q.up < load s.up

/-- Does the server? -/
def serverWaits (q : Pipes) (s : StowData.Sys) : Prop := q.down < load s.down

instance (q : Pipes) (s : StowData.Sys) : Decidable (clientWaits q s) := inferInstanceAs (Decidable (_ < _))
instance (q : Pipes) (s : StowData.Sys) : Decidable (serverWaits q s) := inferInstanceAs (Decidable (_ < _))

/-- poll(2) says that the client can write, and the client wants to know. -/
def canWrite (q : Pipes) (s : StowData.Sys) : Prop := s.enable = true ∧ load s.up + q.low ≤ q.up

instance (q : Pipes) (s : StowData.Sys) : Decidable (canWrite q s) := inferInstanceAs (Decidable (_ ∧ _))

/-- The result of a step as a state of this machine. -/
def lift (mid : Bool) : Option (Res StowData.Sys) → Option (Res PSys)
  | none => none
  | some (.ok s) => some (.ok ⟨s, mid⟩)
  | some .fail => some .fail
  | some .ub => some .ub

/-- One step; `none` if it is not possible now. -/
def step (g : Cfg) (q : Pipes) (p : PSys) : PEv → Option (Res PSys)
  | .out c =>
    if p.mid = false ∧ ¬clientWaits q p.s ∧ canWrite q p.s then lift (p.s.down ≠ []) (StowData.step g p.s (.round bufLen c true false)) else none
  | .inn =>
    if ¬clientWaits q p.s ∧ p.s.down ≠ [] ∧ (p.mid = true ∨ ¬canWrite q p.s) then lift false (StowData.step g p.s (.round bufLen [] false true)) else none
  | .other e =>
    match e with
    | .round _ _ _ _ => none
    | .mtree => if p.mid = false ∧ ¬clientWaits q p.s then lift p.mid (StowData.step g p.s e) else none
    | .run => lift p.mid (StowData.step g p.s e)
    | .other _ => lift p.mid (StowData.step g p.s e)
    | _ => if ¬serverWaits q p.s then lift p.mid (StowData.step g p.s e) else none

/-- A sequence of steps. -/
def run (g : Cfg) (q : Pipes) (p : PSys) : List PEv → Option (Res PSys)
  | [] => some (.ok p)
  | e :: es =>
    match step g q p e with
    | none => none
    | some (.ok p') => run g q p' es
    | some r => some r

end Verif.StowPipe
