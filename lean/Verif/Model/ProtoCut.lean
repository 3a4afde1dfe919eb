/-
Model of /repo/proto.c `proto_out` when `writev(2)` fails or writes only a part of a message.
-/
import Verif.Model.Proto

namespace Verif.ProtoCut
open Verif Proto

/-- proto.c:241-246, and the callers, which do not learn of it: of a message that cannot be written whole the first bytes are written (none, if the
call fails), there is a text on stderr, and the program goes on with the next message.  `none` stands for a call that writes everything. -/
def sendCut : List (Nat × Bytes × Option Nat) → Res Bytes
  | [] => .ok []
  | m :: ms => do
    let a ← protoOut m.1 m.2.1
    let b ← sendCut ms
    match m.2.2 with
    | none => return a ++ b
    | some n => return a.take n ++ b

end Verif.ProtoCut
