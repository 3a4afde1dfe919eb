/-
Model of /repo/proto.c: framing of the stow/stevedore protocol.
-/
import Verif.Basic.CStr
import Verif.Basic.Res

namespace Verif.Proto
open Verif

/-- proto.c:212-247 `proto_out`: the bytes written for a message.  The write is assumed to be
complete (the code only prints a diagnostic otherwise). -/
def protoOut (cmd : Nat) (payload : Bytes) : Res Bytes := do
  Res.check (decide (cmd < 8))
  let len := payload.length
  if len = 0 then .ok [UInt8.ofNat cmd]
  else if len = 32 then .ok (UInt8.ofNat (cmd + 64) :: payload)
  else if len < 256 then .ok (UInt8.ofNat (cmd + 128) :: UInt8.ofNat len :: payload)
  else .ok (UInt8.ofNat (cmd + 192) :: (beEnc 4 len ++ payload))

/-- The three kinds of return values of `proto_in`: end of file, error, or a header together with
the rest of the stream. -/
inductive InRes where
  | eof
  | err
  | hdr (cmd len : Nat) (rest : Bytes)
  deriving DecidableEq, Repr

/-- proto.c:164-210 `proto_in` on a stream; the `read(2)` calls here ask for one byte each. -/
def protoIn : Bytes → InRes
  | [] => .eof
  | u :: s =>
    let cmd := u.toNat % 8
    match u.toNat / 64 with
    | 0 => .hdr cmd 0 s
    | 1 => .hdr cmd 32 s
    | 2 => match s with
      | [] => .err
      | l :: s => .hdr cmd l.toNat s
    | _ => match s with
      | a :: b :: c :: d :: s => .hdr cmd (beDec [a, b, c, d]) s
      | _ => .err

/-- How a stream ends: cleanly between two messages, or inside a message. -/
inductive StreamEnd where
  | clean | broken | more
  deriving DecidableEq, Repr

/-- The receiving loops (main_stow.c:500-548 `stevedore_in`, main_stevedore.c:309-433 `input`), as far
as the framing goes: a header from `proto_in`, then `len` bytes read in a loop until complete.  The
receivers' own limits on the payload size are not part of this function. -/
def recv : (fuel : Nat) → Bytes → List (Nat × Bytes) × StreamEnd
  | 0, _ => ([], .more)
  | fuel + 1, s =>
    match protoIn s with
    | .eof => ([], .clean)
    | .err => ([], .broken)
    | .hdr cmd len rest =>
      if rest.length < len then ([], .broken)
      else ((cmd, rest.take len) :: (recv fuel (rest.drop len)).1, (recv fuel (rest.drop len)).2)

end Verif.Proto
