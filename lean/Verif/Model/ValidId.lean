/-
Model of ID validation in /repo/index.c.
-/
import Verif.Basic.CStr

namespace Verif.Index
open Verif

/-- The error texts of index.c:155-177. -/
inductive IdErr where
  | wrongPrefix | nonHex | tooShort | tooLong
  deriving DecidableEq, Repr

/-- Result of the validation: an error text, or the bare ID. -/
inductive IdRes where
  | error (e : IdErr)
  | ok (bare : Bytes)
  deriving DecidableEq, Repr

/-- index.c:162-163: skip the configured prefix if the ID starts with it (`strncasecmp`). -/
def skipPrefix (pfx id : Bytes) : Bytes :=
  if strncasecmpEq id pfx pfx.length then id.drop pfx.length else id

/-- index.c:155-177 `IDX_Valid_Id`: the error, or the bare ID handed back through `nid`. -/
def idxValidId (pfx : Bytes) (idSize : Nat) (id : Bytes) : IdRes :=
  let id := skipPrefix pfx id
  if id.any (fun c => c == 58 || c == 47) then .error .wrongPrefix
  else if ¬ id.all isHex then .error .nonHex
  else if id.length < idSize then .error .tooShort
  else if id.length > idSize then .error .tooLong
  else .ok id

end Verif.Index
