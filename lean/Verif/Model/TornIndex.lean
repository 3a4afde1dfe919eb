/-
Model of an index entry that is written in part: a full disk in `IDX_Insert` (/repo/index.c).
-/
import Verif.Model.Index

namespace Verif.Crash
open Verif Index

/-- index.c:242-247: `write(2)` puts only `k` bytes of the entry into the file, and the assertion behind it fails. -/
def idxTorn (d : Dir) (key : Bytes) (flags silo offset : Nat) (cont : Option Bytes) (k : Nat) : Res Dir := do
  let r ← idxRecord key flags silo offset cont
  return { d with appendix := some (d.appendix.getD [] ++ r.take k) }

end Verif.Crash
