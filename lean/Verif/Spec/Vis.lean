/-
Specification of the encoding of file names, from vis(3).
-/
import Verif.Spec.Mtree

namespace Verif.Spec.Vis
open Verif
open _root_.Verif.Spec.Mtree

/-- The letters of `VIS_CSTYLE`. -/
def cstyle : List (UInt8 × UInt8) := [(10, 110), (13, 114), (8, 98), (7, 97), (11, 118), (9, 116), (12, 102), (32, 115)]

/-- The ways in which vis(3) writes a character (NUL, which is in no name, is left out): as it is; three octal digits; C style; control
characters as `\^C`, with the high bit set as `\M-C` and `\M^C`; other graphic characters with a backslash. -/
inductive Enc : UInt8 → Bytes → Prop
  | plain {c : UInt8} : c ≠ 92 → Enc c [c]
  | octal {c : UInt8} : Enc c [92, 48 + c / 64, 48 + c / 8 % 8, 48 + c % 8]
  | cstyle {c e : UInt8} : (c, e) ∈ cstyle → Enc c [92, e]
  | ctrl {c : UInt8} : c < 32 → Enc c [92, 94, c + 64]
  | del : Enc 127 [92, 94, 63]
  | high {c : UInt8} : 161 ≤ c → c < 255 → Enc c [92, 77, 45, c - 128]
  | highCtrl {c : UInt8} : 128 ≤ c → c < 160 → Enc c [92, 77, 94, c - 64]
  | highDel : Enc 255 [92, 77, 94, 63]
  | graph {c : UInt8} : 33 ≤ c → c ≤ 126 → c ∉ b!"01234567nrbavtfsEMx^$" → Enc c [92, c]

/-- A name, and a way to write it. -/
inductive EncName : Bytes → Bytes → Prop
  | nil : EncName [] []
  | cons {c : UInt8} {e n t : Bytes} : Enc c e → EncName n t → EncName (c :: n) (e ++ t)

/-- What a file system takes as a name. -/
def Real (n : Bytes) : Prop := n ≠ [] ∧ ∀ c ∈ n, c ≠ 0 ∧ c ≠ 47

/-- A tree with the names as they are, and the same tree with the names as mtree prints them. -/
inductive Printed : Tree → Tree → Prop
  | nil : Printed .nil .nil
  | file {n m g : Bytes} {r x : Tree} : Real n → EncName n m → Printed r x → Printed (.file n g r) (.file m g x)
  | other {n m : Bytes} {r x : Tree} : Printed r x → Printed (.other n r) (.other m x)
  | dir {n m : Bytes} {r x s y : Tree} : Real n → EncName n m → Printed s y → Printed r x → Printed (.dir n s r) (.dir m y x)

end Verif.Spec.Vis
