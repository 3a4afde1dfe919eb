/-
Specification of splitting a text into lines.
-/
import Verif.Basic.Bytes

namespace Verif.Spec
open Verif

/-- Split a text at every CR and NL, given an already collected beginning of the first line: the
complete lines, and what follows the last line end. -/
def splitLines (cur : Bytes) : Bytes → List Bytes × Bytes
  | [] => ([], cur)
  | c :: cs =>
    if c = 10 ∨ c = 13 then (cur :: (splitLines [] cs).1, (splitLines [] cs).2)
    else splitLines (cur ++ [c]) cs

/-- The complete lines of a text. -/
def linesOf (t : Bytes) : List Bytes := (splitLines [] t).1

/-- The unfinished last line of a text. -/
def restOf (t : Bytes) : Bytes := (splitLines [] t).2

/-- Hand lines to a callback until it returns non-zero. -/
def deliverLines {σ : Type} (f : σ → Bytes → σ × Int) : List Bytes → σ → σ × Int
  | [], s => (s, 0)
  | l :: ls, s => if (f s l).2 ≠ 0 then f s l else deliverLines f ls (f s l).1

end Verif.Spec
