/-
Specification of CGI responses, from RFC 3875: header fields, an empty line, and the body.
-/
import Verif.Basic.Bytes

namespace Verif.Spec.Cgi
open Verif

structure Response where
  fields : List (Bytes × Bytes)
  body : Bytes
  deriving DecidableEq, Repr

/-- One header line, up to the newline: name, colon, blank, value. -/
def field (line : Bytes) : Option (Bytes × Bytes) :=
  let n := line.takeWhile (· ≠ 58)
  if (line.drop n.length).take 2 = [58, 32] then some (n, line.drop (n.length + 2)) else none

/-- `cur` is the current line so far. -/
def respLoop : (cur : Bytes) → (fs : List (Bytes × Bytes)) → Bytes → Option Response
  | _, _, [] => none
  | cur, fs, c :: l =>
    if c ≠ 10 then respLoop (cur ++ [c]) fs l
    else if cur = [] then some ⟨fs, l⟩
    else
      match field cur with
      | none => none
      | some f => respLoop [] (fs ++ [f]) l

def readResponse (l : Bytes) : Option Response := respLoop [] [] l

end Verif.Spec.Cgi
