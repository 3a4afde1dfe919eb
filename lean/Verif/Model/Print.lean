/-
Model of the output of /repo/main_filter.c (and in the same way main_dumpindex.c, main_byid.c): `fprintf(3)` to a stream, whose result nobody looks at.
-/
import Verif.Model.Stdio
import Verif.Model.Filter

namespace Verif.Print
open Verif Stdio

/-- main_filter.c:286-297: each call of `fprintf(3)`, which is taken as one `fwrite(3)` of its text; what did not go out and does not go into the
buffer is lost, and the program goes on. -/
def printAll (size : Nat) : List Bytes → Stream → Stream
  | [], s => s
  | p :: ps, s => printAll size ps (fwrite size (2 * p.length + 1) p s).1

/-- What is in the file (or has gone to the pipe) when the program has ended, with status 0 (main_filter.c:299, main.c): `exit(3)` flushes the
stream. -/
def printed (size : Nat) (next : List Wr) (pieces : List Bytes) : Bytes :=
  let s := printAll size pieces { disk := [], buf := [], next := next }
  (flush s.buf.length s).1.disk

/-- main_filter.c:286-297: the texts that are printed for the candidates from number `n` on. -/
def lines (v r : Bool) (found : List Nat) : (n : Nat) → List Filter.Cand → List Bytes
  | _, [] => []
  | n, c :: cs =>
    let f := decide (n ∈ found)
    (if v then [(if f then b!"1 " else b!"0 ") ++ c.line ++ b!"\n"] else if r = f then [c.line ++ b!"\n"] else []) ++ lines v r found (n + 1) cs

end Verif.Print
