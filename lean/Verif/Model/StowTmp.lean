/-
Model of the temporary files of a stow job, in /repo/main_stow.c: the output of mtree and the list of the files that have changed, with calls
of `write(2)` that fail or write in part.
-/
import Verif.Model.Print
import Verif.Model.StowData

namespace Verif.StowTmp
open Verif Stdio Print

/-- main_stow.c:234-243, 593-597: the pieces of the output of mtree go to `sj->mtree_tmp`, and each call of `fwrite(3)` must take its piece; the
result of `fflush(3)` is not looked at before the file is read through its descriptor.  `none` is the assertion failure. -/
def mtreeTmp (size : Nat) (next : List Wr) (pieces : List Bytes) : Option Bytes :=
  match getPieces size pieces { disk := [], buf := [], next := next } with
  | .exit d => some d
  | _ => none

/-- main_stow.c:488-490: the texts for the files that have changed, each given by the digest of mtree and the ID from the server. -/
def changedTexts (l : List (Bytes × Bytes)) : List Bytes :=
  l.flatMap fun e => [b!",\n", b!"\t    \"sha256:" ++ e.1 ++ b!"\": \"id:" ++ e.2 ++ b!"\""]

/-- main_stow.c:488-490 and :368, 341: they are printed to `sj->changed`; `fflush(3)` and again `fseeko(3)` flush it, and the second must succeed.  What
is read then is the file.  `none` is the assertion failure.  (Each call of `fprintf(3)` is taken as one `fwrite(3)` of its text; an empty file
is not read, and not rewound.) -/
def changedFile (size : Nat) (next : List Wr) (l : List (Bytes × Bytes)) : Option Bytes :=
  let s := printAll size (changedTexts l) { disk := [], buf := [], next := next }
  let r := (flush s.buf.length s).1
  let q := flush r.buf.length r
  if q.2 then some q.1.disk else none

end Verif.StowTmp
