/-
Model of /repo/main_reindex.c with the names of silos as arguments.
-/
import Verif.Model.Reindex
import Verif.Model.Audit
import Verif.Model.Silo

namespace Verif.Reindex
open Verif Index

/-- `strtoul(t, NULL, 10)` with 64 bits. -/
def strtoul10 (t : Bytes) : Nat :=
  let s := Audit.sign (Audit.skipWs t)
  let r := Audit.ulDigits 10 s.2 0
  if r.1 ≥ 2 ^ 64 then 2 ^ 64 - 1 else if s.1 then (2 ^ 64 - r.1) % 2 ^ 64 else r.1

/-- main_reindex.c:223-228: the number of the silo, from its name; index.c:225 makes it a `uint32_t`. -/
def nameNumber (fn : Bytes) : Res Nat :=
  match afterSlash fn with
  | none => .fail
  | some p => .ok (strtoul10 p % 2 ^ 32)

/-- main_reindex.c:299-300, 206-262: the silos that are given by name.  `files` is what is in a file, if it can be opened; if not, the
next one is taken (main_reindex.c:219-221), and the result says so. -/
def reindexNames (ps : Nat) (pfx : Bytes) (idSize sortSize fuel : Nat) (files : Bytes → Option Bytes) : (fns : List Bytes) → Dir → List Seg → Res ((Dir × List Seg) × Bool)
  | [], d, segs => .ok ((d, segs), true)
  | fn :: fns, d, segs =>
    match files fn with
    | none => do
      let r ← reindexNames ps pfx idSize sortSize fuel files fns d segs
      return (r.1, false)
    | some f => do
      let n ← nameNumber fn
      let r ← reindexSilo ps pfx idSize sortSize n fuel f d segs
      reindexNames ps pfx idSize sortSize fuel files fns r.1 r.2

/-- main_reindex.c:301-308: what is left over, as at the end of `reindexMain`. -/
def leftOver (r : Dir × List Seg) : Res (Dir × List Seg) :=
  if r.2 = [] then .ok r
  else do
    let q ← idxIter r.1 none (fun l e => (l ++ [e], (0 : Int))) []
    let d ← insertCalls (rematch q.1 r.2).1 r.1
    return (d, (rematch q.1 r.2).2)

/-- main_reindex.c:299-308: `main_reindex` with arguments.  The index, the segments listed as left over, and whether all the files
could be opened. -/
def reindexArgs (ps : Nat) (pfx : Bytes) (idSize sortSize fuel : Nat) (files : Bytes → Option Bytes) (fns : List Bytes) (d : Dir) : Res ((Dir × List Seg) × Bool) := do
  let r ← reindexNames ps pfx idSize sortSize fuel files fns d []
  let q ← leftOver r.1
  return (q, r.2)

end Verif.Reindex
