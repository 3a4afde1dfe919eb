/-
Model of /repo/main_filter.c: which IDs of a list are not in the archive.
-/
import Verif.Model.Getjob

namespace Verif.Filter
open Verif Header Index Rsilo Getjob
open _root_.Verif.Wsilo (World)

/-- main_filter.c:43-50 `struct cand` without the lists it is on; `found` is in the state of the callback. -/
structure Cand where
  id : Bytes
  line : Bytes
  deriving DecidableEq, Repr

/-- `fgets(buf, n, f)`: what goes to `buf`, and what is left of the file; `none` at the end of the file. -/
def fgets (n : Nat) (f : Bytes) : Option (Bytes × Bytes) :=
  if f = [] then none
  else
    let k := ((f.take (n - 1)).takeWhile (· ≠ 10)).length
    let k := if k < (f.take (n - 1)).length then k + 1 else k
    some (f.take k, f.drop k)

/-- main_filter.c:161-174: the ID on a line; `none` if the line is rejected. -/
def lineId (pfx : Bytes) (idSize : Nat) (line : Bytes) : Option Bytes :=
  let p := if strncasecmpEq line pfx pfx.length then line.drop pfx.length else line
  if p.length < idSize then none
  else if (p.take idSize).all isHex then some (p.take idSize) else none

/-- The candidates so far, in the order they were read, and whether they are out of order. -/
structure Input where
  cands : List Cand
  needsSort : Bool
  deriving DecidableEq, Repr

/-- main_filter.c:176-181: the new candidate, compared with the last one. -/
def addCand (i : Input) (c : Cand) : Input :=
  { cands := i.cands ++ [c],
    needsSort := i.needsSort || (match i.cands.getLast? with | none => false | some l => strcmp l.id c.id == .gt) }

/-- main_filter.c:138-184 `read_file`; `n` is `BUFSIZ`.  `none` if the program exits with a message.  The loop is cut after
`fuel` rounds. -/
def readFile (n : Nat) (pfx : Bytes) (idSize : Nat) : (fuel : Nat) → Bytes → Input → Res (Option Input)
  | 0, _, _ => .fail
  | fuel + 1, f, i =>
    match fgets n f with
    | none => .ok (some i)
    | some (b, f) => do
      let buf := cstr b
      Res.check (0 < buf.length)
      if buf.getLast? ≠ some 10 then return none
      else
        let line := buf.dropLast
        if line = [] then readFile n pfx idSize fuel f i
        else
          match lineId pfx idSize line with
          | none => return none
          | some id => readFile n pfx idSize fuel f (addCand i ⟨id, line⟩)

/-- main_filter.c:242-271: the files one after the other. -/
def readFiles (n : Nat) (pfx : Bytes) (idSize : Nat) : List Bytes → Input → Res (Option Input)
  | [], i => .ok (some i)
  | f :: fs, i => do
    let r ← readFile n pfx idSize (f.length + 1) f i
    match r with
    | none => return none
    | some i => readFiles n pfx idSize fs i

/-- An element of the list `sorted`: the number of the candidate, and its ID. -/
abbrev Elem := Nat × Bytes

/-- The state of the callback: the list `sorted`, cut at `next_cand` (which is NULL if `back` is empty); `fp->last`; and the
numbers of the candidates found. -/
structure St where
  front : List Elem
  back : List Elem
  last : Bytes
  found : List Nat
  deriving DecidableEq, Repr

/-- main_filter.c:121-122: start from the beginning of the list. -/
def rewind (key : Bytes) (st : St) : St :=
  if st.back = [] ∨ strcmp key st.last = .lt then { st with front := [], back := st.front ++ st.back } else st

/-- main_filter.c:124-125. -/
def skipBelow (key : Bytes) : (front back : List Elem) → List Elem × List Elem
  | front, [] => (front, [])
  | front, c :: back => if strcmp c.2 key = .lt then skipBelow key (front ++ [c]) back else (front, c :: back)

/-- main_filter.c:126-134; `chk` says whether the candidate is found. -/
def matchLoop (chk : Bytes → Res Bool) (key : Bytes) : (front back : List Elem) → (found : List Nat) → Res (List Elem × List Elem × List Nat)
  | front, [], found => .ok (front, [], found)
  | front, c :: back, found =>
    if strncmpEq key c.2 key.length then do
      let ok ← chk c.2
      if ok then matchLoop chk key front back (found ++ [c.1]) else matchLoop chk key (front ++ [c]) back found
    else .ok (front, c :: back, found)

/-- main_filter.c:86-106, 130: the candidate counts as found if the header of the record has its ID, or without `-s`. -/
def check (ps : Nat) (pfx : Bytes) (w : World) (s : Bool) (e : Entry) (id : Bytes) : Res Bool :=
  if s = false then .ok true
  else do
    let r ← openRec ps pfx w e.silo e.off
    return decide (strcasecmp r.1.id id = .eq)

/-- main_filter.c:121-134 for a list that is not empty. -/
def filterStep (chk : Entry → Bytes → Res Bool) (st : St) (e : Entry) : Res St := do
  let st := rewind e.key st
  let r := skipBelow e.key st.front st.back
  let m ← matchLoop (chk e) e.key r.1 r.2 st.found
  return { front := m.1, back := m.2.1, last := e.key.take 64, found := m.2.2 }

/-- main_filter.c:108-136 `filter_iter`. -/
def filterIter (chk : Entry → Bytes → Res Bool) : Res St → Entry → Res St × Int
  | .ok st, e =>
    if st.front ++ st.back = [] then (.ok st, 1)
    else
      match filterStep chk st e with
      | .ok st => (.ok st, 0)
      | r => (r, 1)
  | r, _ => (r, 1)

/-- The candidates with their numbers. -/
def number : (n : Nat) → List Cand → List Elem
  | _, [] => []
  | n, c :: cs => (n, c.id) :: number (n + 1) cs

/-- main_filter.c:286-297: the output for the candidates from number `n` on. -/
def output (v r : Bool) (found : List Nat) : (n : Nat) → List Cand → Bytes
  | _, [] => []
  | n, c :: cs =>
    let f := decide (n ∈ found)
    (if v then (if f then b!"1 " else b!"0 ") ++ c.line ++ b!"\n" else if r = f then c.line ++ b!"\n" else []) ++ output v r found (n + 1) cs

/-- main_filter.c:196-300 `main_filter` with the options `-s`, `-r`, `-v`, for the contents of the files read, up to the
opening of files; `qs` is the result of `qsort(3)`.  The output, or `none` if the program exits with a message. -/
def mainFilter (n ps : Nat) (pfx : Bytes) (idSize : Nat) (qs : List Elem → List Elem) (w : World) (s r v : Bool) (files : List Bytes) : Res (Option Bytes) := do
  let i ← readFiles n pfx idSize files ⟨[], false⟩
  match i with
  | none => return none
  | some i => do
    let l := number 0 i.cands
    let l := if i.needsSort then qs l else l
    let x ← idxIter w.dir none (filterIter (check ps pfx w s)) (.ok { front := l, back := [], last := [], found := [] })
    let st ← x.1
    return some (output v r st.found 0 i.cands)

end Verif.Filter
