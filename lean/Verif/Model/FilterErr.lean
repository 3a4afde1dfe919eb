/-
Model of /repo/main_filter.c when the lists of IDs cannot be read to their end.
-/
import Verif.Model.Filter

namespace Verif.FilterErr
open Verif Header Index Rsilo Getjob Filter
open _root_.Verif.Wsilo (World)

/-- A file as read(2) delivers it: the bytes that can be read, and whether an error comes behind them rather than the end. -/
structure Src where
  data : Bytes
  bad : Bool
  deriving DecidableEq, Repr

/-- `fgets(buf, n, f)`: if an error of read(2) comes before the line or the buffer is complete, NULL is returned (C 7.23.7.2), and what had been
read of the line is lost. -/
def fgetsErr (n : Nat) (f : Src) : Option (Bytes × Src) :=
  match fgets n f.data with
  | none => none
  | some (b, r) =>
    if f.bad ∧ b.getLast? ≠ some 10 ∧ b.length < n - 1 then none else some (b, { f with data := r })

/-- main_filter.c:138-184 `read_file`; nobody asks `ferror(3)` why `fgets` has returned NULL. -/
def readFileErr (n : Nat) (pfx : Bytes) (idSize : Nat) : (fuel : Nat) → Src → Input → Res (Option Input)
  | 0, _, _ => .fail
  | fuel + 1, f, i =>
    match fgetsErr n f with
    | none => .ok (some i)
    | some (b, f) => do
      let buf := cstr b
      Res.check (0 < buf.length)
      if buf.getLast? ≠ some 10 then return none
      else
        let line := buf.dropLast
        if line = [] then readFileErr n pfx idSize fuel f i
        else
          match lineId pfx idSize line with
          | none => return none
          | some id => readFileErr n pfx idSize fuel f (addCand i ⟨id, line⟩)

/-- main_filter.c:242-271: the files one after the other.  (`fclose(3)` of a file that was read does not fail because of the error.) -/
def readFilesErr (n : Nat) (pfx : Bytes) (idSize : Nat) : List Src → Input → Res (Option Input)
  | [], i => .ok (some i)
  | f :: fs, i => do
    let r ← readFileErr n pfx idSize (f.data.length + 1) f i
    match r with
    | none => return none
    | some i => readFilesErr n pfx idSize fs i

/-- main_filter.c:196-300 `main_filter`, as `Filter.mainFilter`. -/
def mainFilterErr (n ps : Nat) (pfx : Bytes) (idSize : Nat) (qs : List Elem → List Elem) (w : World) (s r v : Bool) (files : List Src) :
    Res (Option Bytes) := do
  let i ← readFilesErr n pfx idSize files ⟨[], false⟩
  match i with
  | none => return none
  | some i => do
    let l := number 0 i.cands
    let l := if i.needsSort then qs l else l
    let x ← idxIter w.dir none (filterIter (check ps pfx w s)) (.ok { front := l, back := [], last := [], found := [] })
    let st ← x.1
    return some (output v r st.found 0 i.cands)

end Verif.FilterErr
