/-
Model of /repo/index.c `IDX_Iter` with files of the index that cannot be opened or read.
-/
import Verif.Model.Index

namespace Verif.IndexErr
open Verif Index

/-- What goes wrong with a file: whether it can be opened, whether the table of a sorted one can be read, and how many bytes behind the place where
the scan begins can be read before `read(2)` fails (`none` if it does not). -/
structure Fault where
  opens : Bool := true
  table : Bool := true
  limit : Option Nat := none
  deriving DecidableEq, Repr

/-- What `fread(3)` gets of these bytes. -/
def Fault.got (t : Fault) (b : Bytes) : Bytes :=
  match t.limit with
  | none => b
  | some m => b.take m

/-- index.c:428-471: as `idxFiles`.  A file that cannot be opened, for whatever reason, is passed over (index.c:431-433); the table must be read
(index.c:366, 379); and when `fread(3)` gets no byte of a record, for whatever reason, that is the end (index.c:443-444). -/
def idxFiles {σ : Type} (cl : Nat) (keyP : Bytes) (kp : Option Bytes)
    (f : σ → Entry → σ × Int) : List ((Option Bytes × Bool) × Fault) → Int → σ → Res (σ × Int)
  | [], i, s => .ok (s, i)
  | ((none, _), _) :: rest, i, s => idxFiles cl keyP kp f rest i s
  | ((some file, srt), t) :: rest, i, s =>
    if t.opens = false then idxFiles cl keyP kp f rest i s
    else do
      Res.check (!srt || t.table)
      let pos ← if srt then bucketSeek keyP file else Res.ok 0
      let (s', i) ← idxScan srt cl keyP kp f (chunksOf 32 (t.got (file.drop pos))) s
      if i ≠ 0 then return (s', i) else idxFiles cl keyP kp f rest i s'

/-- index.c:403-473 `IDX_Iter`, with a fault for each of the three files. -/
def idxIter {σ : Type} (d : Dir) (ts : Fault × Fault × Fault) (kp : Option Bytes) (f : σ → Entry → σ × Int) (s : σ) : Res (σ × Int) := do
  let k := kp.getD []
  Res.check (k.all isHex)
  let keyP ← idxKeyBin 12 k
  let cl := min k.length 24
  idxFiles cl keyP kp f [((d.sorted, true), ts.1), ((d.appendix, false), ts.2.1), ((d.housekeep, false), ts.2.2)] (-1) s

end Verif.IndexErr
