/-
utilities/select_silos.py: the directories `STAGING`, `STAGING.new` and `STAGING.old` and the
files `silodates.txt` and `silodates.txt.new`, one system call at a time, so that a run can be
cut off anywhere.
-/
import Verif.Model.Backup

namespace Verif.Backup

/-- What a run changes.  A directory is the list of its files, under the names they had when
    they were written. -/
structure Disk where
  staging : Option (List File) := none
  new : Option (List File) := none
  old : Option (List File) := none
  dates : Option Bytes := none
  datesNew : Option Bytes := none
deriving DecidableEq

/-- The steps that can be seen from outside. -/
inductive Op where
  /-- `rmtree` removes one file of `STAGING.new` (utilities/select_silos.py:319). -/
  | unlinkNew
  /-- `rmtree` removes `STAGING.new` (utilities/select_silos.py:319). -/
  | rmNew
  /-- `rmtree` removes one file of `STAGING.old` (utilities/select_silos.py:320, 333). -/
  | unlinkOld
  /-- `rmtree` removes `STAGING.old` (utilities/select_silos.py:320, 333). -/
  | rmOld
  /-- `os.mkdir(snew)` (utilities/select_silos.py:322). -/
  | mkNew
  /-- `open(name, "w")` of a file in `STAGING.new` (utilities/select_silos.py:213, 230, 231). -/
  | create (name : Bytes)
  /-- A piece is written to the file that was opened last (utilities/select_silos.py:221, 230,
      231). -/
  | append (data : Bytes)
  /-- `open("silodates.txt.new", "w")` (utilities/select_silos.py:305). -/
  | datesOpen
  /-- A piece is written to it (utilities/select_silos.py:307). -/
  | datesWrite (data : Bytes)
  /-- `os.rename` of it to `silodates.txt` (utilities/select_silos.py:310). -/
  | datesRename
  /-- `os.rename(STAGING, sold)`, if there is a `STAGING` (utilities/select_silos.py:326-329). -/
  | keep
  /-- `os.rename(snew, STAGING)` (utilities/select_silos.py:331). -/
  | put
deriving DecidableEq

/-- Writing at the end of the last file of a directory. -/
def appendLast (data : Bytes) : List File → List File
  | [] => []
  | [f] => [⟨f.name, f.data ++ data⟩]
  | f :: r => f :: appendLast data r

/-- One step. -/
def Op.apply (D : Disk) : Op → Disk
  | .unlinkNew => { D with new := D.new.map List.tail }
  | .rmNew => { D with new := none }
  | .unlinkOld => { D with old := D.old.map List.tail }
  | .rmOld => { D with old := none }
  | .mkNew => { D with new := some [] }
  | .create n => { D with new := D.new.map (fun l => l ++ [⟨n, []⟩]) }
  | .append b => { D with new := D.new.map (appendLast b) }
  | .datesOpen => { D with datesNew := some [] }
  | .datesWrite b => { D with datesNew := D.datesNew.map (fun l => l ++ b) }
  | .datesRename => { D with dates := D.datesNew, datesNew := none }
  | .keep => if D.staging = none then D else { D with old := D.staging, staging := none }
  | .put => { D with staging := D.new, new := none }

/-- The pieces in which `n` bytes at a time are written. -/
def pieces (n : Nat) : (fuel : Nat) → Bytes → List Bytes
  | 0, _ => []
  | fuel + 1, l => if l = [] then [] else l.take n :: pieces n fuel (l.drop n)

/-- The number of files of a directory. -/
def count (d : Option (List File)) : Nat := (d.getD []).length

/-- The steps before the rename of `silodates.txt.new`
    (utilities/select_silos.py:319-322, 305-308 and what `Encrypt_File` writes). -/
def opsBefore (D : Disk) (o : Out) : List Op :=
  List.replicate (count D.new) .unlinkNew ++ [.rmNew] ++
  (List.replicate (count D.old) .unlinkOld ++ [.rmOld, .mkNew]) ++
  o.files.flatMap (fun f => .create f.name :: (pieces 65536 f.data.length f.data).map .append) ++
  (.datesOpen :: (pieces 8192 o.dates.length o.dates).map .datesWrite)

/-- The steps after it: the old staging directory goes away, the new one comes
    (utilities/select_silos.py:326-333). -/
def opsAfter (D : Disk) : List Op :=
  [.keep, .put] ++ (List.replicate (count D.staging) .unlinkOld ++ [.rmOld])

/-- The steps of a run; after an exception in `main` there are none.  (What `main` had done
    before is only in `STAGING.new`, which the next run removes.) -/
def opsOf (D : Disk) : Res Out → List Op
  | .ok o => opsBefore D o ++ .datesRename :: opsAfter D
  | _ => []

/-- A run of the script (utilities/select_silos.py:312-333) which is cut off after `m` steps. -/
def runCut (E : Env) (W : World) (D : Disk) (m : Nat) : Disk :=
  ((opsOf D (main E W D.dates)).take m).foldl Op.apply D

end Verif.Backup
