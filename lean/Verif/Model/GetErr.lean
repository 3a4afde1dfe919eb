/-
Model of /repo/getjob.c `GetJob_New` with files of the index that cannot be opened or read.
-/
import Verif.Model.IndexErr
import Verif.Model.Getjob

namespace Verif.GetErr
open Verif Header Index Getjob Wsilo IndexErr

/-- getjob.c:202-225: as `getLoop`; `ts` are the faults that the calls of `IDX_Iter` meet, and those behind the end of the list meet none. -/
def getLoop (ps : Nat) (pfx : Bytes) (idSize : Nat) (w : World) : (fuel : Nat) → (ts : List (Fault × Fault × Fault)) → (nid : Bytes) → GJ → Res Got
  | 0, _, _, _ => .fail
  | fuel + 1, ts, nid, gj => do
    let r ← IndexErr.idxIter w.dir (ts.headD ({}, {}, {})) (some nid) (getjobIter ps pfx idSize w) (.ok gj)
    let gj ← r.1
    if r.2 ≤ 0 then return .error gj.err
    else
      match gj.segs.getLast? with
      | none => .fail
      | some s => do
        Res.check (!isWarcinfo s.flag)
        if isSegmented s.flag = false then do
          Res.check (plainOk gj s)
          return .job gj
        else if isLastseg s.flag then return .job gj
        else getLoop ps pfx idSize w fuel ts.tail s.cont gj

/-- getjob.c:180-227 `GetJob_New`. -/
def getjobNew (ps : Nat) (pfx : Bytes) (idSize : Nat) (fuel : Nat) (w : World) (ts : List (Fault × Fault × Fault)) (id : Bytes) : Res Got :=
  match idxValidId pfx idSize id with
  | .error e => .ok (.error (.badId e))
  | .ok nid => getLoop ps pfx idSize w fuel ts nid { id := nid, err := .notFound, segs := [] }

end Verif.GetErr
