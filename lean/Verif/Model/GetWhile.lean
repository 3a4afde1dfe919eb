/-
getjob.c: getting an object while other processes change the archive.  `Model/Getjob.lean` is the same code on an archive that stays as it is.
-/
import Verif.Model.Getjob

namespace Verif.GetWhile
open Verif Index Getjob Wsilo
open _root_.Verif.Gzip (Stitch)

/-- getjob.c:70-153 `getjob_iter`: each call finds the archive as it is at that moment; `ws t` is the archive after `t` accesses of the reader. -/
def getjobIterW (ps : Nat) (pfx : Bytes) (idSize : Nat) (ws : Nat → World) (s : Res GJ × Nat) (e : Entry) : (Res GJ × Nat) × Int :=
  let r := getjobIter ps pfx idSize (ws (s.2 + 1)) s.1 e
  ((r.1, s.2 + 1), r.2)

/-- getjob.c:202-225, as `getLoop`.  `IDX_Iter` reads the index when it is called: that the index grows while it is being read is not modelled (see C10). -/
def getLoopW (ps : Nat) (pfx : Bytes) (idSize : Nat) (ws : Nat → World) : (fuel : Nat) → (t : Nat) → (nid : Bytes) → GJ → Res Got
  | 0, _, _, _ => .fail
  | fuel + 1, t, nid, gj => do
    let r ← idxIter (ws t).dir (some nid) (getjobIterW ps pfx idSize ws) (.ok gj, t)
    let gj ← r.1.1
    if r.2 ≤ 0 then return .error gj.err
    else
      match gj.segs.getLast? with
      | none => .fail
      | some s => do
        Res.check (!isWarcinfo s.flag)
        if isSegmented s.flag = false then do
          Res.check (plainOk gj s)
          return .job gj
        else if isLastseg s.flag then return .job gj
        else getLoopW ps pfx idSize ws fuel (r.1.2 + 1) s.cont gj

/-- getjob.c:180-227 `GetJob_New`. -/
def getjobNewW (ps : Nat) (pfx : Bytes) (idSize : Nat) (fuel : Nat) (ws : Nat → World) (id : Bytes) : Res Got :=
  match idxValidId pfx idSize id with
  | .error e => .ok (.error (.badId e))
  | .ok nid => getLoopW ps pfx idSize ws fuel 0 nid { id := nid, err := .notFound, segs := [] }

end Verif.GetWhile
