/-
Property C103, for the objects of an archive: what `get` and `store` make of an index that cannot be read.
-/
import Verif.Model.GetErr
import Verif.Props.IndexErr

namespace Verif.Props.IndexFaults
open Verif Header Index Getjob Wsilo
open _root_.Verif.IndexErr (Fault)

/-- C103: if nothing goes wrong it is as in the other properties. -/
theorem C103_get_fine (ps : Nat) (pfx : Bytes) (idSize fuel : Nat) (w : World) (id : Bytes) :
    GetErr.getjobNew ps pfx idSize fuel w [] id = Getjob.getjobNew ps pfx idSize fuel w id := by
  have key : ∀ (fuel : Nat) (nid : Bytes) (gj : GJ), GetErr.getLoop ps pfx idSize w fuel [] nid gj = Getjob.getLoop ps pfx idSize w fuel nid gj := by
    intro fuel
    induction fuel with
    | zero => exact fun _ _ => rfl
    | succ fuel ih =>
      intro nid gj
      rw [GetErr.getLoop, Getjob.getLoop]
      simp only [List.headD_nil, List.tail_nil, C103_fine, ih]
      rfl
  unfold GetErr.getjobNew Getjob.getjobNew
  cases idxValidId pfx idSize id with
  | error e => rfl
  | ok nid => exact key _ _ _

/-- The files of the index cannot be opened. -/
def shut : Fault × Fault × Fault := ({ opens := false }, { opens := false }, { opens := false })

/-- C103: whatever is in the archive, if the files of the index cannot be opened for the first segment then `GetJob_New` says of every ID that no object has
it; `get` says so, and `store` stores the object again. -/
theorem C103_get_lost {ps : Nat} {pfx : Bytes} {idSize fuel : Nat} {w : World} (ts : List (Fault × Fault × Fault)) {id nid : Bytes} (hv : idxValidId pfx idSize id = .ok nid) :
    GetErr.getjobNew ps pfx idSize (fuel + 1) w (shut :: ts) id = .ok (.error .notFound) := by
  have hx : ∀ c ∈ nid, isHex c = true := by
    unfold idxValidId at hv
    simp only at hv
    split at hv
    · cases hv
    · split at hv
      · cases hv
      · rename_i h
        split at hv
        · cases hv
        · split at hv
          · cases hv
          · injection hv with hv
            subst hv
            simpa using h
  unfold GetErr.getjobNew
  rw [hv]
  simp only
  rw [GetErr.getLoop, List.headD_cons, shut, C103_lost, C02_empty_lookup _ (by simpa using hx)]
  rfl

/-- With a prefix, and for any archive. -/
example (w : World) : GetErr.getjobNew 4096 b!"http://x/" 16 9 w [shut] b!"http://x/00000000deadbeef" = .ok (.error .notFound) :=
  C103_get_lost [] (nid := b!"00000000deadbeef") (by decide)

end Verif.Props.IndexFaults
