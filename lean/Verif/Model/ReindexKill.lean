/-
Model of /repo/main_reindex.c: what it does to the index, call by call, and a run that is killed.
-/
import Verif.Model.Reindex

namespace Verif.Reindex
open Verif Index Rsilo
open _root_.Verif.Commit (Silo)

/-- What `reindex` does to the index: `IDX_Insert` (main_reindex.c:100, 248) and `IDX_Resort` (main_reindex.c:260). -/
inductive Act where
  | insert (c : Call)
  | resort

/-- A sequence of them. -/
def acts (sortSize : Nat) : List Act → Dir → Res Dir
  | [], d => .ok d
  | .insert c :: as, d => do
    let d ← idxInsert d c.id c.flags c.silo c.off c.cont
    acts sortSize as d
  | .resort :: as, d => do
    let d ← idxResort sortSize d
    acts sortSize as d

/-- main_reindex.c:206-262: what `silo_iter` does to the index, as `reindexSilo`. -/
def siloActs (ps : Nat) (pfx : Bytes) (idSize silo fuel : Nat) (file : Bytes) (segs : List Seg) : Res (List Act × List Seg) := do
  let l ← scanHeaders ps pfx fuel (rsOpen file 0)
  let r ← records idSize silo l segs
  return (r.1.map Act.insert ++ [.resort], r.2)

/-- main_reindex.c:297-298: as `reindexSilos`. -/
def silosActs (ps : Nat) (pfx : Bytes) (idSize fuel : Nat) (silos : Nat → Option Silo) : (ns : List Nat) → List Seg → Res (List Act × List Seg)
  | [], segs => .ok ([], segs)
  | n :: ns, segs =>
    match silos n with
    | none => .fail
    | some f => do
      let r ← siloActs ps pfx idSize n fuel f.data segs
      let q ← silosActs ps pfx idSize fuel silos ns r.2
      return (r.1 ++ q.1, q.2)

/-- `reindex` is killed when it has done `k` things to the index, not in the midst of one of them.  (For `IDX_Resort` that is C07.) -/
def reindexKilled (ps : Nat) (pfx : Bytes) (idSize sortSize fuel : Nat) (silos : Nat → Option Silo) (ns : List Nat) (k : Nat) (d : Dir) : Res Dir := do
  let r ← silosActs ps pfx idSize fuel silos ns []
  acts sortSize (r.1.take k) d

end Verif.Reindex
