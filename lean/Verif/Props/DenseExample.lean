/-
Examples and counterexamples for C56 and C57.
-/
import Verif.Props.Append

namespace Verif.Props
open Verif Header Gzip Ident Index Wsilo Segjob Getjob Spec Inflate
open _root_.Verif.Commit (upd Silo)
open _root_.Verif.Cache (Cache readCache writeCache bumpNon bumpSpace)

/-- Which of the first numbers have silos, how long the first silo is, and the cached numbers. -/
def numbers (w : World) : List Bool × Cache := ((List.range 5).map fun n => (w.silos n).isSome, w.cache)

/-- Store the objects. -/
def storeMany (max : Nat) : List (List Bytes) → World → Res World
  | [], w => .ok w
  | cs :: l, w => do
    let r ← storeObj (Example.env max) Example.stored 10 w Example.hdr none cs
    storeMany max l r.1

set_option maxRecDepth 1000000 in
/-- Three objects go into the first silo. -/
example : (do let w ← storeMany 5000 [[b!"hello"], [b!"goodbye"], [b!"and so on"]] emptyWorld; return numbers w) =
    .ok ([true, false, false, false, false], ⟨1, 0⟩) := by decide +kernel

set_option maxRecDepth 1000000 in
/-- An object in three segments, and one in one. -/
example : (do
    let w ← storeMany 1120 [[b!"hello and welcome", b!" world, hello and goodbye, and so on and so forth"], [b!"goodbye"]] emptyWorld
    return numbers w) = .ok ([true, true, true, true, false], ⟨4, 0⟩) := by decide +kernel

/-- The world after storing an object and write-protecting its silo. -/
def protectedWorld : Res World := do
  let w ← storeMany 5000 [[b!"hello"]] emptyWorld
  return { w with silos := fun n => (w.silos n).map fun f => { f with writable := false } }

set_option maxRecDepth 1000000 in
/-- The search is stuck at the write-protected silo. -/
example : (do let w ← protectedWorld; return (w.cache.firstSpace, (readCache w.cacheFile w.cache).firstSpace, (w.silos 0).map Silo.writable)) =
    .ok (0, 0, some false) := by decide +kernel

set_option maxRecDepth 1000000 in
/-- Three small objects then go into three new silos. -/
example : (do let w ← protectedWorld; let w ← storeMany 5000 [[b!"goodbye"], [b!"and so on"], [b!"etc"]] w; return numbers w) =
    .ok ([true, true, true, true, false], ⟨4, 0⟩) := by decide +kernel

/-- Store an object when the hold file for number 0 is there, and audit. -/
def storeBehindHold : Res (List Bool × Cache × Bool) := do
  let w ← storeMany 5000 [[b!"hello"]] { emptyWorld with holds := fun n => n == 0 }
  let a ← Audit.mainAudit 4096 b!"x/" (fun b => [b]) Example.toySha 24 false w.silos 10
  return ((numbers w).1, w.cache, match a with | some ([], [], []) => true | _ => false)

set_option maxRecDepth 1000000 in
/-- C56 is false if a crash left a hold file behind: the number is skipped, and an audit of the whole archive then looks at nothing
at all, and has no complaints. -/
theorem C56_counterexample_hold : storeBehindHold = .ok ([false, true, false, false, false], ⟨0, 0⟩, true) := by decide +kernel

set_option maxRecDepth 1000000 in
/-- C56 is false if the cache file has a number that is too high: the numbers below it are skipped. -/
theorem C56_counterexample_cache :
    (do let w ← storeMany 5000 [[b!"hello"]] { emptyWorld with cacheFile := some [0, 0, 0, 2, 0, 0, 0, 0] }; return numbers w) =
      .ok ([false, false, true, false, false], ⟨3, 0⟩) := by decide +kernel

end Verif.Props
