/-
Examples and counterexamples for property C66.
-/
import Verif.Props.MainByid
import Verif.Props.StoreExample
import Verif.Props.Index

namespace Verif.Props
open Verif Header Gzip Ident Index Wsilo Segjob Getjob Spec Rsilo Inflate MainByid

/-! ### Examples, and where the listing is not what one might expect -/

/-- Store one object, and count the lines `dumpindex` prints without `-t`, with `-t warcinfo`, and with `-t resource`. -/
def storeDump (max : Nat) (cs : List Bytes) : Res (Nat × Nat × Nat) := do
  let env := Example.env max
  let r ← storeObj env Example.stored 10 emptyWorld Example.hdr none cs
  let a ← mainDumpindex r.1.dir 0 []
  let b ← mainDumpindex r.1.dir 2 []
  let c ← mainDumpindex r.1.dir 4 []
  return (a.count 10, b.count 10, c.count 10)

/-- Store two objects, and list the records whose IDs start with some digits of the ID of the first, twice, once with the prefix in front. -/
def storeByid (e : Bool) (k : Nat) (more : List Bytes) : Res (Bytes × ByidOut) := do
  let env := Example.env 5000
  let r1 ← storeObj env Example.stored 10 emptyWorld Example.hdr none [b!"hello", b!" world"]
  let r2 ← storeObj env Example.stored 10 r1.1 Example.hdr none [b!"goodbye"]
  let id := r1.2.drop env.pfx.length
  let o ← mainByid env.ps env.pfx r2.1 e ([id.take k, b!"X/" ++ id.take k] ++ more)
  return (id, o)

set_option maxRecDepth 1000000 in
/-- The object is listed for eight digits of its ID, with and without the prefix; with a further argument that is no number the program ends there. -/
example : (storeByid false 8 []).toOption.map (·.2) =
      some ⟨b!"id 85114a0d85114a0d85114a0d wt resource\nid 85114a0d85114a0d85114a0d wt resource\n", 2⟩ ∧
    (storeByid true 8 [b!"zz", b!"00"]).toOption.map (·.2) =
      some ⟨b!"id 85114a0d85114a0d85114a0d wt resource\nid 85114a0d85114a0d85114a0d wt resource\n", 1⟩ := by decide +kernel

set_option maxRecDepth 1000000 in
/-- The exit status of `byid` does not tell one match from an argument that is no fragment of an ID, even with `-e`: `byid <id>`, and `byid -e <bad>`. -/
theorem C66_counterexample_status (w : World) :
    (do let r ← storeObj (Example.env 5000) Example.stored 10 emptyWorld Example.hdr none [b!"hello", b!" world"]
        mainByid (Example.env 5000).ps (Example.env 5000).pfx r.1 false [b!"85114a0d"]) = .ok ⟨b!"id 85114a0d85114a0d85114a0d wt resource\n", 1⟩ ∧
    mainByid (Example.env 5000).ps (Example.env 5000).pfx w true [b!"zz"] = .ok ⟨[], 1⟩ := ⟨by decide +kernel, rfl⟩

set_option maxRecDepth 1000000 in
/-- An object stored in one piece is listed with `-t resource`; of an object stored in three segments none is, as their flags are not exactly those of the
type. -/
theorem C66_counterexample_type : storeDump 5000 [b!"hello", b!" world"] = .ok (2, 1, 1) ∧
    storeDump 1120 [b!"hello and welcome", b!" world, hello and goodbye, and so on and so forth"] = .ok (6, 3, 0) := by decide +kernel

set_option maxRecDepth 1000000 in
/-- `Seekable` is needed: an index of one record after housekeeping lists it, but not for the two digits its ID starts with, and for the first digit alone
`dumpindex` aborts on what it takes for a record. -/
theorem C66_counterexample_short : (mainDumpindex (histDir [b!"40"]) 0 []).toOption.map (·.take 24) = some b!"400000000000000000000000" ∧
    mainDumpindex (histDir [b!"40"]) 0 [b!"40"] = .ok [] ∧ mainDumpindex (histDir [b!"40"]) 0 [b!"4"] = .fail := by decide +kernel

end Verif.Props
