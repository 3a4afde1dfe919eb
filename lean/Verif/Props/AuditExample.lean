/-
Property C54: archives that are audited, one of them with an ID given by the user.
-/
import Verif.Props.StoreExample
import Verif.Props.AuditArch

namespace Verif.Props
open Verif Header Gzip Ident Index Wsilo Segjob Getjob Spec Inflate Audit

/-- What an audit said: the number of records, the messages about them, the messages about objects, and the number of segments left over. -/
def summary : Option (List (Ap × List Msg × Option Int) × List Pend × List Ap) → Option (Nat × List Msg × List (List Msg) × Nat)
  | none => none
  | some (l, os, left) => some (l.length, l.flatMap (·.2.1), os.map (fun o => match o with | .object m _ => m | _ => [.badNumber]), left.length)

/-- Store objects and audit the archive. -/
def storeAudit (max : Nat) (ign : Bool) (objs : List (Hdr × Option Bytes × List Bytes)) : Res (Option (Nat × List Msg × List (List Msg) × Nat)) := do
  let env := Example.env max
  let w ← objs.foldlM (fun w o => do let r ← storeObj env Example.stored 10 w o.1 o.2.1 o.2.2; return r.1) emptyWorld
  let r ← mainAudit env.ps env.pfx (fun b => [b]) env.sha env.idSize ign w.silos 3000
  return summary r

def metaHdr : Hdr :=
  ⟨List.replicate 24 48, [(b!"Content-Type", b!"text/plain"), (b!"WARC-Date", b!"2024-01-01T00:00:00Z"), (b!"WARC-Refers-To", b!"<x/>"), (b!"WARC-Type", b!"metadata")]⟩

set_option maxRecDepth 1000000 in
/-- An object in three segments, and a small one: eight records, nothing to say, nothing left over. -/
example : storeAudit 1120 false [(Example.hdr, none, [b!"hello and welcome", b!" world, hello and goodbye, and so on and so forth"]),
    (Example.hdr, none, [b!"tiny"])] = .ok (some (8, [], [[]], 0)) := by decide +kernel

set_option maxRecDepth 1000000 in
/-- A small metadata object with a given ID: there is a message. -/
example : storeAudit 1120 false [(metaHdr, some (List.replicate 24 97), [b!"hello"])] = .ok (some (2, [.ident], [], 0)) := by decide +kernel

set_option maxRecDepth 1000000 in
/-- The message can be switched off. -/
example : storeAudit 1120 true [(metaHdr, some (List.replicate 24 97), [b!"hello"])] = .ok (some (2, [], [], 0)) := by decide +kernel

set_option maxRecDepth 1000000 in
/-- C54 is false for IDs given by the user: `ignore-metadata-record-id` has no effect on an object in several segments (main_audit.c:155-177), so the
audit finds fault with it although it was stored properly. -/
theorem C54_counterexample_given : storeAudit 1160 true [(metaHdr, some (List.replicate 24 97), [b!"hello and welcome",
    b!" world, hello and goodbye, and so on and so forth"])] = .ok (some (4, [], [[.ident]], 0)) := by decide +kernel

end Verif.Props
