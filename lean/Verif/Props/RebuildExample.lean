/-
Property C67: concrete silos.
-/
import Verif.Props.RebuildArch
import Verif.Props.StoreExample
import Verif.Proofs.ExampleR

namespace Verif.Props
open Verif Header Gzip Wsilo Segjob Spec Inflate Rsilo Commit
open _root_.Verif.Rebuild (Cfg rebuildSilo mainRebuild)

/-- `BUFSIZ` of FreeBSD, and the size of `obuf` in `struct rebuild`. -/
def rbCfg : Cfg := { env := Example.env 100000, bufsiz := 1024, osz := 131072 }

/-- Pieces of three bytes. -/
def threes (fuel : Nat) (d : Bytes) : List Bytes :=
  match fuel with
  | 0 => if d = [] then [] else [d]
  | fuel + 1 => if d = [] then [] else d.take 3 :: threes fuel (d.drop 3)

def rbHdr (id : Bytes) (n : Nat) (more : List (Bytes × Bytes)) : Hdr := ⟨id, (b!"Content-Length", dec n) :: more⟩

def rbRec (h : Hdr) (d : Bytes) : Rec × Hdr := (storedRec (headerSerialize b!"x/" h) d, h)

/-- A record with a field `z`. -/
def rbOne : Rec × Hdr := rbRec (rbHdr b!"00ff" 11 [(b!"WARC-Type", b!"resource"), (b!"z", b!"x")]) b!"hello world"

/-- One without contents. -/
def rbTwo : Rec × Hdr := rbRec (rbHdr b!"11ff" 0 [(b!"WARC-Type", b!"resource")]) b!""

/-- One with the old digest. -/
def rbThree : Rec × Hdr := rbRec (rbHdr b!"22ff" 4 [(b!"WARC-record-digest", b!"md5:x")]) b!"abcd"

/-- Rebuild a silo, and read the result: IDs, fields and contents. -/
def rbRead (cut : Nat → Bytes → List Bytes) (xs : List (Rec × Hdr)) : Res (List (Hdr × Bytes)) := do
  let r ← rebuildSilo rbCfg Example.stored cut .start (siloBytes (xs.map (·.1)))
  let l ← scanBodies 4096 b!"x/" (fun d => [d]) 10 (rsOpen r.2 0)
  return l.map (·.2)

set_option maxRecDepth 1000000 in
/-- The three of them, in whole pieces and in small ones. -/
example : rbRead (fun _ d => [d]) [rbOne, rbTwo, rbThree] =
    .ok [(⟨b!"00ff", [(b!"Content-Length", b!"11"), (b!"WARC-Type", b!"resource")]⟩, b!"hello world"),
      (⟨b!"11ff", [(b!"Content-Length", b!"0"), (b!"WARC-Type", b!"resource")]⟩, b!""),
      (⟨(Example.toySha b!"abcd").take 24, [(b!"Content-Length", b!"4"), (b!"WARC-Block-digest", b!"sha256:" ++ Example.toySha b!"abcd")]⟩, b!"abcd")] := by decide +kernel

set_option maxRecDepth 1000000 in
example : rbRead (fun _ d => threes d.length d) [rbOne, rbTwo, rbThree] = rbRead (fun _ d => [d]) [rbOne, rbTwo, rbThree] := by decide +kernel

/-- The conditions of the theorems can be met. -/
example : ∀ x ∈ [rbOne, rbTwo], Fit rbCfg (fun _ d => [d]) x ∧ ¬ Old x.2 := by
  intro x hx
  simp only [List.mem_cons, List.not_mem_nil, or_false] at hx
  have key : ∀ x : Rec × Hdr, x.1 = storedRec x.1.text x.1.data → headerParse b!"x/" x.1.text = .ok x.2 → (0 : UInt8) ∉ x.1.text → (∃ s, x.1.text = s ++ b!"\r\n\r\n") → x.1.text.length < 500 →
      x.1.data.length < 500 → headerGetNumber x.2 b!"Content-Length" = .ok x.1.data.length → Fit rbCfg (fun _ d => [d]) x := by
    intro x h0 h1 h2 h3 h4 h5 h6
    have b : (1024 : Nat) = rbCfg.bufsiz := rfl
    have p : (4096 : Nat) = rbCfg.env.ps := rfl
    have e63 : 2 ^ 63 = 9223372036854775808 := by decide
    have e60 : 2 ^ 60 = 1152921504606846976 := by decide
    refine ⟨?_, h3, by omega, by omega, h6, by omega, ?_⟩
    · rw [h0]
      exact storedRec_complete h1 h2 (by omega) (by omega)
    · intro n q hq
      rw [List.mem_singleton.1 hq, ← p]
      omega
  rcases hx with rfl | rfl
  · exact ⟨key _ rfl (by decide +kernel) (by decide +kernel) (serialize_blank _ _) (by decide +kernel) (by decide +kernel) (by decide +kernel), by unfold Old; decide +kernel⟩
  · exact ⟨key _ rfl (by decide +kernel) (by decide +kernel) (serialize_blank _ _) (by decide +kernel) (by decide +kernel) (by decide +kernel), by unfold Old; decide +kernel⟩

example : EnvOk rbCfg.env ∧ Refill Example.stored (16 * rbCfg.env.ps) rbCfg.osz := ⟨example_envOk 100000 (by decide), Example.stored_refill⟩

/-- Store two objects, rebuild the silo, and audit it: the silos, and what the audit says about the first. -/
def rbStored : Res (List (Bytes × Bytes × List Audit.Msg)) := do
  let env := rbCfg.env
  let r1 ← storeObj env Example.stored 10 emptyWorld Example.hdr none [b!"hello", b!" world"]
  let r2 ← storeObj env Example.stored 10 r1.1 Example.hdr none [b!"goodbye"]
  let r ← rebuildSilo rbCfg Example.stored (fun _ d => [d]) .start (((r2.1.silos 0).map (·.data)).getD [])
  let l ← Audit.auditSilo env.ps env.pfx (fun d => [d]) env.sha env.idSize false 0 100000 r.2
  return l.map fun a => (a.1.hdr.id, a.1.content, a.2.1)

set_option maxRecDepth 1000000 in
example : (do let l ← rbStored; return ((l.map (·.2.1)).drop 1, l.map (·.2.2))) = Res.ok ([b!"hello world", b!"goodbye"], [[], [], []]) := by decide +kernel

set_option maxRecDepth 1000000 in
/-- C67 is false for lists of silos one of which ends within a record: the state is carried over, so the next silo, which can be rebuilt on its own, is taken for the contents of that record,
and the program aborts. -/
theorem C67_counterexample_carried :
    mainRebuild rbCfg Example.stored (fun _ d => [d]) [rbOne.1.hgz, siloBytes [rbTwo.1]] = .fail ∧
    (∃ l, mainRebuild rbCfg Example.stored (fun _ d => [d]) [rbOne.1.hgz] = .ok l) ∧ ∃ l, mainRebuild rbCfg Example.stored (fun _ d => [d]) [siloBytes [rbTwo.1]] = .ok l := by
  have key : ∀ r : Res (List Bytes), (match r with | .ok _ => true | _ => false) = true → ∃ l, r = .ok l := by
    intro r h
    cases r with
    | ok l => exact ⟨l, rfl⟩
    | fail => cases h
    | ub => cases h
  exact ⟨by decide +kernel, key _ (by decide +kernel), key _ (by decide +kernel)⟩

end Verif.Props
