/-
Runs of the CGI program, and where it does not do what one would expect.
-/
import Verif.Props.MainCgi
import Verif.Props.MainStoreExample

namespace Verif.Props
open Verif Header Gzip Ident Index Wsilo Segjob Getjob Spec Inflate MainStore MainCgi

/-- A request for what `store` has printed. -/
def cgiRequest (uri : Bytes) (accept : Option Bytes) : CgiEnv := ⟨some b!"CGI/1.1", some b!"GET", some (b!"/" ++ uri), accept⟩

/-- Store something and then ask for it. -/
def storeThenCgi (cfg : List Config.Section) (opts : List Opt) (i : Input) (accept : Option Bytes) : Option (Option Spec.Cgi.Response) :=
  let env := Example.env 5000
  match mainStore env Example.stored 10 cfg emptyWorld opts (some i) with
  | .ok (w, .printed uri) =>
    match mainCgi env 10 (fun b => [b]) w (cgiRequest (uri.drop 2) accept) with
    | .ok (.stdout t) => some (Spec.Cgi.readResponse t)
    | _ => none
  | _ => none

set_option maxRecDepth 1000000 in
example : storeThenCgi mimeCfg [.m b!"text/plain"] ⟨[b!"hello", b!" world"], false⟩ (some b!"deflate") =
    some (some (okResponse b!"text/plain" false b!"hello world")) := by decide +kernel

set_option maxRecDepth 1000000 in
example : ((storeThenCgi mimeCfg [.m b!"text/plain"] ⟨[b!"hello", b!" world"], false⟩ (some b!"br, gzip")).bind id).map (fun r => (r.fields, gunzip r.body)) =
    some ((okResponse b!"text/plain" true (List.replicate 58 0)).fields, some b!"hello world") := by decide +kernel

set_option maxRecDepth 1000000 in
/-- C65: if the configuration allows any mime type with "*", then whoever stores an object can add fields to the header that is sent when it is asked for. -/
theorem C65_counterexample_inject : storeThenCgi starCfg [.m b!"text/plain\nLocation: http://x"] ⟨[b!"hello"], false⟩ none =
    some (some ⟨[(b!"Content-Type", b!"text/plain"), (b!"Location", b!"http://x"), (b!"Content-Length", b!"5"), (b!"Status", b!"200")], b!"hello"⟩) := by
  decide +kernel

/-- An archive with an object without contents. -/
def voidWorld : World :=
  { dir := (runOps {} [.insert ⟨exX.id, 4, 0, 0, none⟩]).toOption.getD {},
    silos := fun n => if n = 0 then some ⟨exRec (exHdr exX.id [(b!"Content-Length", b!"0")]) [], false⟩ else none,
    holds := fun _ => false, cache := ⟨0, 0⟩, cacheFile := none }

set_option maxRecDepth 1000000 in
/-- C65: an object without contents is found, but asking for it ends with an assertion failure, unless compressed contents are accepted. -/
theorem C65_counterexample_void :
    (∃ gj, getjobNew 4096 exPfx 24 3 voidWorld exX.id = .ok (.job gj)) ∧
    mainCgi (Example.env 5000) 5 (fun b => [b]) voidWorld (cgiRequest exX.id none) = .fail ∧
    (match mainCgi (Example.env 5000) 5 (fun b => [b]) voidWorld (cgiRequest exX.id (some b!"gzip")) with
      | .ok (.stdout t) => (Spec.Cgi.readResponse t).bind (fun r => gunzip r.body) | _ => none) = some [] := by
  refine ⟨⟨(match getjobNew 4096 exPfx 24 3 voidWorld exX.id with | .ok (.job gj) => gj | _ => ⟨[], .notFound, []⟩), by decide +kernel⟩, by decide +kernel, by decide +kernel⟩

/-- The object "ababab", stored twice: as "ab", "ab", "ab", and as "abab", "ab". -/
def mixFirst (fs : List (Bytes × Bytes)) : Hdr := exHdr b!"aaaaaaaaaaaaaaaaaaaaaaaa" (fs ++ [(b!"WARC-Segment-Number", b!"1"), (b!"WARC-Type", b!"resource")])
def mixNext (n : Bytes) : Hdr := exHdr b!"bbbbbbbb1000000000000000" [(b!"Content-Length", b!"2"), (b!"WARC-Segment-Number", n),
  (b!"WARC-Segment-Origin-ID", b!"<x/aaaaaaaaaaaaaaaaaaaaaaaa>")]

/-- The two first segments, the two second ones, and the third one. -/
def mixWorld (ops : List IdxOp) : World :=
  { dir := (runOps {} ops).toOption.getD {},
    silos := fun n => if n = 0 then some ⟨exRec (mixFirst [(b!"Content-Length", b!"2")]) b!"ab", false⟩
      else if n = 1 then some ⟨exRec (mixFirst [(b!"Content-Length", b!"4")]) b!"abab", false⟩
      else if n = 2 then some ⟨exRec (mixNext b!"2") b!"ab", false⟩ else if n = 3 then some ⟨exRec (mixNext b!"2") b!"ab", false⟩
      else if n = 4 then some ⟨exRec (mixNext b!"3") b!"ab", false⟩ else none,
    holds := fun _ => false, cache := ⟨0, 0⟩, cacheFile := none }

def mixOps : List IdxOp :=
  [.insert ⟨(mixFirst []).id, 4 + 16 + 32, 0, 0, some (mixNext []).id⟩, .insert ⟨(mixFirst []).id, 4 + 16 + 32, 1, 0, some (mixNext []).id⟩,
   .insert ⟨(mixNext []).id, 4 + 16 + 64, 3, 0, none⟩, .insert ⟨(mixNext []).id, 4 + 16, 2, 0, some (mixNext []).id⟩, .insert ⟨(mixNext []).id, 4 + 16 + 64, 4, 0, none⟩]

set_option maxRecDepth 1000000 in
/-- C64 is false if an object is in the archive twice, cut in different ways, as two programs that store it at the same time can leave it: the first segment of the
one and the second and last of the other are found, and the CGI program sends "abab" as the object "ababab". -/
theorem C64_counterexample_mixed :
    (match mainCgi (Example.env 5000) 5 (fun b => [b]) (mixWorld mixOps) (cgiRequest (mixFirst []).id none) with
      | .ok (.stdout t) => Spec.Cgi.readResponse t | _ => none) =
    some (okResponse b!"application/binary" false b!"abab") := by decide +kernel

/-- The hypothesis on the first segments is met where the objects differ, and not where one is there twice. -/
example : FirstsApart exA ∧ AllSafe exWorld2 exA exX.id := by
  refine ⟨?_, ?_⟩
  · unfold FirstsApart exA
    simp only [List.pairwise_cons, List.mem_cons, List.not_mem_nil, or_false, forall_eq_or_imp, forall_eq, false_imp_iff, implies_true, List.Pairwise.nil, and_true]
    refine ⟨⟨?_, ?_⟩, ?_⟩
    · intro _ h; exact absurd h (by decide)
    · intro _ h; exact absurd h (by decide)
    · intro h; exact absurd h (by decide)
  · intro F hF
    have : exWorld2.dir.sorted = none := by decide +kernel
    rw [this] at hF
    cases hF

end Verif.Props
