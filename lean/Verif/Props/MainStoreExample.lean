/-
Runs of `store` and `get`, and where they do not do what one would expect.
-/
import Verif.Props.MainStore
import Verif.Props.StoreExample

namespace Verif.Props
open Verif Header Gzip Ident Index Wsilo Segjob Getjob Spec Inflate MainStore

/-- A configuration that lists mime types. -/
def mimeCfg : List Config.Section :=
  (Config.configParse b!"resource.mime-types:\n application/octet-stream\n text/plain\nmetadata.mime-types:\n text/plain\n").1

/-- A configuration that allows any mime type. -/
def starCfg : List Config.Section := (Config.configParse b!"resource.mime-types:\n *\n").1

/-- The hypothesis on the configuration is met. -/
theorem example_listed (max : Nat) : Listed (Example.env max) mimeCfg := by
  have hc : mimeCfg = [⟨b!"resource.mime-types", [⟨b!"application/octet-stream", none⟩, ⟨b!"text/plain", none⟩]⟩,
      ⟨b!"metadata.mime-types", [⟨b!"text/plain", none⟩]⟩] := by decide
  rw [hc]
  constructor
  · intro s hs e he
    simp only [List.mem_cons, List.not_mem_nil, or_false] at hs
    rcases hs with rfl | rfl <;> simp only [List.mem_cons, List.not_mem_nil, or_false] at he
    · rcases he with rfl | rfl <;> unfold Token <;> decide
    · subst he; unfold Token; decide
  · intro t s hs _ e he
    show _ ∧ 702 + 3 * 2 + 2 * 24 + 20 + e.name.length ≤ 4096
    simp only [List.mem_cons, List.not_mem_nil, or_false] at hs
    rcases hs with rfl | rfl <;> simp only [List.mem_cons, List.not_mem_nil, or_false] at he
    · rcases he with rfl | rfl <;> exact ⟨by decide, by decide⟩
    · subst he; exact ⟨by decide, by decide⟩

/-- Store an object, metadata for it, metadata for an object that is not there, and an object of a type that is not allowed; then get both. -/
def storeCommands : Res (List Out × List (Option Bytes)) := do
  let env := Example.env 5000
  let r1 ← mainStore env Example.stored 10 mimeCfg emptyWorld [] (some ⟨[b!"hello", b!" world"], false⟩)
  match r1.2 with
  | .refused _ => .fail
  | .printed uri => do
    let r2 ← mainStore env Example.stored 10 mimeCfg r1.1 [.t b!"METADATA", .m b!"Text/Plain", .r uri] (some ⟨[b!"title: x"], false⟩)
    let r3 ← mainStore env Example.stored 10 mimeCfg r2.1 [.t b!"metadata", .m b!"text/plain", .r b!"0123456789abcdef01234567"] (some ⟨[b!"title: x"], false⟩)
    let r4 ← mainStore env Example.stored 10 mimeCfg r3.1 [.m b!"text/html"] (some ⟨[b!"title: x"], false⟩)
    match r2.2 with
    | .refused _ => .fail
    | .printed uri2 => do
      let g1 ← mainGet env 10 (fun b => [b]) r4.1 ⟨false, true, false⟩ uri
      let g2 ← mainGet env 10 (fun b => [b]) r4.1 ⟨false, true, false⟩ uri2
      return ([r1.2, r2.2, r3.2, r4.2], [g1.map (·.obj), g2.map (·.obj)])

set_option maxRecDepth 1000000 in
example : storeCommands = .ok ([.printed b!"x/85114a0d85114a0d85114a0d", .printed b!"x/db87bd4cdb87bd4cdb87bd4c", .refused .noSuchRef,
    .refused .mimeType], [some b!"hello world", some b!"title: x"]) := by decide +kernel

/-- What `store` prints; whether `get` of that ends with an assertion failure. -/
def storeThenGet (cfg : List Config.Section) (opts : List Opt) (i : Input) : Option (Bytes × Bool) :=
  let env := Example.env 5000
  match mainStore env Example.stored 10 cfg emptyWorld opts (some i) with
  | .ok (w, .printed uri) => some (uri, mainGet env 10 (fun b => [b]) w ⟨false, true, false⟩ uri = .fail)
  | _ => none

set_option maxRecDepth 1000000 in
/-- C59: if the configuration allows any mime type with "*", then the argument of `-m` may contain line ends, and the header that is written
cannot be read: the ID is printed, but getting the object ends with an assertion failure. -/
theorem C59_counterexample_star : storeThenGet starCfg [.m b!"x\r\nz"] ⟨[b!"hello"], false⟩ = some (b!"x/86a6103686a6103686a61036", true) := by decide +kernel

/-- C59: an error while the input is read is noticed only if nothing has been read yet; otherwise what has been read is stored as if it
were all, and its ID printed. -/
theorem C59_counterexample_read_error {σ : Type} (env : Env) (D : Deflater σ) (fuel : Nat) (cfg : List Config.Section) (w : World) (opts : List Opt)
    (pieces : List Bytes) (h : pieces ≠ []) :
    mainStore env D fuel cfg w opts (some ⟨pieces, true⟩) = mainStore env D fuel cfg w opts (some ⟨pieces, false⟩) := by
  unfold mainStore
  simp only [h, if_false]

set_option maxRecDepth 1000000 in
example : storeThenGet mimeCfg [] ⟨[b!"hello"], true⟩ = some (b!"x/86a6103686a6103686a61036", false) := by decide +kernel

end Verif.Props
