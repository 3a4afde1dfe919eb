/-
Model of /repo/main_store.c and /repo/main_get.c: the commands `store` and `get`.
-/
import Verif.Model.Segjob
import Verif.Model.Config

namespace Verif.MainStore
open Verif Header Index Ident Wsilo Segjob Getjob

/-- What getopt(3) delivers for "hi:m:t:r:" (main_store.c:115). -/
inductive Opt where
  | help
  | i (a : Bytes)
  | m (a : Bytes)
  | t (a : Bytes)
  | r (a : Bytes)
  | unknown
  deriving DecidableEq, Repr

/-- `WT_RESOURCE` and `WT_METADATA` (main_store.c:45-46). -/
inductive WType where
  | resource | metadata
  deriving DecidableEq, Repr

/-- The text of the type. -/
def WType.text : WType → Bytes
  | .resource => b!"resource"
  | .metadata => b!"metadata"

/-- Why the program exits with status 1. -/
inductive Refusal where
  | usage | onlyMetadata | needsRef | badIdent | badRef | noFile | readError | empty | mimeType | noSuchRef
  deriving DecidableEq, Repr

/-- main_store.c:97-107: the variables set by the options. -/
structure Args where
  wt : Option WType
  mt : Bytes
  r : Option Bytes
  i : Option Bytes
  deriving DecidableEq, Repr

/-- main_store.c:117-152: one option; `none` if the program exits. -/
def option (a : Args) : Opt → Option Args
  | .help => none
  | .unknown => none
  | .i x => if a.i = none then some { a with i := some x } else none
  | .m x => some { a with mt := x }
  | .t x =>
    if a.wt ≠ none then none
    else if strcasecmp x b!"resource" = .eq then some { a with wt := some .resource }
    else if strcasecmp x b!"metadata" = .eq then some { a with wt := some .metadata }
    else none
  | .r x => if a.r = none then some { a with r := some x } else none

/-- main_store.c:115-153. -/
def options : List Opt → Args → Option Args
  | [], a => some a
  | o :: os, a =>
    match option a o with
    | none => none
    | some a => options os a

/-- The variables before the loop. -/
def noArgs : Args := ⟨none, b!"application/octet-stream", none, none⟩

/-- Continue, or exit with status 1. -/
inductive Step (α : Type) where
  | refuse (e : Refusal)
  | go (a : α)
  deriving DecidableEq, Repr

/-- main_store.c:189-198: the reference. -/
def refOf (pfx : Bytes) (idSize : Nat) (r : Bytes) : Res Bytes :=
  if r.length = idSize then digest2Ident pfx idSize r else .ok r

/-- main_store.c:161-199: the checks on `-i` and `-r`; the result is `ref`. -/
def checkArgs (pfx : Bytes) (idSize : Nat) (wt : WType) (a : Args) : Res (Step (Option Bytes)) :=
  match wt with
  | .resource => if a.r ≠ none ∨ a.i ≠ none then .ok (.refuse .onlyMetadata) else .ok (.go none)
  | .metadata =>
    match a.r with
    | none => .ok (.refuse .needsRef)
    | some r =>
      if a.i.any (fun i => !validId pfx idSize i) then .ok (.refuse .badIdent)
      else if validId pfx idSize r = false then .ok (.refuse .badRef)
      else do
        let ref ← refOf pfx idSize r
        return .go (some ref)

/-- The input: what the calls of read(2) return, and whether the last one fails instead of returning 0. -/
structure Input where
  pieces : List Bytes
  err : Bool
  deriving DecidableEq, Repr

/-- main_store.c:58-79 `mime_type`: whether the type is allowed. -/
def mimeOk (cfg : List Config.Section) (wt : WType) (mt : Bytes) : Bool :=
  (Config.configFind cfg (match wt with | .resource => b!"resource.mime-types" | .metadata => b!"metadata.mime-types") mt).isSome

/-- main_store.c:238-242, 258: the header. -/
def jobHdr (env : Env) (wt : WType) (mt : Bytes) (ref : Option Bytes) : Res Hdr := do
  let h ← headerSet (headerNew env.idSize) b!"WARC-Date" env.date
  let h ← headerSet h b!"Content-Type" mt
  let h ← headerSet h b!"WARC-Type" wt.text
  match ref with
  | none => return h
  | some ref => headerSet h b!"WARC-Refers-To" (b!"<" ++ ref ++ b!">")

/-- main_store.c:244-257: the referenced object must be in the archive. -/
def refThere (env : Env) (fuel : Nat) (w : World) : Option Bytes → Res Bool
  | none => .ok true
  | some ref => do
    let g ← getjobNew env.ps env.pfx env.idSize fuel w ref
    match g with
    | .job _ => return true
    | .error _ => return false

/-- Result of the program: exit with status 1 and a message, or the ID printed. -/
inductive Out where
  | refused (e : Refusal)
  | printed (uri : Bytes)
  deriving DecidableEq, Repr

/-- main_store.c:233-278: from the mime type on. -/
def storeInput {σ : Type} (env : Env) (D : Deflater σ) (fuel : Nat) (cfg : List Config.Section) (w : World) (wt : WType) (a : Args) (ref : Option Bytes)
    (pieces : List Bytes) : Res (World × Out) :=
  if mimeOk cfg wt a.mt = false then .ok (w, .refused .mimeType)
  else do
    let h ← jobHdr env wt a.mt ref
    let b ← refThere env fuel w ref
    if b = false then return (w, .refused .noSuchRef)
    else do
      let r ← storeObj env D fuel w h a.i pieces
      return (r.1, .printed r.2)

/-- main_store.c:94-278 `main_store`; `input` is `none` if there are too many arguments or the file cannot be opened.  A read error
after the first piece ends the input (main_store.c:265-269). -/
def mainStore {σ : Type} (env : Env) (D : Deflater σ) (fuel : Nat) (cfg : List Config.Section) (w : World) (opts : List Opt) (input : Option Input) :
    Res (World × Out) :=
  match options opts noArgs with
  | none => .ok (w, .refused .usage)
  | some a => do
    let wt := a.wt.getD .resource
    let s ← checkArgs env.pfx env.idSize wt a
    match s with
    | .refuse e => return (w, .refused e)
    | .go ref =>
      match input with
      | none => return (w, .refused .noFile)
      | some i =>
        if i.pieces = [] then return (w, .refused (if i.err then .readError else .empty))
        else storeInput env D fuel cfg w wt a ref i.pieces

/-! ### get -/

/-- Options of `get` (main_get.c:100-121): every option inverts its variable. -/
structure GetArgs where
  hdrOnly : Bool
  quiet : Bool
  zip : Bool
  deriving DecidableEq, Repr

/-- What is written: the headers, and the object. -/
structure GetOut where
  hdr : Bytes
  obj : Bytes
  deriving DecidableEq, Repr

/-- main_get.c:68-79 `get_iter`: the bytes so far; they are hashed unless `-z`. -/
def getIter : Bytes → Bytes → Bytes × Int := fun s d => (s ++ d, 0)

/-- The first of two header fields that is there; `AN(p)`. -/
def eitherGet (h : Hdr) (n1 n2 : Bytes) : Res Bytes :=
  match headerGet h n1 with
  | some v => .ok v
  | none =>
    match headerGet h n2 with
    | some v => .ok v
    | none => .fail

/-- main_get.c:164-182: the program's own check of what it has delivered.  `strncmp` of `idSize` digits. -/
def selfCheck (env : Env) (hdr1 hdr9 : Hdr) (data : Bytes) : Res Unit := do
  let p ← eitherGet hdr1 b!"WARC-Payload-Digest" b!"WARC-Block-Digest"
  Res.check (p.take 7 = b!"sha256:")
  Res.check (strncmpEq (p.drop 7) (env.sha data) env.idSize)
  let p ← eitherGet hdr9 b!"WARC-Segment-Total-Length" b!"Content-Length"
  Res.check (p = dec data.length)

/-- getjob.c:229-241 `GetJob_Header`: of the first or of the last segment. -/
def gjHeader (gj : GJ) (first : Bool) : Res Hdr :=
  match (if first then gj.segs.head? else gj.segs.getLast?) with
  | none => .fail
  | some s => .ok s.hdr

/-- main_get.c:158-183: the object. -/
def getObj (env : Env) (cut : Bytes → List Bytes) (gj : GJ) (zip : Bool) : Res Bytes := do
  let h1 ← gjHeader gj true
  let h9 ← gjHeader gj false
  let d ← getjobIterate env.ps cut gj getIter [] zip
  if zip then return d
  else do
    selfCheck env h1 h9 d
    return d

/-- main_get.c:81-191 `main_get` with one argument; `none` if the program exits with a message. -/
def mainGet (env : Env) (fuel : Nat) (cut : Bytes → List Bytes) (w : World) (a : GetArgs) (id : Bytes) : Res (Option GetOut) := do
  let g ← getjobNew env.ps env.pfx env.idSize fuel w id
  match g with
  | .error _ => return none
  | .job gj => do
    let hdr ← (if a.quiet then .ok [] else gjHeaders env.pfx gj)
    let obj ← (if a.hdrOnly then .ok [] else getObj env cut gj a.zip)
    return some ⟨hdr, obj⟩

end Verif.MainStore
