/-
Model of the opening of the archive in /repo/aardwarc.c: from the configuration to the parameters.
-/
import Verif.Model.Config
import Verif.Model.Vnum
import Verif.Basic.Res

namespace Verif.Aardwarc
open Verif Config

/-- The value of a digit for strtoul(3). -/
def digitVal (c : UInt8) : Nat :=
  if 48 ≤ c ∧ c ≤ 57 then c.toNat - 48
  else if 97 ≤ c ∧ c ≤ 122 then c.toNat - 87
  else if 65 ≤ c ∧ c ≤ 90 then c.toNat - 55
  else 36

/-- The number the leading digits of the text stand for. -/
def digits (base : Nat) : Bytes → Nat → Nat
  | [], n => n
  | c :: p, n => if digitVal c < base then digits base p (n * base + digitVal c) else n

/-- The base and the digits for `strtoul(p, .., 0)`. -/
def radix : Bytes → Nat × Bytes
  | [] => (10, [])
  | [c] => (10, [c])
  | [c, d] => if c = 48 then (8, [c, d]) else (10, [c, d])
  | c :: d :: e :: p =>
    if c = 48 ∧ (d = 120 ∨ d = 88) ∧ digitVal e < 16 then (16, e :: p)
    else if c = 48 then (8, c :: d :: e :: p) else (10, c :: d :: e :: p)

/-- `strtoul(p, NULL, 0)` with 64 bits, as C99 and POSIX have it: a minus sign negates the result. -/
def strtoul0 (p : Bytes) : Nat :=
  let s := Vnum.sign (Vnum.skipSp p)
  let r := radix s.2
  let v := digits r.1 r.2 0
  if 2 ^ 64 ≤ v then 2 ^ 64 - 1 else if s.1 < 0 then (2 ^ 64 - v) % 2 ^ 64 else v

/-- The error messages of aardwarc.c:58-155. -/
inductive NewErr where
  | config | noPrefix | prefixSlash | idRange | idFour | noDir | dirSlash
  | maxSize | basenameFormat | basenameSlash | sortSize | sortSmall
  deriving DecidableEq, Repr

/-- The fields of `struct aardwarc` (aardwarc.h:44-64) that come from the configuration.  `maxSize` is
`silo_maxsize`, an `off_t`. -/
structure Params where
  pfx : Bytes
  idSize : Nat
  dirname : Bytes
  maxSize : Int
  basename : Bytes
  sortSize : Nat
  deriving DecidableEq, Repr

/-- Result of `AardWARC_New`. -/
inductive NewRes where
  | error (e : NewErr)
  | ok (p : Params)
  deriving DecidableEq, Repr

/-- A step of `AardWARC_New` that may `break` with a message. -/
inductive Step (α : Type) where
  | error (e : NewErr)
  | ok (a : α)
  deriving DecidableEq, Repr

/-- aardwarc.c:76-93: `id_size` is an `unsigned`. -/
def idSizeOf : Option Bytes → Step Nat
  | none => .ok 32
  | some a =>
    let v := strtoul0 a % 2 ^ 32
    if v < 64 ∨ 256 < v then .error .idRange
    else if v % 4 ≠ 0 then .error .idFour
    else .ok (v / 4)

/-- aardwarc.c:71, 101: `p[strlen(p) - 1] != '/'`. -/
def endsSlash (p : Bytes) : Res Bool := do
  Res.access (decide (p ≠ []))
  return decide (p.getLast? = some 47)

/-- aardwarc.c:65-93: the prefix and the length of IDs. -/
def prefixStep (cfg : List Section) : Res (Step (Bytes × Nat)) :=
  match configGet cfg b!"WARC-Record-ID" true true with
  | .ok e => do
    let s ← endsSlash e.name
    if s = false then return .error .prefixSlash
    else
      match idSizeOf e.arg with
      | .error x => return .error x
      | .ok n => return .ok (e.name, n)
  | _ => .ok (.error .noPrefix)

/-- aardwarc.c:95-105. -/
def dirStep (cfg : List Section) : Res (Step Bytes) :=
  match configGet cfg b!"silo.directory" true false with
  | .ok e => do
    let s ← endsSlash e.name
    if s = false then return .error .dirSlash else return .ok e.name
  | _ => .ok (.error .noDir)

/-- The value of an optional section: any error of `Config_Get` selects the default. -/
def valueOr (cfg : List Section) (name dflt : Bytes) : Bytes :=
  match configGet cfg name true false with
  | .ok e => e.name
  | _ => dflt

/-- `VNUM_2bytes(p, &um, 0)` and its error message (aardwarc.c:110-115, 138-143). -/
def sizeStep (fp : Vnum.FP) (p : Bytes) (err : NewErr) : Res (Step Nat) :=
  match Vnum.vnum2bytes fp p 0 with
  | .ok v => .ok (.ok v)
  | .ub => .ub
  | _ => .ok (.error err)

/-- Conversion of a `uintmax_t` to `off_t`. -/
def toOff (u : Nat) : Int := if u < 2 ^ 63 then u else (u : Int) - 2 ^ 64

/-- aardwarc.c:107-117; the assertion compares the number with itself modulo 2^64. -/
def maxStep (fp : Vnum.FP) (cfg : List Section) : Res (Step Int) := do
  let r ← sizeStep fp (valueOr cfg b!"silo.max_size" b!"3.5G") .maxSize
  match r with
  | .error e => return .error e
  | .ok um => do
    Res.check (decide (((toOff um) % 2 ^ 64).toNat = um))
    return .ok (toOff um)

/-- aardwarc.c:119-134; `fmtOk` is `fmtcheck(p, "%u") == p`. -/
def baseStep (fmtOk : Bytes → Bool) (cfg : List Section) : Step Bytes :=
  let p := valueOr cfg b!"silo.basename" b!"%08u.warc.gz"
  if fmtOk p = false then .error .basenameFormat
  else if (47 : UInt8) ∈ p then .error .basenameSlash
  else .ok p

/-- aardwarc.c:136-150; `index_sort_size` is a `size_t`. -/
def sortStep (fp : Vnum.FP) (cfg : List Section) : Res (Step Nat) := do
  let r ← sizeStep fp (valueOr cfg b!"index.sort_size" b!"10M") .sortSize
  match r with
  | .error e => return .error e
  | .ok um => if um / 32 * 32 < 4096 then return .error .sortSmall else return .ok (um / 32 * 32)

/-- Sequence of two steps. -/
def andThen {α : Type} (r : Res (Step α)) (k : α → Res NewRes) : Res NewRes := do
  let s ← r
  match s with
  | .error e => return .error e
  | .ok a => k a

/-- aardwarc.c:46-162 `AardWARC_New`; `file` is the contents of the configuration file, if it can be read. -/
def aardwarcNew (fp : Vnum.FP) (fmtOk : Bytes → Bool) (file : Option Bytes) : Res NewRes :=
  match file.bind configRead with
  | none => .ok (.error .config)
  | some cfg =>
    andThen (prefixStep cfg) fun p =>
    andThen (dirStep cfg) fun d =>
    andThen (maxStep fp cfg) fun m =>
    andThen (.ok (baseStep fmtOk cfg)) fun b =>
    andThen (sortStep fp cfg) fun s =>
    .ok (.ok ⟨p.1, p.2, d, m, b, s⟩)

end Verif.Aardwarc
