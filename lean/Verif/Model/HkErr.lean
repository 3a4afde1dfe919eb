/-
index.c: housekeeping and looking up when calls of the system fail.  `Model/Index.lean` is the same code with calls that succeed.
-/
import Verif.Model.Index

namespace Verif.HkErr
open Verif Index

/-- What `read(2)` does (index.c:593): it fails, or it delivers at most so many bytes.  POSIX allows it to deliver fewer bytes than
there are. -/
inductive Rd where
  | err
  | upto (n : Nat)
  deriving DecidableEq, Repr

/-- What happens when `idx_merge` opens and reads the old `index.sorted` (index.c:491-492, 516-518): all is well, `fopen(3)` fails,
or `fread(3)` fails behind so many bytes. -/
inductive Old where
  | fine
  | noOpen
  | cut (n : Nat)
  deriving DecidableEq, Repr

/-- The calls of one `idx_attempt_merge` (index.c:559-614); `true` means that the call fails.  `read k`, `old k` and `tmp k` belong
to the k-th part of the snapshot.  `tmp` stands for all calls for the temporary file, `fopen`, `fwrite`, `fclose` and `rename`
(index.c:496-497, 523, 534, 541, 545-548), which are all asserted to succeed before the old file is replaced. -/
structure Att where
  link : Bool := false
  unlinkA : Bool := false
  openH : Bool := false
  read : Nat → Rd
  old : Nat → Old := fun _ => .fine
  tmp : Nat → Bool := fun _ => false
  unlinkH : Bool := false

/-- The calls of `IDX_Resort` (index.c:616-653): opening the hold file fails for another reason than that it exists, `malloc` fails,
and the calls of each attempt. -/
structure Faults where
  hold : Bool := false
  mem : Bool := false
  att : Nat → Att

/-- index.c:475-551 `idx_merge`, as `idxMerge`; the size of the old file is taken from its end, also if it cannot be read to
there (index.c:501-506).  The assertion in `bucket_skip` fails if not even eight bytes can be read. -/
def mergeErr (o : Old) (old : Option Bytes) (ptr : List Bytes) : Res Bytes :=
  match o with
  | .fine => idxMerge old ptr
  | .noOpen => idxMerge none ptr
  | .cut n => do
    Res.check (0 < ptr.length)
    let bp ← bucketNew (mergeEstimate old ptr)
    let (ptr, st) ← mergeFile (old.map (·.take n)) ptr { bp := bp, n := 0, out := [] }
    let st := ptr.foldl mergeEmit st
    return bucketBytes st.bp ++ st.out.flatten

/-- How the loop over the snapshot ends: at its end, with a read error, or in an assertion failure. -/
inductive LoopEnd where
  | eof
  | err
  | abort
  deriving DecidableEq, Repr

/-- index.c:601-605: one part of the snapshot is merged.  `none` is an assertion failure; `index.sorted` is then as before. -/
def mergePart (a : Att) (k : Nat) (sorted : Option Bytes) (c : Bytes) : Option Bytes :=
  if c.length % 32 ≠ 0 then none
  else if a.tmp k then none
  else match mergeErr (a.old k) sorted (qsortRecs (chunksOf 32 c)) with
    | .ok f => some f
    | _ => none

/-- index.c:592-605: the loop over the snapshot.  `rest` is what is not yet read.  The loop ends when a read delivers less than
was asked for. -/
def mergeReads (a : Att) (size : Nat) : (fuel : Nat) → (k : Nat) → (rest : Bytes) → (sorted : Option Bytes) → Option Bytes × LoopEnd
  | 0, _, _, s => (s, .abort)
  | fuel + 1, k, rest, s =>
    match a.read k with
    | .err => (s, .err)
    | .upto m =>
      let c := rest.take (min m size)
      if c = [] then (s, .eof)
      else match mergePart a k s c with
        | none => (s, .abort)
        | some f => if c.length = size then mergeReads a size fuel (k + 1) (rest.drop c.length) (some f) else (some f, .eof)

/-- The result of one attempt: the return value and whether it has freed the buffer, or an assertion failure. -/
inductive Ret where
  | ret (i : Int) (freed : Bool)
  | abort
  deriving DecidableEq, Repr

/-- index.c:584-614: the snapshot is there. -/
def attemptRest (a : Att) (size : Nat) (d : Dir) (hk : Bytes) (ret : Int) : Dir × Ret :=
  if a.openH then (d, .ret (-1) true)
  else
    let r := mergeReads a size (hk.length + 1) 0 hk d.sorted
    let d := { d with sorted := r.1 }
    match r.2 with
    | .abort => (d, .abort)
    | .err => (d, .ret (-1) false)
    | .eof => if a.unlinkH then (d, .abort) else ({ d with housekeep := none }, .ret ret false)

/-- index.c:559-614 `idx_attempt_merge`. -/
def attemptErr (a : Att) (size : Nat) (d : Dir) : Dir × Ret :=
  if a.link then (d, .ret (-1) false)
  else match d.appendix with
    | none => (d, .ret 0 false)
    | some x => match d.housekeep with
      | some h => attemptRest a size d h 1
      | none =>
        if a.unlinkA then ({ d with housekeep := some x }, .abort)
        else attemptRest a size { d with appendix := none, housekeep := some x } x 0

/-- How housekeeping ends: it returns, in an assertion failure, or by freeing memory twice. -/
inductive End where
  | done
  | abort
  | doubleFree
  deriving DecidableEq, Repr

/-- index.c:643-644: the loop.  If it ends with a return value the second component tells whether the buffer is freed. -/
def loopErr (f : Faults) (size : Nat) : (fuel : Nat) → (k : Nat) → Dir → Dir × Option Bool
  | 0, _, d => (d, none)
  | fuel + 1, k, d =>
    match attemptErr (f.att k) size d with
    | (d, .abort) => (d, none)
    | (d, .ret i fr) => if i > 0 then loopErr f size fuel (k + 1) d else (d, some fr)

/-- index.c:651-652: the end, with the descriptor of the hold file, or -1, which cannot be closed. -/
def finish (f : Faults) (d : Dir) : Dir × End :=
  if d.hold then ({ d with hold := false }, if f.hold then .abort else .done) else (d, .abort)

/-- index.c:616-653 `IDX_Resort`.  If the hold file cannot be made, but not because it exists, the function goes on without it. -/
def resortErr (f : Faults) (size : Nat) (d : Dir) : Dir × End :=
  if f.hold = false ∧ d.hold = true then (d, .done)
  else
    let d := if f.hold then d else { d with hold := true }
    if f.mem then finish f d
    else match loopErr f size 2 0 d with
      | (d, none) => (d, .abort)
      | (d, some true) => (d, .doubleFree)
      | (d, some false) => finish f d

/-- Which index files `fopen(3)` can open when `IDX_Iter` reads the index (index.c:428-433). -/
structure CanOpen where
  sorted : Bool
  appendix : Bool
  housekeep : Bool
  deriving DecidableEq, Repr

/-- A file as `IDX_Iter` finds it: files that cannot be opened are passed over. -/
def seen (c : Bool) (f : Option Bytes) : Option Bytes := if c then f else none

/-- index.c:403-473 `IDX_Iter`, when some files cannot be opened. -/
def iterErr {σ : Type} (c : CanOpen) (d : Dir) (kp : Option Bytes) (f : σ → Entry → σ × Int) (s : σ) : Res (σ × Int) := do
  let k := kp.getD []
  Res.check (k.all isHex)
  let keyP ← idxKeyBin 12 k
  let cl := min k.length 24
  idxFiles cl keyP kp f [(seen c.sorted d.sorted, true), (seen c.appendix d.appendix, false), (seen c.housekeep d.housekeep, false)] (-1) s

end Verif.HkErr
