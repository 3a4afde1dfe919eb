/-
Model of /repo/index.c: index records, lookup, and housekeeping.
-/
import Verif.Basic.Res
import Verif.Basic.CStr

namespace Verif.Index
open Verif

/-- index.c:192-203 `idx_hex_digit`. -/
def idxHexDigit (c : UInt8) : Res Nat :=
  if 48 ≤ c ∧ c ≤ 57 then .ok (c.toNat - 48)
  else if 97 ≤ c ∧ c ≤ 102 then .ok (10 + c.toNat - 97)
  else if 65 ≤ c ∧ c ≤ 70 then .ok (10 + c.toNat - 65)
  else .fail

/-- index.c:205-222 `idx_key_bin`: `keylen` bytes from hex text, missing digits are zero. -/
def idxKeyBin : (keylen : Nat) → (key : Bytes) → Res Bytes
  | 0, _ => .ok []
  | n + 1, [] => do
    let r ← idxKeyBin n []
    return 0 :: r
  | n + 1, [c] => do
    let j ← idxHexDigit c
    let r ← idxKeyBin n []
    return UInt8.ofNat (j * 16) :: r
  | n + 1, c :: d :: ks => do
    let j ← idxHexDigit c
    let k ← idxHexDigit d
    let r ← idxKeyBin n ks
    return UInt8.ofNat (j * 16 + k) :: r

/-- The index files of one archive directory: `index.sorted`, `index.appendix`,
`index.housekeep` (absent or with content) and the existence of `index.hold`.
Paths (index.c:179-191 `idx_filename`) are represented by the field names. -/
structure Dir where
  sorted : Option Bytes := none
  appendix : Option Bytes := none
  housekeep : Option Bytes := none
  hold : Bool := false
  deriving DecidableEq, Repr

/-- index.c:234, 239-240: the continuation field, zero if there is none. -/
def contBin : Option Bytes → Res Bytes
  | none => .ok [0, 0, 0, 0]
  | some c => idxKeyBin 4 c

/-- index.c:224-240, the 32-byte record built by `IDX_Insert`. -/
def idxRecord (key : Bytes) (flags silo offset : Nat) (cont : Option Bytes) : Res Bytes := do
  let k ← idxKeyBin 12 key
  let c ← contBin cont
  return k ++ beEnc 4 flags ++ beEnc 4 silo ++ beEnc 8 offset ++ c

/-- index.c:224-249 `IDX_Insert`: append the record to the appendix file, creating it if
needed.  The single `write(2)` in `O_APPEND` mode is one step and is assumed to succeed.
`assert(aa->id_size >= 16)` is established by `AardWARC_New` and not modelled here. -/
def idxInsert (d : Dir) (key : Bytes) (flags silo offset : Nat) (cont : Option Bytes) : Res Dir := do
  let r ← idxRecord key flags silo offset cont
  return { d with appendix := some (d.appendix.getD [] ++ r) }

/-- index.c:253-262 `INDEX_ID`. -/
def INDEX_ID : Nat := 0x4161

/-- index.c:255-262 `struct bucket`; `nbucket` is `buckets.length`. -/
structure Bucket where
  bb : Nat
  nrec : Nat
  buckets : List Int
  deriving DecidableEq, Repr

/-- index.c:295-297: the loop choosing `bbucket`.  The fuel is the number of iterations left;
`bucketNew` checks `nrec < 2^40` first, so 26 iterations from 14 are enough. -/
def bbLoop (nrec : Nat) : (fuel : Nat) → (b : Nat) → Nat
  | 0, b => b
  | fuel + 1, b => if 2 ^ b < nrec then bbLoop nrec fuel (b + 1) else b

/-- index.c:280-310 `bucket_new` (allocation failure is not modelled). -/
def bucketNew (nrec : Nat) : Res Bucket := do
  Res.check (nrec < 2 ^ 40)
  let bb := bbLoop nrec 26 14 - 12
  return { bb := bb, nrec := nrec, buckets := List.replicate (2 ^ bb) (2 ^ 31) }

/-- index.c:312-329 `bucket_update`.  `u + bp->buckets[b]` is computed in `uint64_t`. -/
def bucketUpdate (bp : Bucket) (n : Nat) (rec : Bytes) : Bucket :=
  let u := beDec (rec.take 8)
  let b := u / 2 ^ (64 - bp.bb)
  let u := ((u / 2 ^ 40) * bp.nrec % 2 ^ 64) / 2 ^ 24
  if b > 0 ∧ (u + ofInt64 (bp.buckets.getD b 0)) % 2 ^ 64 > n then
    { bp with buckets := bp.buckets.set b ((n : Int) - (u : Int)) }
  else bp

/-- index.c:336-339: word zero of the table. -/
def bucketWord0 (bp : Bucket) : Int :=
  (INDEX_ID * 2 ^ 48 + bp.bb * 2 ^ 40 + bp.nrec : Nat)

/-- index.c:331-350 `bucket_write`: the bytes of the table. -/
def bucketBytes (bp : Bucket) : Bytes :=
  ((bp.buckets.set 0 (bucketWord0 bp)).map fun w => beEnc 8 (ofInt64 w)).flatten

/-- Cut a file into successive `k`-byte reads; the last one may be short. -/
def chunksAux (k : Nat) : Nat → Bytes → List Bytes
  | 0, _ => []
  | fuel + 1, l => if l = [] then [] else l.take k :: chunksAux k fuel (l.drop k)

def chunksOf (k : Nat) (l : Bytes) : List Bytes := chunksAux k l.length l

/-- `fread(rec, 32, 1, f)` until it returns 0 (index.c:513-516): complete records only. -/
def freadRecs (l : Bytes) : List Bytes := (chunksOf 32 l).filter (·.length = 32)

/-- index.c:264-278 `bucket_skip`: position of the first record. -/
def bucketSkip (f : Bytes) : Res Nat := do
  Res.check (8 ≤ f.length)
  let id := beDec (f.take 8)
  Res.check (id / 2 ^ 48 = INDEX_ID)
  return 2 ^ ((id / 2 ^ 40) % 256 + 3)

/-- index.c:352-386 `bucket_seek`: the byte position where the scan starts.
`nrec` is an `unsigned` in C, hence the `% 2^32`.  A negative target makes `fseeko(3)` fail
and `AZ` abort.  A shift count of 0 or a table of 2^60 buckets or more is lumped into `ub`;
`bucket_new` never writes such a table. -/
def bucketSeek (keyP : Bytes) (f : Bytes) : Res Nat := do
  Res.check (8 ≤ f.length)
  let id := beDec (f.take 8)
  Res.check (id / 2 ^ 48 = INDEX_ID)
  let nb := (id / 2 ^ 40) % 256
  let nrec := (id % 2 ^ 40) % 2 ^ 32
  Res.access (0 < nb && nb < 60)
  let frac := beDec (keyP.take 8)
  let bucket := frac / 2 ^ (64 - nb)
  if bucket > 0 then
    let frac := ((frac / 2 ^ 40) * nrec % 2 ^ 64) / 2 ^ 24
    Res.check (bucket * 8 + 8 ≤ f.length)
    let off := toInt64 (beDec ((f.drop (bucket * 8)).take 8))
    let pos := toInt64 (frac + ofInt64 off)
    Res.access (-(2 ^ 63 : Int) ≤ pos * 32 ∧ pos * 32 < 2 ^ 63)
    Res.check (0 ≤ pos)
    return pos.toNat * 32
  else
    return 2 ^ (nb + 3)

/-- The arguments of one callback of `IDX_Iter` (`idx_iter_f`, aardwarc.h). -/
structure Entry where
  key : Bytes
  flags : Nat
  silo : Nat
  off : Nat
  cont : Bytes
  deriving DecidableEq, Repr

/-- index.c:452-464: decode a record; `assert(off >= 0)`. -/
def decodeRec (rec : Bytes) : Res Entry := do
  let off := toInt64 (beDec ((rec.drop 20).take 8))
  Res.check (0 ≤ off)
  return { key := hexStr (rec.take 12)
           flags := beDec ((rec.drop 12).take 4)
           silo := beDec ((rec.drop 16).take 4)
           off := off.toNat
           cont := hexStr ((rec.drop 28).take 4) }

/-- index.c:436-467, the scan of one index file from the current position.  `cl` is the number
of significant digits, `f` the caller's callback with its private state. -/
def idxScan {σ : Type} (srt : Bool) (cl : Nat) (keyP : Bytes) (kp : Option Bytes)
    (f : σ → Entry → σ × Int) : List Bytes → σ → Res (σ × Int)
  | [], s => .ok (s, 0)
  | rec :: rest, s =>
    if rec.length ≠ 32 then .fail
    else
      let j := memcmp (rec.take (cl / 2)) (keyP.take (cl / 2))
      if cl ≥ 2 ∧ srt = true ∧ j = .gt then .ok (s, 0)
      else if cl ≥ 2 ∧ j ≠ .eq then idxScan srt cl keyP kp f rest s
      else if kp.isSome ∧ ¬ strncasecmpEq (hexStr (rec.take 12)) (kp.getD []) cl then
        idxScan srt cl keyP kp f rest s
      else
        match decodeRec rec with
        | .ok e =>
          let (s', i) := f s e
          if i = 0 then idxScan srt cl keyP kp f rest s' else .ok (s', i)
        | .fail => .fail
        | .ub => .ub

/-- index.c:428-471, the loop over the index files (index.c:393-401 gives the order and which
one is sorted); `i` is the running return value. -/
def idxFiles {σ : Type} (cl : Nat) (keyP : Bytes) (kp : Option Bytes)
    (f : σ → Entry → σ × Int) : List (Option Bytes × Bool) → Int → σ → Res (σ × Int)
  | [], i, s => .ok (s, i)
  | (none, _) :: rest, i, s => idxFiles cl keyP kp f rest i s
  | (some file, srt) :: rest, _, s => do
    let pos ← if srt then bucketSeek keyP file else Res.ok 0
    let (s', i) ← idxScan srt cl keyP kp f (chunksOf 32 (file.drop pos)) s
    if i ≠ 0 then return (s', i) else idxFiles cl keyP kp f rest i s'

/-- index.c:403-473 `IDX_Iter`.  Result: the callback's final state and the return value. -/
def idxIter {σ : Type} (d : Dir) (kp : Option Bytes) (f : σ → Entry → σ × Int) (s : σ) :
    Res (σ × Int) := do
  let k := kp.getD []
  Res.check (k.all isHex)
  let keyP ← idxKeyBin 12 k
  let cl := min k.length 24
  idxFiles cl keyP kp f [(d.sorted, true), (d.appendix, false), (d.housekeep, false)] (-1) s

/-- State of the merge loop: the table, the record counter and the records written. -/
structure MergeSt where
  bp : Bucket
  n : Nat
  out : List Bytes

/-- index.c:521-523, 532-534, 540-541: `bucket_update(bp, n++, r)` and `fwrite`. -/
def mergeEmit (st : MergeSt) (r : Bytes) : MergeSt :=
  { bp := bucketUpdate st.bp st.n r, n := st.n + 1, out := st.out ++ [r] }

/-- index.c:520-526: write buffered records smaller than `rec`. -/
def mergeBelow (rec : Bytes) : List Bytes → MergeSt → List Bytes × MergeSt
  | [], st => ([], st)
  | p :: ps, st => if memcmp rec p = .gt then mergeBelow rec ps (mergeEmit st p) else (p :: ps, st)

/-- index.c:527-530: skip buffered records equal to `rec`. -/
def mergeSkip (rec : Bytes) : List Bytes → List Bytes
  | [] => []
  | p :: ps => if memcmp rec p = .eq then mergeSkip rec ps else p :: ps

/-- index.c:512-535: the loop over the records of the old sorted file; `recl` is the previous
record. -/
def mergeOld : (old : List Bytes) → (recl : Bytes) → (ptr : List Bytes) → MergeSt →
    Res (List Bytes × MergeSt)
  | [], _, ptr, st => .ok (ptr, st)
  | rec :: old, recl, ptr, st =>
    if memcmp rec recl = .lt then .fail
    else
      let (ptr, st) := mergeBelow rec ptr st
      mergeOld old rec (mergeSkip rec ptr) (mergeEmit st rec)

/-- index.c:510-537: the part of the merge that reads the old sorted file, if there is one. -/
def mergeFile (old : Option Bytes) (ptr : List Bytes) (st : MergeSt) : Res (List Bytes × MergeSt) :=
  match old with
  | none => .ok (ptr, st)
  | some f => do
    let pos ← bucketSkip f
    mergeOld (freadRecs (f.drop pos)) (List.replicate 32 0) ptr st

/-- index.c:501-506: the estimate of the number of records; the table of the old file is counted
as well. -/
def mergeEstimate (old : Option Bytes) (ptr : List Bytes) : Nat :=
  ptr.length + (match old with | none => 0 | some f => f.length / 32)

/-- index.c:475-551 `idx_merge`: the content of the new sorted file, given the old one and the
sorted buffer.  The temporary file is invisible until the final `rename(2)`, see `Hk.lean` for
the crash points. -/
def idxMerge (old : Option Bytes) (ptr : List Bytes) : Res Bytes := do
  Res.check (0 < ptr.length)
  let bp ← bucketNew (mergeEstimate old ptr)
  let (ptr, st) ← mergeFile old ptr { bp := bp, n := 0, out := [] }
  let st := ptr.foldl mergeEmit st
  return bucketBytes st.bp ++ st.out.flatten

/-- index.c:553-557 `idx_cmp` and `qsort(3)` on 32-byte records: insertion into sorted order.
Records comparing equal are identical, so every sorting algorithm gives this result. -/
def recInsert (r : Bytes) : List Bytes → List Bytes
  | [] => [r]
  | x :: xs => if memcmp r x = .gt then x :: recInsert r xs else r :: x :: xs

def qsortRecs : List Bytes → List Bytes
  | [] => []
  | r :: rs => recInsert r (qsortRecs rs)

/-- index.c:592-609: read the snapshot in chunks of `index_sort_size`, sort and merge each. -/
def mergeChunks : List Bytes → Option Bytes → Res (Option Bytes)
  | [], old => .ok old
  | c :: cs, old => do
    Res.check (c.length % 32 = 0)
    let f ← idxMerge old (qsortRecs (chunksOf 32 c))
    mergeChunks cs (some f)

/-- index.c:559-614 `idx_attempt_merge`.  `link(2)` looks up the old name first, so a missing
appendix gives ENOENT even if a snapshot exists.  I/O errors are not modelled. -/
def attemptMerge (sortSize : Nat) (d : Dir) : Res (Dir × Int) :=
  match d.appendix with
  | none => .ok (d, 0)
  | some a =>
    let (d, hk, ret) : Dir × Bytes × Int := match d.housekeep with
      | none => ({ d with appendix := none, housekeep := some a }, a, 0)
      | some h => (d, h, 1)
    do
      let s ← mergeChunks (chunksOf sortSize hk) d.sorted
      return ({ d with sorted := s, housekeep := none }, ret)

/-- index.c:643-645: `while (idx_attempt_merge(...) > 0)`.  Running out of fuel is reported as
`fail`; the theorems show that it does not happen with fuel 2. -/
def resortLoop (sortSize : Nat) : Nat → Dir → Res Dir
  | 0, _ => .fail
  | fuel + 1, d => do
    let (d, r) ← attemptMerge sortSize d
    if r > 0 then resortLoop sortSize fuel d else return d

/-- index.c:616-653 `IDX_Resort`. -/
def idxResort (sortSize : Nat) (d : Dir) : Res Dir :=
  if d.hold then .ok d
  else do
    let d ← resortLoop sortSize 2 { d with hold := true }
    return { d with hold := false }

end Verif.Index
