/-
Specification of the index: what a user inserts, and what a lookup should report.
Only the `Entry` record (the arguments of the lookup callback) is shared with the model.
-/
import Verif.Model.Index

namespace Verif.Spec
open Verif Verif.Index

/-- One call of the insert API. -/
structure Ins where
  id : Bytes
  flags : Nat
  silo : Nat
  off : Nat
  cont : Option Bytes
  deriving DecidableEq, Repr

/-- The arguments are in range: hex IDs, 32-bit flags and silo, non-negative 64-bit offset. -/
def Ins.Valid (i : Ins) : Prop :=
  (∀ c ∈ i.id, isHex c) ∧ i.flags < 2 ^ 32 ∧ i.silo < 2 ^ 32 ∧ i.off < 2 ^ 63 ∧
  (∀ k, i.cont = some k → ∀ c ∈ k, isHex c)

/-- The first `n` digits in lower case, filled up with '0'. -/
def padKey (n : Nat) (id : Bytes) : Bytes :=
  let k := (id.map toLower).take n
  k ++ List.replicate (n - k.length) 48

/-- What the index should report for an insert. -/
def Ins.entry (i : Ins) : Entry :=
  { key := padKey 24 i.id, flags := i.flags, silo := i.silo, off := i.off,
    cont := padKey 8 (i.cont.getD []) }

/-- `e` is a match for the looked-up prefix `k` (only 24 digits are significant). -/
def Matches (k : Bytes) (e : Entry) : Bool := ((k.map toLower).take 24).isPrefixOf e.key

/-- Deliver entries to a callback until it returns non-zero. -/
def deliver {σ : Type} (f : σ → Entry → σ × Int) : List Entry → σ → σ × Int
  | [], s => (s, 0)
  | e :: es, s => if (f s e).2 = 0 then deliver f es (f s e).1 else f s e

/-- Insert a list of entries, one after the other, with the modelled API. -/
def insertAll : Dir → List Ins → Res Dir
  | d, [] => .ok d
  | d, i :: is => do
    let d ← idxInsert d i.id i.flags i.silo i.off i.cont
    insertAll d is

/-- A callback that collects everything and never stops. -/
def collect (s : List Entry) (e : Entry) : List Entry × Int := (s ++ [e], 0)

/-- Any sequence of inserts and housekeeping runs (with any permitted sort size). -/
inductive IdxOp where
  | insert (i : Ins)
  | housekeep (sortSize : Nat)

def IdxOp.Valid : IdxOp → Prop
  | .insert i => i.Valid
  | .housekeep n => n % 32 = 0 ∧ 0 < n

/-- Run a sequence of index operations. -/
def runOps : Dir → List IdxOp → Res Dir
  | d, [] => .ok d
  | d, .insert i :: os => do
    let d ← idxInsert d i.id i.flags i.silo i.off i.cont
    runOps d os
  | d, .housekeep n :: os => do
    let d ← idxResort n d
    runOps d os

/-- The inserts of a history. -/
def inserts : List IdxOp → List Ins
  | [] => []
  | .insert i :: os => i :: inserts os
  | .housekeep _ :: os => inserts os

/-- The number written by hex digits. -/
def hexVal (l : Bytes) : Nat :=
  l.foldl (fun n c => n * 16 + (if c < 58 then c.toNat - 48 else (toLower c).toNat - 87)) 0

/-- The leading 64 bits of an ID given in hex. -/
def idKey (id : Bytes) : Nat := hexVal (padKey 16 id)

/-- Interpolated record number of a key with leading 64 bits `k` among `nrec` records. -/
def predicted (nrec k : Nat) : Nat := k / 2 ^ 40 * nrec / 2 ^ 24

/-- A sorted index file starts with a table of `2 ^ tblBits` eight-byte slots.  The first slot has
the number of bits in byte 2 and the estimated number of records in bytes 3 to 7. -/
def tblBits (F : Bytes) : Nat := (F.getD 2 0).toNat
def tblNrec (F : Bytes) : Nat := beDec ((F.drop 3).take 5)

/-- Bytes `32 j` to `32 j + 31` of a file. -/
def row (F : Bytes) (j : Nat) : Bytes := (F.drop (32 * j)).take 32

/-- Leading 64 bits of the `i`th record behind the table of a sorted file. -/
def recKey (F : Bytes) (i : Nat) : Nat := beDec ((row F (2 ^ (tblBits F - 2) + i)).take 8)

/-- Number of records behind the table. -/
def numRecs (F : Bytes) : Nat := F.length / 32 - 2 ^ (tblBits F - 2)

/-- The condition under which the interpolation search of the sorted file `F` for the prefix `k` of
an ID works.  Either the key belongs to slot zero, or there is a row `p` of the file which is not
behind the extrapolated start row of the search, such that all rows of the table from `p` on sort
before the key. -/
def SeekSafe (F : Bytes) (k : Bytes) : Prop :=
  idKey k / 2 ^ (64 - tblBits F) = 0 ∨
  ∃ p : Nat,
    (∀ i, i < numRecs F →
      recKey F i / 2 ^ (64 - tblBits F) = idKey k / 2 ^ (64 - tblBits F) →
      predicted (tblNrec F) (recKey F i) + p ≤ predicted (tblNrec F) (idKey k) + i) ∧
    (∀ j, p ≤ j → j < 2 ^ (tblBits F - 2) →
      beDec ((row F j).take (min k.length 24 / 2)) < hexVal (k.take (2 * (min k.length 24 / 2))))

end Verif.Spec
