/-
Specification: an archive as records that are in silos and in the index.
-/
import Verif.Spec.Record
import Verif.Spec.Index
import Verif.Model.Commit

namespace Verif.Spec
open Verif Header Index

/-- A record of the archive: what the index says about it, the record, and its header. -/
structure Item where
  entry : Entry
  record : Rec
  hdr : Hdr

/-- The record is in the silo the index entry names, at the offset it names, complete, and its header fits
a page. -/
def Item.At (ps : Nat) (pfx : Bytes) (silos : Nat → Option Commit.Silo) (x : Item) : Prop :=
  (∃ f pre post, silos x.entry.silo = some f ∧ f.data = pre ++ x.record.bytes ++ post ∧ pre.length = x.entry.off) ∧
  x.record.Complete pfx x.hdr ∧ x.record.Fits ps

/-- Looking up the prefix `k` in the index finds exactly the items whose keys start with `k`, in some order. -/
def Finds (d : Dir) (A : List Item) (k : Bytes) : Prop :=
  ∃ es : List Entry, (∀ e, e ∈ es ↔ Matches k e = true ∧ ∃ x ∈ A, x.entry = e) ∧
    ∀ (σ : Type) (f : σ → Entry → σ × Int) (s : σ),
      ∃ r, idxIter d (some k) f s = .ok r ∧ r.1 = (deliver f es s).1 ∧ (0 < r.2 ↔ 0 < (deliver f es s).2)

/-- Equal up to letter case. -/
def SameId (a b : Bytes) : Prop := a.map toLower = b.map toLower

instance (a b : Bytes) : Decidable (SameId a b) := by unfold SameId; infer_instance

/-- The bits of the index flags (aardwarc.h:162-169). -/
def flagBit (b : Nat) (fl : Nat) : Bool := fl / 2 ^ b % 2 == 1
def FlWarcinfo (fl : Nat) : Bool := flagBit 1 fl
def FlSegmented (fl : Nat) : Bool := flagBit 4 fl
def FlFirst (fl : Nat) : Bool := flagBit 5 fl
def FlLast (fl : Nat) : Bool := flagBit 6 fl

/-- The header names `id` as the first segment's ID. -/
def HasOrigin (pfx : Bytes) (h : Hdr) (id : Bytes) : Prop :=
  headerGet h b!"WARC-Segment-Origin-ID" = some (b!"<" ++ pfx ++ id ++ b!">")

end Verif.Spec
