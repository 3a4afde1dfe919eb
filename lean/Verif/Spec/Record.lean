/-
Specification: what a WARC record in a silo is.
-/
import Verif.Spec.Segment
import Verif.Model.Header

namespace Verif
open Inflate Header

/-- A record: the text of the header block, the contents, and the two gzip members that hold them. -/
structure Rec where
  text : Bytes
  data : Bytes
  hgz : Bytes
  bgz : Bytes

/-- The gzip member with the line ends that follow each record (gzip.c:141-145). -/
def separator : Bytes :=
  [0x1f, 0x8b, 0x08, 0x00, 0x20, 0x01, 0x19, 0x66, 0x02, 0x03, 0xe3, 0xe5, 0xe2, 0xe5, 0x02, 0x00,
   0x44, 0x15, 0xc2, 0x8b, 0x04, 0x00, 0x00, 0x00]

/-- The bytes of a record in a silo. -/
def Rec.bytes (r : Rec) : Bytes := r.hgz ++ r.bgz ++ separator

/-- A complete record with header `h`. -/
structure Rec.Complete (pfx : Bytes) (r : Rec) (h : Hdr) : Prop where
  head : Member r.hgz r.text
  body : Member r.bgz r.data
  parse : headerParse pfx r.text = .ok h
  nonul : (0 : UInt8) ∉ r.text

/-- The header block fits in a page, plain and compressed, with the start of the body behind it. -/
structure Rec.Fits (ps : Nat) (r : Rec) : Prop where
  plain : r.text.length ≤ ps
  packed : r.hgz.length + 24 ≤ ps

/-- Where each of the records starts, if the first one starts at `off`. -/
def offsets : Nat → List Rec → List Nat
  | _, [] => []
  | off, r :: rs => off :: offsets (off + r.bytes.length) rs

/-- The bytes of a silo. -/
def siloBytes (rs : List Rec) : Bytes := (rs.map Rec.bytes).flatten

end Verif
