/-
Model of /repo/ident.c: record identities.
-/
import Verif.Model.Header
import Verif.Model.ValidId

namespace Verif.Ident
open Verif Header Index

/-- ident.c:73-80: what is hashed for a metadata record. -/
def metaInput (ref digest : Bytes) : Bytes := ref ++ b!"\n" ++ digest ++ b!"\n"

/-- ident.c:44-81 `Ident_Create`.  `sha` is SHA256 as 64 hex digits; the digest is copied and cut to
`idSize`. -/
def identCreate (sha : Bytes → Bytes) (idSize : Nat) (h : Hdr) (digest : Bytes) : Res Bytes :=
  match headerGet h b!"WARC-Type" with
  | none => .fail
  | some typ =>
    if typ = b!"resource" then .ok (digest.take idSize)
    else if typ = b!"continuation" then .ok (digest.take idSize)
    else if typ = b!"warcinfo" then .ok (digest.take idSize)
    else if typ = b!"metadata" then
      match headerGet h b!"WARC-Refers-To" with
      | none => .fail
      | some ref => .ok ((sha (metaInput ref digest)).take idSize)
    else .fail

/-- The ID passes `IDX_Valid_Id`. -/
def validId (pfx : Bytes) (idSize : Nat) (id : Bytes) : Bool :=
  match idxValidId pfx idSize id with
  | .ok _ => true
  | .error _ => false

/-- ident.c:83-97 `Ident_Set`. -/
def identSet (sha : Bytes → Bytes) (pfx : Bytes) (idSize : Nat) (h : Hdr) (digest : Bytes) (input : Option Bytes) : Res Hdr :=
  match input with
  | none => do
    let id ← identCreate sha idSize h digest
    headerSetId idSize h id
  | some i => do
    Res.check (validId pfx idSize i)
    headerSetId idSize h i

/-- ident.c:99-117 `Digest2Ident`. -/
def digest2Ident (pfx : Bytes) (idSize : Nat) (digest : Bytes) : Res Bytes := do
  Res.check (validId pfx idSize (pfx ++ digest))
  return pfx ++ digest

end Verif.Ident
