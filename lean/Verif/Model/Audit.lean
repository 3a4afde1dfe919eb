/-
Model of /repo/main_audit.c: checking the records of silos against their headers.
-/
import Verif.Model.Rsilo
import Verif.Model.Ident
import Verif.Model.Commit

namespace Verif.Audit
open Verif Header Rsilo Ident
open _root_.Verif.Commit (Silo)

/-- The messages that count as errors. -/
inductive Msg where
  | missing (name : Bytes)
  | differs (name : Bytes)
  | notSha (name : Bytes)
  | gzLength
  | badNumber
  | ident
  deriving DecidableEq, Repr

/-- main_audit.c:45-62 `struct audit`.  `content` is what went into the SHA256 context, so `sz` is its length. -/
structure Ap where
  silo : Nat
  o0 : Nat
  o1 : Nat
  o2 : Nat
  bodylen : Int
  hdr : Hdr
  content : Bytes
  segment : Int
  deriving DecidableEq, Repr

/-- main_audit.c:69-83 `audit_check_header`. -/
def checkHeader (h : Hdr) (name expect : Bytes) : List Msg :=
  match headerGet h name with
  | none => [.missing name]
  | some is => if expect = is then [] else [.differs name]

/-- main_audit.c:85-101 `audit_check_digest_header`: `memcmp` looks at 7 bytes, also if there are not that many. -/
def checkDigest (h : Hdr) (name expect : Bytes) : Res (List Msg) :=
  match headerGet h name with
  | none => .ok [.missing name]
  | some is => do
    Res.access (7 ≤ is.length + 1)
    if is.take 7 ≠ b!"sha256:" then return [.notSha name]
    else if is.drop 7 = expect then return [] else return [.differs name]

/-- The value of a digit for `strtoul`. -/
def digitVal (c : UInt8) : Option Nat :=
  if 48 ≤ c ∧ c ≤ 57 then some (c.toNat - 48)
  else if 97 ≤ c ∧ c ≤ 122 then some (c.toNat - 87)
  else if 65 ≤ c ∧ c ≤ 90 then some (c.toNat - 55)
  else none

/-- The digits of a number: its value, and what follows. -/
def ulDigits (base : Nat) : Bytes → Nat → Nat × Bytes
  | [], v => (v, [])
  | c :: cs, v =>
    match digitVal c with
    | none => (v, c :: cs)
    | some d => if d < base then ulDigits base cs (v * base + d) else (v, c :: cs)

def skipWs : Bytes → Bytes
  | [] => []
  | c :: cs => if isSpace c then skipWs cs else c :: cs

/-- The sign, if there is one: whether it is a minus, and what follows. -/
def sign : Bytes → Bool × Bytes
  | 45 :: cs => (true, cs)
  | 43 :: cs => (false, cs)
  | cs => (false, cs)

/-- The base the text asks for with `0x` or `0`, and the digits. -/
def ulBase : Bytes → Nat × Bytes
  | 48 :: x :: d :: cs =>
    if (x = 120 ∨ x = 88) ∧ (match digitVal d with | some v => decide (v < 16) | none => false) = true then (16, d :: cs) else (8, 48 :: x :: d :: cs)
  | 48 :: cs => (8, 48 :: cs)
  | cs => (10, cs)

/-- `strtoul(t, &p, 0)` with 64 bits: the value and the text at `p`; `none` if there is no number, then `p == t`. -/
def strtoul0 (t : Bytes) : Option (Nat × Bytes) :=
  let s := sign (skipWs t)
  let b := ulBase s.2
  let r := ulDigits b.1 b.2 0
  if r.2.length = b.2.length then none
  else if r.1 ≥ 2 ^ 64 then some (2 ^ 64 - 1, r.2)
  else if s.1 then some ((2 ^ 64 - r.1) % 2 ^ 64, r.2) else some (r.1, r.2)

/-- An `unsigned long` assigned to an `int`. -/
def toInt (n : Nat) : Int := if n % 2 ^ 32 < 2 ^ 31 then (n % 2 ^ 32 : Nat) else (n % 2 ^ 32 : Nat) - 2 ^ 32

/-- main_audit.c:295-297: the segment number and the message. -/
def segNumber (is : Bytes) : Int × List Msg :=
  match strtoul0 is with
  | none => (0, [.badNumber])
  | some (v, r) => (toInt v, if r = [] then [] else [.badNumber])

/-- main_audit.c:244-267 `audit_check_ident`; `ign` is the option to ignore the IDs of metadata records. -/
def checkIdent (sha : Bytes → Bytes) (idSize : Nat) (ign : Bool) (h : Hdr) (dig : Bytes) : Res (List Msg) :=
  match headerGet h b!"WARC-Type" with
  | none => .fail
  | some typ =>
    if typ = b!"metadata" ∧ ign = true then .ok []
    else do
      let id ← identCreate sha idSize h dig
      if h.id = id then return [] else return [.ident]

/-- main_audit.c:269-304 `audit_one`: the messages, and the segment number if it is a segment. -/
def auditOne (sha : Bytes → Bytes) (idSize : Nat) (ign : Bool) (ap : Ap) : Res (List Msg × Option Int) := do
  let dig := sha ap.content
  let m1 ← checkDigest ap.hdr b!"WARC-Block-Digest" dig
  let m2 := checkHeader ap.hdr b!"Content-Length" (dec ap.content.length)
  let m3 := if ap.bodylen ≠ (ap.o2 : Int) - ap.o1 then [Msg.gzLength] else []
  match headerGet ap.hdr b!"WARC-Segment-Number" with
  | none => do
    let m5 ← checkIdent sha idSize ign ap.hdr dig
    return (m1 ++ m2 ++ m3 ++ m5, none)
  | some is => do
    let m5 ← (if is = b!"1" then Res.ok [] else checkIdent sha idSize ign ap.hdr dig)
    return (m1 ++ m2 ++ m3 ++ (segNumber is).2 ++ m5, some (segNumber is).1)

/-- `audit_iter` (main_audit.c:103-112). -/
def auditIter : ByteIter Bytes := fun s d => pure (s ++ d, 0)

/-- main_audit.c:327-368: the records of a silo, with the messages for each; the loop is cut after `fuel` rounds. -/
def auditLoop (ps : Nat) (pfx : Bytes) (cut : Bytes → List Bytes) (sha : Bytes → Bytes) (idSize : Nat) (ign : Bool) (silo : Nat) :
    (fuel : Nat) → Rs → Res (List (Ap × List Msg × Option Int))
  | 0, _ => .fail
  | fuel + 1, rs => do
    let r ← readHeader ps pfx rs
    match r.1 with
    | none => pure []
    | some h => do
      let bl ← bodyLen r.2
      let b ← readChunk cut auditIter r.2 []
      let rs2 ← skipCRNL b.2.1
      let ap : Ap := { silo := silo, o0 := rs.pos, o1 := r.2.pos, o2 := b.2.1.pos, bodylen := bl, hdr := h, content := b.1, segment := 0 }
      let q ← auditOne sha idSize ign ap
      let l ← auditLoop ps pfx cut sha idSize ign silo fuel rs2
      pure (({ ap with segment := q.2.getD 0 }, q.1, q.2) :: l)

/-- main_audit.c:306-376 `audit_silo` of an existing silo. -/
def auditSilo (ps : Nat) (pfx : Bytes) (cut : Bytes → List Bytes) (sha : Bytes → Bytes) (idSize : Nat) (ign : Bool) (silo : Nat) (fuel : Nat) (file : Bytes) :
    Res (List (Ap × List Msg × Option Int)) :=
  auditLoop ps pfx cut sha idSize ign silo fuel (rsOpen file 0)

/-- main_audit.c:293: what is put on `segment_list`. -/
def pendingOf (l : List (Ap × List Msg × Option Int)) : List Ap := (l.filter (·.2.2.isSome)).map (·.1)

/-! ### Segmented objects -/

/-- main_audit.c:138-153 `audit_add_one_segment`: the contents of the segment, read again. -/
def addSegment (ps : Nat) (pfx : Bytes) (cut : Bytes → List Bytes) (silos : Nat → Option Silo) (acc : Bytes) (ap : Ap) : Res Bytes :=
  match silos ap.silo with
  | none => .fail
  | some f => do
    let r ← readHeader ps pfx (rsOpen f.data ap.o0)
    let b ← readChunk cut auditIter r.2 acc
    Res.check (b.2.1.pos = ap.o2)
    return b.1

/-- main_audit.c:206-220: is `apn` the segment after number `seg` of the object `oid`?  `memcmp` looks at as many bytes
as the prefix has. -/
def isNext (pfx oid : Bytes) (seg : Int) (apn : Ap) : Res Bool :=
  if apn.segment ≠ seg + 1 then .ok false
  else
    match headerGet apn.hdr b!"WARC-Segment-Origin-ID" with
    | none => .ok false
    | some [] => .ok false
    | some (c :: o) =>
      if c ≠ 60 then .ok false
      else do
        Res.access (pfx.length ≤ o.length + 1)
        return decide (o.take pfx.length = pfx ∧ (o.drop pfx.length).take oid.length = oid ∧ ((o.drop pfx.length).drop oid.length).head? = some 62)

/-- One pass over the list ended: with the last segment `fin`, or at the end of the list.  `acc` is the payload so far,
`last` the last segment found, `rest` the list without the segments found. -/
structure Pass where
  fin : Bool
  found : Bool
  last : Ap
  acc : Bytes
  rest : List Ap

/-- main_audit.c:204-237: one pass; `kept` are the elements in front of the current one. -/
def pass (ps : Nat) (pfx : Bytes) (cut : Bytes → List Bytes) (silos : Nat → Option Silo) (oid : Bytes) :
    (todo kept : List Ap) → (ap : Ap) → (acc : Bytes) → (found : Bool) → Res Pass
  | [], kept, ap, acc, found => .ok { fin := false, found := found, last := ap, acc := acc, rest := kept }
  | apn :: todo, kept, ap, acc, found => do
    let m ← isNext pfx oid ap.segment apn
    if m = false then pass ps pfx cut silos oid todo (kept ++ [apn]) ap acc found
    else do
      let acc ← addSegment ps pfx cut silos acc apn
      if (headerGet apn.hdr b!"WARC-Segment-Total-Length").isSome then
        return { fin := true, found := true, last := apn, acc := acc, rest := kept ++ todo }
      else pass ps pfx cut silos oid todo kept apn acc true

/-- main_audit.c:155-177 `audit_final_pending`. -/
def finalMsgs (sha : Bytes → Bytes) (idSize : Nat) (ap0 apn : Ap) (payload : Bytes) : Res (List Msg) := do
  let m1 := checkHeader apn.hdr b!"WARC-Segment-Total-Length" (dec payload.length)
  let m2 ← checkDigest ap0.hdr b!"WARC-Payload-Digest" (sha payload)
  let id ← identCreate sha idSize ap0.hdr (sha payload)
  return m1 ++ m2 ++ (if id = ap0.hdr.id then [] else [.ident])

/-- What `audit_one_pending` found: nothing to do, an object with the messages for it, or a missing segment. -/
inductive Pend where
  | nothing
  | object (msgs : List Msg) (rest : List Ap)
  | missing (rest : List Ap)
  deriving DecidableEq, Repr

/-- main_audit.c:202-238: passes over the list until one finds something; `none` if it is not done after `fuel` passes. -/
def passes (ps : Nat) (pfx : Bytes) (cut : Bytes → List Bytes) (sha : Bytes → Bytes) (idSize : Nat) (silos : Nat → Option Silo) (ap0 : Ap) :
    (fuel : Nat) → List Ap → Ap → Bytes → Res (Option Pend)
  | 0, _, _, _ => .ok none
  | fuel + 1, l, ap, acc => do
    let p ← pass ps pfx cut silos ap0.hdr.id l [] ap acc false
    if p.fin then do
      let ms ← finalMsgs sha idSize ap0 p.last p.acc
      return some (.object ms p.rest)
    else if p.found = false then passes ps pfx cut sha idSize silos ap0 fuel p.rest p.last p.acc
    else return some (.missing p.rest)

/-- main_audit.c:186-193: the first element with segment number 1, and the others. -/
def takeFirst : List Ap → Option (Ap × List Ap)
  | [] => none
  | a :: l => if a.segment = 1 then some (a, l) else (takeFirst l).map fun r => (r.1, a :: r.2)

/-- main_audit.c:179-242 `audit_one_pending`. -/
def onePending (ps : Nat) (pfx : Bytes) (cut : Bytes → List Bytes) (sha : Bytes → Bytes) (idSize : Nat) (silos : Nat → Option Silo) (fuel : Nat) (l : List Ap) :
    Res (Option Pend) :=
  match takeFirst l with
  | none => .ok (some .nothing)
  | some (ap0, rest) => do
    let acc ← addSegment ps pfx cut silos [] ap0
    passes ps pfx cut sha idSize silos ap0 fuel rest ap0 acc

/-- main_audit.c:433-438: all objects; the messages, and what is left on the list.  `none` if it does not end within `fuel`
rounds. -/
def allPending (ps : Nat) (pfx : Bytes) (cut : Bytes → List Bytes) (sha : Bytes → Bytes) (idSize : Nat) (silos : Nat → Option Silo) :
    (fuel : Nat) → List Ap → Res (Option (List Pend × List Ap))
  | 0, _ => .ok none
  | fuel + 1, l => do
    let p ← onePending ps pfx cut sha idSize silos (fuel + 1) l
    match p with
    | none => return none
    | some .nothing => return some ([], l)
    | some (.missing rest) => return some ([.missing rest], rest)
    | some (.object ms rest) => do
      let r ← allPending ps pfx cut sha idSize silos fuel rest
      return r.map fun x => (.object ms rest :: x.1, x.2)

/-- main_audit.c:421-424: the silos from number `i` on, up to the first that is not there; `lf` bounds the records of a silo. -/
def auditSilos (ps : Nat) (pfx : Bytes) (cut : Bytes → List Bytes) (sha : Bytes → Bytes) (idSize : Nat) (ign : Bool) (silos : Nat → Option Silo) (lf : Nat) :
    (fuel i : Nat) → Res (List (Ap × List Msg × Option Int))
  | 0, _ => .fail
  | fuel + 1, i =>
    match silos i with
    | none => .ok []
    | some f => do
      let a ← auditSilo ps pfx cut sha idSize ign i lf f.data
      let r ← auditSilos ps pfx cut sha idSize ign silos lf fuel (i + 1)
      return a ++ r

/-- main_audit.c:392-444 `main_audit` without arguments: the records with the messages for each, what is said about the
segmented objects, and the segments that are listed as left over.  `none` if it does not end. -/
def mainAudit (ps : Nat) (pfx : Bytes) (cut : Bytes → List Bytes) (sha : Bytes → Bytes) (idSize : Nat) (ign : Bool) (silos : Nat → Option Silo) (fuel : Nat) :
    Res (Option (List (Ap × List Msg × Option Int) × List Pend × List Ap)) := do
  let l ← auditSilos ps pfx cut sha idSize ign silos fuel fuel 0
  let p ← allPending ps pfx cut sha idSize silos fuel (pendingOf l)
  return p.map fun x => (l, x.1, x.2)

end Verif.Audit
