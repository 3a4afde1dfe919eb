/-
Model of /repo/getjob.c: finding and reading stored objects.
-/
import Verif.Model.Rsilo
import Verif.Model.Wsilo

namespace Verif.Getjob
open Verif Header Index Rsilo Gzip Wsilo

/-- The error texts of getjob.c. -/
inductive GErr where
  | badId (e : IdErr)
  | notFound
  | isWarcinfo
  | isContinuation
  | outOfOrder
  deriving DecidableEq, Repr

/-- getjob.c:42-53 `struct getjobseg`. -/
structure GSeg where
  rs : Rs
  hdr : Hdr
  flag : Nat
  cont : Bytes
  segno : Nat
  deriving DecidableEq, Repr

/-- getjob.c:58-68 `struct getjob`. -/
structure GJ where
  id : Bytes
  err : GErr
  segs : List GSeg
  deriving DecidableEq, Repr

/-- aardwarc.h:162-169: the bits of the index flags. -/
def isWarcinfo (fl : Nat) : Bool := fl.testBit 1
def isSegmented (fl : Nat) : Bool := fl.testBit 4
def isFirstseg (fl : Nat) : Bool := fl.testBit 5
def isLastseg (fl : Nat) : Bool := fl.testBit 6

/-- getjob.c:85-88: open the silo and read the header. -/
def openRec (ps : Nat) (pfx : Bytes) (w : World) (silo off : Nat) : Res (Hdr × Rs) :=
  match w.silos silo with
  | none => .fail
  | some f => do
    let r ← readHeader ps pfx (rsOpen f.data off)
    match r.1 with
    | none => .fail
    | some h => .ok (h, r.2)

/-- getjob.c:111-119: the origin ID of a continuation segment must have the form `<prefix id>`; what follows
the prefix is compared with the ID, ignoring case. -/
def originIs (pfx : Bytes) (idSize : Nat) (id : Bytes) (h : Hdr) : Res Bool :=
  match headerGet h b!"WARC-Segment-Origin-ID" with
  | none => .fail
  | some p => do
    let q ← expect 60 p
    Res.check (q.take pfx.length = pfx)
    let q := q.drop pfx.length
    Res.access (idSize ≤ q.length)
    Res.check (q.drop idSize = [62])
    return strncasecmpEq q id idSize

/-- The outcome of the callback for one entry: go on with the next one, stop with an error, or take it. -/
inductive Verdict where
  | skip
  | error (e : GErr)
  | take (s : GSeg)
  deriving DecidableEq, Repr

/-- getjob.c:97-109: looking for the first segment. -/
def firstVerdict (id : Bytes) (e : Entry) (h : Hdr) (rs : Rs) : Verdict :=
  if strcasecmp h.id id ≠ .eq then .skip
  else if isSegmented e.flags ∧ isFirstseg e.flags = false then .error .isContinuation
  else .take { rs := rs, hdr := h, flag := e.flags, cont := e.cont, segno := 1 }

/-- getjob.c:110-139: looking for the segment after `last`.  `segno` is an `unsigned`. -/
def nextVerdict (pfx : Bytes) (idSize : Nat) (id : Bytes) (last : GSeg) (e : Entry) (h : Hdr) (rs : Rs) : Res Verdict := do
  let m ← originIs pfx idSize id h
  if m = false then return .skip
  else do
    let im ← headerGetNumber h b!"WARC-Segment-Number"
    Res.check (0 ≤ im)
    let segno := im.toNat % 2 ^ 32
    if segno ≠ (last.segno + 1) % 2 ^ 32 then return .error .outOfOrder
    else return .take { rs := rs, hdr := h, flag := e.flags, cont := e.cont, segno := segno }

/-- getjob.c:70-153 `getjob_iter` up to the bookkeeping. -/
def verdict (ps : Nat) (pfx : Bytes) (idSize : Nat) (w : World) (gj : GJ) (e : Entry) : Res Verdict := do
  let r ← openRec ps pfx w e.silo e.off
  if isWarcinfo e.flags ∧ strcasecmp r.1.id gj.id = .eq then return .error .isWarcinfo
  else
    match gj.segs.getLast? with
    | none => return firstVerdict gj.id e r.1 r.2
    | some last => nextVerdict pfx idSize gj.id last e r.1 r.2

/-- getjob.c:70-153: an assertion failure ends the iteration, too. -/
def getjobIter (ps : Nat) (pfx : Bytes) (idSize : Nat) (w : World) : Res GJ → Entry → Res GJ × Int
  | .ok gj, e =>
    match verdict ps pfx idSize w gj e with
    | .ok .skip => (.ok gj, 0)
    | .ok (.error er) => (.ok { gj with err := er }, -1)
    | .ok (.take s) => (.ok { gj with segs := gj.segs ++ [s] }, 1)
    | .fail => (.fail, 1)
    | .ub => (.ub, 1)
  | r, _ => (r, 1)

/-- Result of `GetJob_New`: the job, or the error text. -/
inductive Got where
  | job (gj : GJ)
  | error (e : GErr)
  deriving DecidableEq, Repr

/-- getjob.c:215-221: the checks on an unsegmented object. -/
def plainOk (gj : GJ) (s : GSeg) : Bool :=
  !isFirstseg s.flag && !isLastseg s.flag && decide (s.cont = b!"00000000") && decide (gj.segs.length = 1)

/-- getjob.c:202-225: the loop; it is cut after `fuel` rounds. -/
def getLoop (ps : Nat) (pfx : Bytes) (idSize : Nat) (w : World) : (fuel : Nat) → (nid : Bytes) → GJ → Res Got
  | 0, _, _ => .fail
  | fuel + 1, nid, gj => do
    let r ← idxIter w.dir (some nid) (getjobIter ps pfx idSize w) (.ok gj)
    let gj ← r.1
    if r.2 ≤ 0 then return .error gj.err
    else
      match gj.segs.getLast? with
      | none => .fail
      | some s => do
        Res.check (!isWarcinfo s.flag)
        if isSegmented s.flag = false then do
          Res.check (plainOk gj s)
          return .job gj
        else if isLastseg s.flag then return .job gj
        else getLoop ps pfx idSize w fuel s.cont gj

/-- getjob.c:180-227 `GetJob_New`. -/
def getjobNew (ps : Nat) (pfx : Bytes) (idSize : Nat) (fuel : Nat) (w : World) (id : Bytes) : Res Got :=
  match idxValidId pfx idSize id with
  | .error e => .ok (.error (.badId e))
  | .ok nid => getLoop ps pfx idSize w fuel nid { id := nid, err := .notFound, segs := [] }

/-- getjob.c:251-254: the segments in turn, until the callback is not content.  `cut` as for `readChunk`. -/
def iterPlain {σ : Type} (cut : Bytes → List Bytes) (func : ByteIter σ) : List GSeg → σ → Res σ
  | [], s => .ok s
  | g :: gs, s => do
    let r ← readChunk cut func g.rs s
    if r.2.2 = 0 then return r.1 else iterPlain cut func gs r.1

/-- `gzip_stitch_feed` as a callback of `Rsilo_ReadGZChunk`. -/
def stitchIter {σ : Type} (func : σ → Bytes → σ × Int) : ByteIter (Stitch σ) := fun gs d => do
  let g ← stitchFeed func gs d
  return (g, g.retval)

/-- getjob.c:260-262. -/
def iterStitch {σ : Type} (ps : Nat) (func : σ → Bytes → σ × Int) : List GSeg → Stitch σ → Res (Stitch σ)
  | [], s => .ok s
  | g :: gs, s => do
    let r ← readGZChunk ps (stitchIter func) g.rs s
    if r.2.2 = 0 then return r.1 else iterStitch ps func gs r.1

/-- getjob.c:243-265 `GetJob_Iter`; the callback cannot fail. -/
def getjobIterate {σ : Type} (ps : Nat) (cut : Bytes → List Bytes) (gj : GJ) (func : σ → Bytes → σ × Int) (s : σ) (gzip : Bool) : Res σ :=
  if gzip = false then iterPlain cut (fun s d => .ok (func s d)) gj.segs s
  else
    match gj.segs with
    | [g] => do
      let r ← readGZChunk ps (fun s d => .ok (func s d)) g.rs s
      return r.1
    | gs => do
      let st ← iterStitch ps func gs (stitchNew func s)
      return (stitchFini func st).1

/-- getjob.c:277-284: the sum. -/
def sumLen (gzip : Bool) : List GSeg → Res Int
  | [] => .ok 0
  | g :: gs => do
    let im ← (if gzip then bodyLen g.rs else headerGetNumber g.hdr b!"Content-Length")
    Res.check (0 < im)
    let r ← sumLen gzip gs
    return im + r

/-- getjob.c:267-286 `GetJob_TotalLength`; overflow of `off_t` is not modelled. -/
def totalLength (gj : GJ) (gzip : Bool) : Res Int := sumLen gzip gj.segs

/-- getjob.c:288-299 `GetJob_IsSegmented`. -/
def gjIsSegmented (gj : GJ) : Bool := decide (1 < gj.segs.length)

/-- getjob.c:301-336 `GetJob_Headers`. -/
def gjHeaders (pfx : Bytes) (gj : GJ) : Res Bytes :=
  match gj.segs with
  | [] => .fail
  | [g] => .ok (headerSerialize pfx g.hdr)
  | g :: gs =>
    match gs.getLast? with
    | none => .fail
    | some l =>
      match headerGet l.hdr b!"WARC-Segment-Total-Length", headerGet g.hdr b!"WARC-Payload-Digest" with
      | some t, some p => do
        let h ← headerSet (headerClone g.hdr) b!"Content-Length" t
        let h ← headerSet h b!"WARC-Block-Digest" p
        return headerSerialize pfx h
      | _, _ => .fail

end Verif.Getjob
