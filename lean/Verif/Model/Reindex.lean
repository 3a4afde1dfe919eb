/-
Model of /repo/main_reindex.c: making the index again from the silos.
-/
import Verif.Model.Rsilo
import Verif.Model.Index
import Verif.Model.Commit

namespace Verif.Reindex
open Verif Header Rsilo Index
open _root_.Verif.Commit (Silo)

/-- The arguments of a call of `IDX_Insert`. -/
structure Call where
  id : Bytes
  flags : Nat
  silo : Nat
  off : Nat
  cont : Option Bytes
  deriving DecidableEq, Repr

/-- main_reindex.c:47-58 `struct seg`.  The counters `used` and `done` are never more than one (lines 101-102). -/
structure Seg where
  id : Bytes
  flg : Nat
  parent : Bytes
  silo : Nat
  off : Nat
  segno : Nat
  used : Bool
  done : Bool
  deriving DecidableEq, Repr

/-- main_reindex.c:93-109 `emit_seg(seg2, seg)` for the element `seg2` after `seg` on the list: the call, and the two
elements unless they are dropped. -/
def emitSeg (seg seg2 : Seg) : Res (Call × List Seg) := do
  Res.check (seg2.done = false)
  Res.check (seg.used = false)
  let a := if seg.done then [] else [{ seg with used := true }]
  let b := if seg2.used then [] else [{ seg2 with done := true }]
  return (⟨seg2.id, seg2.flg, seg2.silo, seg2.off, some seg.id⟩, a ++ b)

/-- main_reindex.c:111-120 `try_seg(seg)`; `post` is the list after `seg`.  The calls, and the list from `seg` on. -/
def trySeg (idSize : Nat) (seg : Seg) : (post : List Seg) → Res (List Call × List Seg)
  | [] => .ok ([], [seg])
  | seg2 :: post =>
    if seg2.done = false ∧ seg2.segno + 1 = seg.segno ∧ strncmpEq seg2.parent seg.parent idSize = true then do
      let r ← emitSeg seg seg2
      return ([r.1], r.2 ++ post)
    else .ok ([], seg :: seg2 :: post)

/-- main_reindex.c:188-193: does the search for the place of `seg` go on after `seg2`?  -/
def before (idSize : Nat) (seg seg2 : Seg) : Bool :=
  match strcmp (seg2.parent.take idSize) (seg.parent.take idSize) with
  | .lt => true
  | .gt => false
  | .eq => decide (¬ seg2.segno < seg.segno)

/-- main_reindex.c:200-203: the attempts at the new element and at the one in front of it, `prev`. -/
def tryBoth (idSize : Nat) (pre : List Seg) (seg : Seg) (post : List Seg) : Res (List Call × List Seg) := do
  let r ← trySeg idSize seg post
  match pre.getLast? with
  | none => return r
  | some prev => do
    let q ← trySeg idSize prev r.2
    return (r.1 ++ q.1, pre.dropLast ++ q.2)

/-- main_reindex.c:180-204: the new element is put on the list.  The calls and the new list. -/
def addSeg (idSize : Nat) (segs : List Seg) (seg : Seg) : Res (List Call × List Seg) := do
  let r ← tryBoth idSize (segs.takeWhile (before idSize seg)) seg (segs.dropWhile (before idSize seg))
  return ((if seg.done then [⟨seg.id, seg.flg, seg.silo, seg.off, none⟩] else []) ++ r.1, r.2)

/-- The text after the last slash (main_reindex.c:159-161). -/
def afterSlash : Bytes → Option Bytes
  | [] => none
  | c :: cs =>
    match afterSlash cs with
    | some r => some r
    | none => if c = 47 then some cs else none

/-- main_reindex.c:156-165: the ID of the first segment. -/
def parentOf (h : Hdr) (segno : Nat) : Res Bytes :=
  if segno > 1 then
    match headerGet h b!"WARC-Segment-Origin-ID" with
    | none => .fail
    | some p =>
      match afterSlash p with
      | none => .fail
      | some r => .ok r
  else .ok h.id

/-- aardwarc.h:162-169. -/
def F_WARCINFO : Nat := 2
def F_RESOURCE : Nat := 4
def F_METADATA : Nat := 8
def F_SEGMENTED : Nat := 16
def F_FIRSTSEG : Nat := 32
def F_LASTSEG : Nat := 64

/-- main_reindex.c:152-184: the element for a segment. -/
def newSeg (h : Hdr) (flg off segno silo : Nat) : Res Seg := do
  let parent ← parentOf h segno
  let last := (headerGet h b!"WARC-Segment-Total-Length").isSome
  return { id := h.id, flg := flg ||| F_SEGMENTED ||| (if segno > 1 then 0 else F_FIRSTSEG) ||| (if last then F_LASTSEG else 0),
           parent := parent, silo := silo, off := off, segno := segno, used := decide (segno = 1), done := last }

/-- main_reindex.c:236-244: the type of the record. -/
def typeFlag (h : Hdr) : Res Nat :=
  match headerGet h b!"WARC-Type" with
  | none => .fail
  | some t =>
    .ok (if t = b!"warcinfo" then F_WARCINFO else if t = b!"metadata" then F_METADATA else if t = b!"resource" then F_RESOURCE else 0)

/-- main_reindex.c:236-254: one record. -/
def oneRecord (idSize silo : Nat) (segs : List Seg) (off : Nat) (h : Hdr) : Res (List Call × List Seg) := do
  let flg ← typeFlag h
  let im ← headerGetNumber h b!"WARC-Segment-Number"
  if im < 0 then return ([⟨h.id, flg, silo, off, none⟩], segs)
  else do
    let seg ← newSeg h flg off im.toNat silo
    addSeg idSize segs seg

/-- The records of a silo one after the other. -/
def records (idSize silo : Nat) : List (Nat × Hdr × Int) → List Seg → Res (List Call × List Seg)
  | [], segs => .ok ([], segs)
  | x :: l, segs => do
    let r ← oneRecord idSize silo segs x.1 x.2.1
    let q ← records idSize silo l r.2
    return (r.1 ++ q.1, q.2)

/-- A series of calls of `IDX_Insert`. -/
def insertCalls : List Call → Dir → Res Dir
  | [], d => .ok d
  | c :: cs, d => do
    let d ← idxInsert d c.id c.flags c.silo c.off c.cont
    insertCalls cs d

/-- main_reindex.c:206-262 `silo_iter` for a silo given by number: the index, and the pending segments.  The loop reads
a header and then acts on it; here all headers are read first, which makes a difference only if the program aborts. -/
def reindexSilo (ps : Nat) (pfx : Bytes) (idSize sortSize silo fuel : Nat) (file : Bytes) (d : Dir) (segs : List Seg) : Res (Dir × List Seg) := do
  let l ← scanHeaders ps pfx fuel (rsOpen file 0)
  let r ← records idSize silo l segs
  let d ← insertCalls r.1 d
  let d ← idxResort sortSize d
  return (d, r.2)

/-- main_reindex.c:297-298: the silos `ns`, which are those `Silo_Iter` visits. -/
def reindexSilos (ps : Nat) (pfx : Bytes) (idSize sortSize fuel : Nat) (silos : Nat → Option Silo) : (ns : List Nat) → Dir → List Seg → Res (Dir × List Seg)
  | [], d, segs => .ok (d, segs)
  | n :: ns, d, segs =>
    match silos n with
    | none => .fail
    | some f => do
      let r ← reindexSilo ps pfx idSize sortSize n fuel f.data d segs
      reindexSilos ps pfx idSize sortSize fuel silos ns r.1 r.2

/-- main_reindex.c:132-139: the pending segments with the key of an index entry go to the index with its continuation. -/
def rematchOne (key cont : Bytes) : List Seg → List Call × List Seg
  | [] => ([], [])
  | s :: segs =>
    let r := rematchOne key cont segs
    if strncmpEq key s.id 16 then (⟨s.id, s.flg, s.silo, s.off, some cont⟩ :: r.1, r.2) else (r.1, s :: r.2)

/-- main_reindex.c:122-141, 301-304: the segments left over are looked for among the index entries `es`. -/
def rematch : List Entry → List Seg → List Call × List Seg
  | [], segs => ([], segs)
  | e :: es, segs =>
    if e.flags &&& F_SEGMENTED = 0 then rematch es segs
    else
      let r := rematchOne e.key e.cont segs
      let q := rematch es r.2
      (r.1 ++ q.1, q.2)

/-- main_reindex.c:297-308 without arguments: the silos, and then the segments that are left over; the result is the index and the
segments that are listed as left over in the end.  The callback of `IDX_Iter` inserts into the index that is being gone through;
here the entries are collected first.  That makes no difference: an entry that is inserted has the same first 16 digits as the
entry that the callback was called for, and no segment with these digits is left over then. -/
def reindexMain (ps : Nat) (pfx : Bytes) (idSize sortSize fuel : Nat) (silos : Nat → Option Silo) (ns : List Nat) (d : Dir) : Res (Dir × List Seg) := do
  let r ← reindexSilos ps pfx idSize sortSize fuel silos ns d []
  if r.2 = [] then return r
  else do
    let q ← idxIter r.1 none (fun l e => (l ++ [e], (0 : Int))) []
    let d ← insertCalls (rematch q.1 r.2).1 r.1
    return (d, (rematch q.1 r.2).2)

end Verif.Reindex
