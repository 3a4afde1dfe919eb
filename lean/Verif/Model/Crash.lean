/-
Model of a store that does not come to its end: the process is killed, or the disk is full.  What it leaves behind.
-/
import Verif.Model.Segjob

namespace Verif.Crash
open Verif Header Index Gzip Wsilo Ident Getjob Segjob
open _root_.Verif.Commit (upd Silo)

/-- Where in `Wsilo_Commit` (wsilo.c:485-565) the process ends. -/
inductive At where
  /-- Before anything was written outside of its own hold file. -/
  | start
  /-- In `silo_attempt_append` for silo `sn`, when `k` bytes of the record have been written: wsilo.c:396, 431-432. -/
  | writing (sn k : Nat)
  /-- In `silo_attempt_append` for silo `sn`, when the index entry has been written, before the hold file of that silo is
  removed: wsilo.c:443-452. -/
  | appended (sn : Nat)
  /-- When the index entry of the record has been written: wsilo.c:564. -/
  | entry
  /-- In `Wsilo_Install`, when the index entry of the warcinfo record has been written, too: wsilo.c:471-472. -/
  | entries
  /-- In `Wsilo_Install`, when the silo has been linked to its name, before the hold file is removed: wsilo.c:477-482. -/
  | linked
  deriving DecidableEq, Repr

/-- wsilo.c:396-432: the record goes to silo `sn`, which has room and is not being written to, and `k` bytes arrive there.
Which silo is tried is not modelled: it may be any that is in front of the own number.  When `k` is less than the length of
the record this is a full disk, and the assertion in wsilo.c:435 fails. -/
def writing (env : Env) (w : World) (sl : Sl) (sn k : Nat) : Res (Silo × World) :=
  match w.silos sn with
  | none => .fail
  | some f => do
    let hz := env.pack9 (headerSerialize env.pfx sl.hd)
    Res.check (sn < sl.no)
    Res.check f.writable
    Res.check (w.holds sn = false)
    Res.check (f.data.length + (hz.length + sl.tail.length) ≤ env.max)
    return (f, { w with silos := upd w.silos sn (some { f with data := f.data ++ (hz ++ sl.tail).take k }), holds := upd w.holds sn true })

/-- wsilo.c:441-443: the index entry of the record. -/
def appended (env : Env) (w : World) (sl : Sl) (sn : Nat) (id : Bytes) : Res World := do
  let hz := env.pack9 (headerSerialize env.pfx sl.hd)
  let r ← writing env w sl sn (hz ++ sl.tail).length
  let d ← idxInsert r.2.dir id sl.idx sn r.1.data.length none
  return { r.2 with dir := d }

/-- wsilo.c:527-564: the header and the index entry of the record. -/
def entry (env : Env) (w : World) (sl : Sl) (segd : Bool) (id : Bytes) (rid : Option Bytes) : Res (Bytes × World) := do
  let file ← finalHold env sl
  let fl ← commitFlags sl segd rid
  let d ← idxInsert w.dir id fl sl.no sl.hdStart rid
  return (file, { w with dir := d })

/-- wsilo.c:471-472: the index entry of the warcinfo record. -/
def entries (env : Env) (w : World) (sl : Sl) (segd : Bool) (id : Bytes) (rid : Option Bytes) : Res (Bytes × World) := do
  let r ← entry env w sl segd id rid
  let d ← idxInsert r.2.dir sl.infoId F_WARCINFO sl.no 0 none
  return (r.1, { r.2 with dir := d })

/-- wsilo.c:477: the hold file gets the name of the silo. -/
def linked (env : Env) (w : World) (sl : Sl) (segd : Bool) (id : Bytes) (rid : Option Bytes) : Res World := do
  let r ← entries env w sl segd id rid
  Res.check (r.2.silos sl.no = none)
  return { r.2 with silos := upd r.2.silos sl.no (some { data := r.1, writable := true }) }

/-- What is there when the process ends within `Wsilo_Commit`.  The hold files it has stay behind.  (What becomes of the cache
file is left to the histories.) -/
def commitCut (env : Env) (w : World) (sl : Sl) (segd : Bool) (id : Bytes) (rid : Option Bytes) : At → Res World
  | .start => .ok w
  | .writing sn k => do
    Res.check (segd = false)
    let r ← writing env w sl sn k
    return r.2
  | .appended sn => do
    Res.check (segd = false)
    appended env w sl sn id
  | .entry => do
    let r ← entry env w sl segd id rid
    return r.2
  | .entries => do
    let r ← entries env w sl segd id rid
    return r.2
  | .linked => linked env w sl segd id rid

/-- segjob.c:369-386: the process ends while segment `k` (counted from 0) is committed. -/
def segsCut (env : Env) (fid : Bytes) (size : Nat) (a : At) : (k : Nat) → List Seg → World → Res World
  | _, [], _ => .fail
  | k, s :: ss, w => do
    let h ← (if s.segno = 1 then headerSet s.hdr b!"WARC-Segment-Number" b!"1"
      else headerSetRef env.pfx env.idSize s.hdr b!"WARC-Segment-Origin-ID" fid)
    let h ← (if ss = [] then headerSet h b!"WARC-Segment-Total-Length" (dec size) else Res.ok h)
    match k with
    | 0 => commitCut env w { s.silo with hd := h } true h.id (ss.head?.map (·.hdr.id)) a
    | k + 1 => do
      let w ← wsiloCommit env w { s.silo with hd := h } true h.id (ss.head?.map (·.hdr.id))
      segsCut env fid size a k ss w

/-- segjob.c:336-387: `SegJob_Commit` with complete segments, ended while segment `k` is committed. -/
def jobCut {σ : Type} (env : Env) (fuel : Nat) (w : World) (sj : Job σ) (k : Nat) (a : At) : Res World := do
  Res.check (0 < sj.size)
  match sj.segs with
  | [] => .fail
  | s :: ss => do
    let s ← (if ss = [] then Res.ok s else firstId env sj.ident sj.payload s)
    let _ ← digest2Ident env.pfx env.idSize s.hdr.id
    let g ← getjobNew env.ps env.pfx env.idSize fuel w s.hdr.id
    match g with
    | .job _ => .fail
    | .error _ => if ss = [] then commitCut env w s.silo false s.hdr.id none a else segsCut env s.hdr.id sj.size a k (s :: ss) w

/-- main_store.c:261-271: a store of these chunks that ends while segment `k` is committed.  (A store that ends before that has
only made hold files.) -/
def storeCut {σ : Type} (env : Env) (D : Deflater σ) (fuel : Nat) (w : World) (h : Hdr) (ident : Option Bytes) (chunks : List Bytes) (k : Nat) (a : At) :
    Res World := do
  let sj ← segjobNew env h ident
  let r ← feedAll env D fuel chunks w sj
  let q ← feedLoop env D fuel r.1 r.2 []
  jobCut env fuel q.1 q.2 k a

end Verif.Crash
