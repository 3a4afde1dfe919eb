/-
Model of /repo/segjob.c: cutting an object into segments and storing it.
-/
import Verif.Model.Getjob

namespace Verif.Segjob
open Verif Header Index Gzip Wsilo Ident Getjob

/-- The flush argument of `deflate`. -/
inductive Flush where
  | none | partialFlush | sync | finish
  deriving DecidableEq, Repr

/-- The return value of `deflate`. -/
inductive ZRet where
  | ok | streamEnd | other
  deriving DecidableEq, Repr

/-- What a call of `deflate` does: new state, number of bytes taken from the input, output, return value. -/
structure ZStep (σ : Type) where
  state : σ
  used : Nat
  out : Bytes
  ret : ZRet

/-- zlib's compressor: the state after `Gzip_InitDeflate` and `Gzip_AddAa`, `deflate` on the given input
with the given space, and whether `deflateEnd` returns `Z_OK`. -/
structure Deflater (σ : Type) where
  init : σ
  deflate : σ → (inp : Bytes) → Flush → (space : Nat) → ZStep σ
  endOk : σ → Bool

/-- segjob.c:50-59 `struct segment`.  `content` is what went into the segment's SHA256 context. -/
structure Seg where
  segno : Nat
  hdr : Hdr
  silo : Sl
  size : Nat
  content : Bytes
  deriving DecidableEq, Repr

/-- The segment being written, with the compressor's state, the input it has not taken yet, and `gz_flag`. -/
structure Cur (σ : Type) where
  seg : Seg
  gz : σ
  availIn : Bytes
  flag : Flush

/-- segjob.c:61-79 `struct segjob`.  `payload` is what went into the payload's SHA256 context. -/
structure Job (σ : Type) where
  hdr : Hdr
  ident : Option Bytes
  segs : List Seg
  cur : Option (Cur σ)
  size : Nat
  payload : Bytes

/-- segjob.c:192-198: a header that must not be there. -/
def absent (h : Hdr) (name : Bytes) : Bool := (headerGet h name).isNone
def present (h : Hdr) (name : Bytes) : Bool := (headerGet h name).isSome

/-- segjob.c:185-211 `SegJob_New`. -/
def segjobNew {σ : Type} (env : Env) (h : Hdr) (ident : Option Bytes) : Res (Job σ) := do
  Res.check (present h b!"Content-Type" && present h b!"WARC-Type" && present h b!"WARC-Date")
  Res.check (absent h b!"WARC-Segment-Number" && absent h b!"WARC-Payload-Digest" &&
    absent h b!"WARC-Segment-Origin-ID" && absent h b!"WARC-Segment-Total-Length")
  Res.check (match ident with | none => true | some i => validId env.pfx env.idSize i)
  return { hdr := h, ident := ident, segs := [], cur := none, size := 0, payload := [] }

/-- segjob.c:117-146: the header as long as the contents are not known. -/
def seg0Hdr (env : Env) (h : Hdr) (segno : Nat) : Res Hdr := do
  let h ← headerSet (headerClone h) b!"WARC-Block-Digest" (b!"sha256:" ++ env.sha [])
  let h ← headerSet h b!"Content-Length" (b!"00" ++ dec env.max)
  if segno = 1 then return h
  else do
    let h ← headerSet h b!"WARC-Segment-Number" (dec segno)
    let h ← headerSet h b!"WARC-Type" b!"continuation"
    headerSetRef env.pfx env.idSize h b!"WARC-Segment-Origin-ID" (env.sha [])

/-- segjob.c:135-146: space for headers that may be added later. -/
def seg0Pad (env : Env) (segno size : Nat) : Nat :=
  if segno = 1 then headerLen b!"WARC-Segment-Number" b!"1" + headerLen b!"WARC-Payload-Digest" (b!"sha256:" ++ env.sha [])
  else headerLen b!"WARC-Segment-Total-Length" (dec (size + env.max))

/-- segjob.c:98-161 `segjob_newseg`. -/
def newseg {σ : Type} (env : Env) (fuel : Nat) (D : Deflater σ) (w : World) (sj : Job σ) : Res (World × Cur σ) := do
  let segno := sj.segs.length + 1
  let h ← seg0Hdr env sj.hdr segno
  let r ← wsiloNextW env fuel w
  let sl ← wsiloHeader env r.2 h (seg0Pad env segno sj.size)
  return (r.1, { seg := ⟨segno, h, sl, 0, []⟩, gz := D.init, availIn := [], flag := .none })

/-- segjob.c:163-183 `segjob_finishseg`. -/
def finishseg {σ : Type} (env : Env) (D : Deflater σ) (ident : Option Bytes) (c : Cur σ) : Res Seg := do
  Res.check (D.endOk c.gz)
  let dig := env.sha c.seg.content
  let h ← headerSet c.seg.hdr b!"WARC-Block-Digest" (b!"sha256:" ++ dig)
  let h ← headerSet h b!"Content-Length" (dec c.seg.size)
  let h ← identSet env.sha env.pfx env.idSize h dig (if c.seg.segno = 1 then ident else none)
  let sl ← wsiloFinish c.seg.silo
  return { c.seg with hdr := h, silo := { sl with hd := h } }

/-- segjob.c:213-223 `segjob_setup_outbuf`: the space for `deflate`.  When less than 24 bytes are left the
subtraction wraps around and `deflate` is told to use memory outside the buffer. -/
def outbuf (env : Env) (sl : Sl) : Res Nat := do
  let sp := getSpace env.max sl
  Res.check (0 < sp)
  Res.access (24 ≤ sp)
  return (sp - 24).toNat

/-- segjob.c:225-238 `segjob_deflate`: run `deflate` on the input and store the output. -/
def runDeflate {σ : Type} (D : Deflater σ) (c : Cur σ) (fl : Flush) (space : Nat) : Res (Cur σ × ZStep σ) := do
  let z := D.deflate c.gz c.availIn fl space
  Res.check (z.ret = .ok || (fl = .finish && z.ret = .streamEnd))
  let c := { c with gz := z.state, availIn := c.availIn.drop z.used, flag := fl }
  if z.out = [] then return (c, z)
  else do
    let sl ← store c.seg.silo z.out
    return ({ c with seg := { c.seg with silo := sl } }, z)

/-- segjob.c:263-283: end the segment. -/
def endSeg {σ : Type} (env : Env) (D : Deflater σ) (ident : Option Bytes) (c : Cur σ) (space : Nat) : Res Seg := do
  Res.check (c.availIn = [])
  let r ← runDeflate D c .sync space
  let space2 ← outbuf env r.1.seg.silo
  let q ← runDeflate D r.1 .finish space2
  Res.check (getSpace env.max q.1.seg.silo > 24)
  let sl ← store q.1.seg.silo crnlcrnl
  finishseg env D ident { q.1 with seg := { q.1.seg with silo := sl } }

/-- segjob.c:285-306: give the compressor more input if it has none; the rest of the caller's input. -/
def moreInput {σ : Type} (sj : Job σ) (c : Cur σ) (ip : Bytes) (space : Nat) : Res (Job σ × Cur σ × Bytes) :=
  if c.availIn = [] then do
    let len := min (space / 2) ip.length
    Res.check (0 < len)
    let d := ip.take len
    return ({ sj with size := sj.size + len, payload := sj.payload ++ d },
      { c with availIn := d, seg := { c.seg with size := c.seg.size + len, content := c.seg.content ++ d } }, ip.drop len)
  else return (sj, c, ip)

/-- segjob.c:253-257: the current segment, a new one if there is none. -/
def curSeg {σ : Type} (env : Env) (fuel : Nat) (D : Deflater σ) (w : World) (sj : Job σ) : Res (World × Cur σ) :=
  match sj.cur with
  | some c => .ok (w, c)
  | none => newseg env fuel D w sj

/-- segjob.c:240-323 `SegJob_Feed`; the loop is cut after `fuel` rounds. -/
def feedLoop {σ : Type} (env : Env) (D : Deflater σ) : (fuel : Nat) → World → Job σ → Bytes → Res (World × Job σ)
  | 0, _, _, _ => .fail
  | fuel + 1, w, sj, ip => do
    let r ← curSeg env (fuel + 1) D w sj
    let space ← outbuf env r.2.seg.silo
    if space < 52 ∨ ip = [] then do
      let s ← endSeg env D sj.ident r.2 space
      let sj := { sj with segs := sj.segs ++ [s], cur := none }
      if ip = [] then return (r.1, sj) else feedLoop env D fuel r.1 sj ip
    else do
      let m ← moreInput sj r.2 ip space
      let fl := if space < 128 * 1024 then .partialFlush else m.2.1.flag
      let c ← runDeflate D m.2.1 fl space
      let sj := { m.1 with cur := some c.1 }
      if c.1.availIn ≠ [] ∨ m.2.2 ≠ [] then feedLoop env D fuel r.1 sj m.2.2 else return (r.1, sj)

/-- segjob.c:81-96 `segjob_destroy`: the hold files go away. -/
def destroy (w : World) (segs : List Seg) : World := segs.foldl (fun w s => abandon w s.silo) w

/-- segjob.c:341-348: the ID of the first of several segments comes from the whole payload. -/
def firstId (env : Env) (ident : Option Bytes) (payload : Bytes) (s : Seg) : Res Seg := do
  let d := env.sha payload
  let h ← headerSet s.hdr b!"WARC-Payload-Digest" (b!"sha256:" ++ d)
  let h ← identSet env.sha env.pfx env.idSize h d ident
  return { s with hdr := h, silo := { s.silo with hd := h } }

/-- segjob.c:369-385: the headers of the segments, now that all is known, and the commits. -/
def commitSegs (env : Env) (fid : Bytes) (size : Nat) : List Seg → World → Res World
  | [], w => .ok w
  | s :: ss, w => do
    let h ← (if s.segno = 1 then headerSet s.hdr b!"WARC-Segment-Number" b!"1"
      else headerSetRef env.pfx env.idSize s.hdr b!"WARC-Segment-Origin-ID" fid)
    let h ← (if ss = [] then headerSet h b!"WARC-Segment-Total-Length" (dec size) else Res.ok h)
    let w ← wsiloCommit env w { s.silo with hd := h } true h.id (ss.head?.map (·.hdr.id))
    commitSegs env fid size ss w

/-- segjob.c:336-387: `SegJob_Commit` when the segments are complete. -/
def commitJob {σ : Type} (env : Env) (fuel : Nat) (w : World) (sj : Job σ) : Res (World × Bytes) := do
  Res.check (0 < sj.size)
  match sj.segs with
  | [] => .fail
  | s :: ss => do
    let s ← (if ss = [] then Res.ok s else firstId env sj.ident sj.payload s)
    let id ← digest2Ident env.pfx env.idSize s.hdr.id
    let g ← getjobNew env.ps env.pfx env.idSize fuel w s.hdr.id
    match g with
    | .job _ => return (destroy w (s :: ss), id)
    | .error _ => do
      let w ← (if ss = [] then wsiloCommit env w s.silo false s.hdr.id none else commitSegs env s.hdr.id sj.size (s :: ss) w)
      return (w, id)

/-- segjob.c:325-387 `SegJob_Commit`. -/
def segjobCommit {σ : Type} (env : Env) (D : Deflater σ) (fuel : Nat) (w : World) (sj : Job σ) : Res (World × Bytes) := do
  let r ← feedLoop env D fuel w sj []
  commitJob env fuel r.1 r.2

/-- Any number of calls of `SegJob_Feed`. -/
def feedAll {σ : Type} (env : Env) (D : Deflater σ) (fuel : Nat) : List Bytes → World → Job σ → Res (World × Job σ)
  | [], w, sj => .ok (w, sj)
  | c :: cs, w, sj => do
    let r ← feedLoop env D fuel w sj c
    feedAll env D fuel cs r.1 r.2

/-- main_store.c:261-271: store the chunks as one object with the given header. -/
def storeObj {σ : Type} (env : Env) (D : Deflater σ) (fuel : Nat) (w : World) (h : Hdr) (ident : Option Bytes) (chunks : List Bytes) :
    Res (World × Bytes) := do
  let sj ← segjobNew env h ident
  let r ← feedAll env D fuel chunks w sj
  segjobCommit env D fuel r.1 r.2

end Verif.Segjob
