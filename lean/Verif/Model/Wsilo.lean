/-
Model of /repo/wsilo.c and /repo/warcinfo.c as run by one process: building a silo, and committing it.
The interleaving of several processes is in Model/Commit.lean.
-/
import Verif.Model.Gzip
import Verif.Model.Ident
import Verif.Model.Index
import Verif.Model.Cache
import Verif.Model.Commit

namespace Verif.Wsilo
open Verif Header Gzip Ident Index Cache
open _root_.Verif.Commit (upd Silo)

/-- The configuration and the functions the code gets from elsewhere: SHA256 as 64 hex digits, gzip of a
header block (`Gzip_Vsb`) at level 0 and at `AA_COMPRESSION`, the date text, the base name of a silo, the
`warcinfo.body` lines, and the version text. -/
structure Env where
  pfx : Bytes
  idSize : Nat
  max : Nat
  ps : Nat
  sha : Bytes → Bytes
  pack0 : Bytes → Bytes
  pack9 : Bytes → Bytes
  date : Bytes
  name : Nat → Bytes
  infoLines : List (Bytes × Bytes)
  gitrev : Bytes

/-- The archive directory, and the cache numbers in memory. -/
structure World where
  silos : Nat → Option Silo
  holds : Nat → Bool
  dir : Dir
  cache : Cache
  cacheFile : Option Bytes

/-- aardwarc.h:162-169. -/
def F_WARCINFO : Nat := 2
def F_RESOURCE : Nat := 4
def F_METADATA : Nat := 8
def F_SEGMENTED : Nat := 16
def F_FIRSTSEG : Nat := 32
def F_LASTSEG : Nat := 64

/-- wsilo.c:53-76 `struct wsilo`; `hold` is the contents of the hold file, so `hold_len` is its length. -/
structure Sl where
  no : Nat
  idx : Nat
  hold : Bytes
  hd : Hdr
  hdStart : Nat
  hdLen : Nat
  infoId : Bytes
  deriving DecidableEq, Repr

/-- wsilo.c:275-287 `Wsilo_GetSpace`: the buffer is 1 MiB (wsilo.c:183). -/
def getSpace (max : Nat) (sl : Sl) : Int :=
  if (max : Int) - sl.hold.length > 2 ^ 20 then 2 ^ 20 else (max : Int) - sl.hold.length

/-- wsilo.c:289-303 `Wsilo_Store` of the bytes in the buffer. -/
def store (sl : Sl) (d : Bytes) : Res Sl := do
  Res.check (0 < d.length)
  Res.check (d.length ≤ 2 ^ 20)
  return { sl with hold := sl.hold ++ d }

/-- warcinfo.c:55-72 `c_iter`. -/
def infoLine (l : Bytes × Bytes) : Bytes :=
  if strcasecmp l.1 b!"conformsTo:" = .eq ∨ strcasecmp l.1 b!"format:" = .eq ∨ strcasecmp l.1 b!"software:" = .eq ∨
    strcasecmp l.1 b!"title:" = .eq then []
  else l.1 ++ b!" " ++ l.2 ++ b!"\r\n"

/-- warcinfo.c:97-110: the body. -/
def infoBody (env : Env) (n : Nat) : Bytes :=
  b!"title: " ++ env.name n ++ b!"\r\n" ++ (env.infoLines.map infoLine).flatten ++
  b!"format: WARC file version 1.1\r\n" ++
  b!"conformsTo: http://iipc.github.io/warc-specifications/specifications/warc-format/warc-1.1/\r\n" ++
  b!"software: https://github.com/bsdphk/AardWARC (" ++ env.gitrev ++ b!")\r\n"

/-- warcinfo.c:88-124: the header. -/
def infoHdr (env : Env) (n : Nat) : Res Hdr := do
  let body := infoBody env n
  let h ← headerSet (headerNew env.idSize) b!"WARC-Filename" (env.name n)
  let h ← headerSet h b!"WARC-Date" env.date
  let h ← headerSet h b!"WARC-Type" b!"warcinfo"
  let h ← headerSet h b!"Content-Type" b!"application/warc-fields"
  let h ← headerSet h b!"Content-Length" (dec body.length)
  let h ← headerSet h b!"WARC-Block-Digest" (b!"sha256:" ++ env.sha body)
  identSet env.sha env.pfx env.idSize h (env.sha body) none

/-- warcinfo.c:133-136, 147-149, 152-155: store something that must fit. -/
def storeFit (max : Nat) (sl : Sl) (d : Bytes) : Res Sl := do
  Res.check ((d.length : Int) ≤ getSpace max sl)
  store sl d

/-- warcinfo.c:73-161 `Warcinfo_New`. -/
def warcinfoNew (env : Env) (sl : Sl) : Res Sl := do
  let h ← infoHdr env sl.no
  let sl ← storeFit env.max sl (env.pack0 (headerSerialize env.pfx h))
  let sl ← storeFit env.max sl (env.pack0 (infoBody env sl.no))
  let sl ← storeFit env.max sl crnlcrnl
  return { sl with infoId := h.id }

/-- wsilo.c:115-210 `Wsilo_Next`, `Wsilo_New`.  The search for a free number is cut after `fuel` rounds, and
silo numbers from 2^32 - 1 on are not modelled. -/
def wsiloNextW (env : Env) (fuel : Nat) (w : World) : Res (World × Sl) := do
  let c := readCache w.cacheFile w.cache
  match wsiloNext (fun n => (w.silos n).isSome) w.holds fuel c.firstNon with
  | none => .fail
  | some n => do
    Res.check (n + 1 < 2 ^ 32)
    let sl ← warcinfoNew env { no := n, idx := 0, hold := [], hd := ⟨[], []⟩, hdStart := 0, hdLen := 0, infoId := [] }
    return ({ w with cache := c, holds := upd w.holds n true }, sl)

/-- wsilo.c:213-225, 567-577: `wsilo_delete` and `Wsilo_Abandon`. -/
def abandon (w : World) (sl : Sl) : World := { w with holds := upd w.holds sl.no false }

/-- header.c:127-141 `Header_Len`. -/
def headerLen (name val : Bytes) : Nat := name.length + 2 + val.length + 2

/-- wsilo.c:249-253: the type of the record. -/
def typeFlag (h : Hdr) : Nat :=
  match headerGet h b!"WARC-Type" with
  | none => 0
  | some t => if t = b!"metadata" then F_METADATA else if t = b!"resource" then F_RESOURCE else 0

/-- wsilo.c:229-271 `Wsilo_Header`.  The first memory of `hd` is the caller's, the header as of now is passed
to the later functions. -/
def wsiloHeader (env : Env) (sl : Sl) (hd : Hdr) (pad0 : Nat) : Res Sl := do
  let pad := if pad0 > 0 then pad0 + headerLen b!"z" b!"_" else 0
  Res.check (sl.hdStart = 0)
  let text := env.pack0 (headerSerialize env.pfx hd)
  Res.check (0 < text.length)
  Res.check (((text.length + pad : Nat) : Int) < getSpace env.max sl)
  let sl1 ← store sl text
  Res.check ((pad : Int) < getSpace env.max sl1)
  let sl2 ← store sl1 (List.replicate pad 95)
  return { sl2 with hd := hd, hdStart := sl.hold.length, idx := sl.idx ||| typeFlag hd, hdLen := text.length + pad }

/-- wsilo.c:307-323 `Wsilo_Finish`. -/
def wsiloFinish (sl : Sl) : Res Sl := do
  let f ← writeAa sl.hold (sl.hdStart + sl.hdLen) ((sl.hold.length : Int) - (sl.hdStart + sl.hdLen + 24))
  return { sl with hold := f }

/-- What follows the header in the hold file. -/
def Sl.tail (sl : Sl) : Bytes := sl.hold.drop (sl.hdStart + sl.hdLen)

/-- wsilo.c:359-362, 382-388: new cache numbers are written to the file. -/
def putCache (w : World) (c : Cache) : World :=
  if c = w.cache then w else { w with cache := c, cacheFile := some (writeCache w.cacheFile c) }

/-- wsilo.c:393-447: write and index, if the hold file of the silo can be made. -/
def appendTo (w : World) (sl : Sl) (sn : Nat) (f : Silo) (hz id : Bytes) : Res (World × Int) :=
  if w.holds sn then .ok (w, 0)
  else do
    Res.check (0 < f.data.length)
    let d ← idxInsert w.dir id sl.idx sn f.data.length none
    return ({ w with silos := upd w.silos sn (some { f with data := f.data ++ (hz ++ sl.tail) }), dir := d }, 1)

/-- wsilo.c:327-460 `silo_attempt_append`; `hz` is the compressed header. -/
def attemptAppend (env : Env) (w : World) (sl : Sl) (sn : Nat) (hz id : Bytes) : Res (World × Int) :=
  match w.silos sn with
  | none => .ok (w, 0)
  | some f =>
    let w := putCache w (bumpNon sn w.cache)
    if f.writable = false then .ok (w, -1)
    else
      let w := putCache w (bumpSpace env.max f.data.length sn w.cache)
      if f.data.length + (hz.length + sl.tail.length) > env.max then .ok (w, 0)
      else appendTo w sl sn f hz id

/-- wsilo.c:510-519: try the silos in front of the own one; the result says whether one was found. -/
def appendLoop (env : Env) (sl : Sl) (hz id : Bytes) : (k : Nat) → (sn : Nat) → World → Res (World × Bool)
  | 0, _, w => .ok (w, false)
  | k + 1, sn, w => do
    let r ← attemptAppend env w sl sn hz id
    if r.2 = 1 then return (r.1, true)
    else if r.2 = -1 then return (r.1, false)
    else appendLoop env sl hz id k (sn + 1) r.1

/-- wsilo.c:531-546: the header to be written, with padding if it is shorter than the reserved space. -/
def padHeader (env : Env) (sl : Sl) : Res Hdr :=
  let i : Int := (sl.hdLen : Int) - (env.pack0 (headerSerialize env.pfx sl.hd)).length
  if i > 0 then do
    Res.check (5 ≤ i)
    headerSet sl.hd b!"z" (List.replicate (i - 5).toNat 95)
  else .ok sl.hd

/-- wsilo.c:531-551: the hold file with its final header. -/
def finalHold (env : Env) (sl : Sl) : Res Bytes := do
  let h ← padHeader env sl
  let text := env.pack0 (headerSerialize env.pfx h)
  Res.check (text.length = sl.hdLen)
  return sl.hold.take sl.hdStart ++ text ++ sl.hold.drop (sl.hdStart + sl.hdLen)

/-- wsilo.c:555-562: the index flags. -/
def commitFlags (sl : Sl) (segd : Bool) (rid : Option Bytes) : Res Nat :=
  if segd = false then .ok sl.idx
  else
    match headerGet sl.hd b!"WARC-Segment-Number" with
    | none => .fail
    | some t => .ok (sl.idx ||| F_SEGMENTED ||| (if t = b!"1" then F_FIRSTSEG else 0) ||| (if rid = none then F_LASTSEG else 0))

/-- wsilo.c:531-564, 464-483: index the record, `Wsilo_Install`. -/
def install (env : Env) (w : World) (sl : Sl) (segd : Bool) (id : Bytes) (rid : Option Bytes) : Res World := do
  let file ← finalHold env sl
  let fl ← commitFlags sl segd rid
  let d ← idxInsert w.dir id fl sl.no sl.hdStart rid
  let d ← idxInsert d sl.infoId F_WARCINFO sl.no 0 none
  Res.check (w.silos sl.no = none)
  let w := { w with dir := d, silos := upd w.silos sl.no (some { data := file, writable := true }) }
  return abandon (putCache w (bumpNon sl.no w.cache)) sl

/-- wsilo.c:485-565 `Wsilo_Commit`. -/
def wsiloCommit (env : Env) (w : World) (sl : Sl) (segd : Bool) (id : Bytes) (rid : Option Bytes) : Res World :=
  if segd = false ∧ 0 < sl.no then do
    let hz := env.pack9 (headerSerialize env.pfx sl.hd)
    let r ← appendLoop env sl hz id (sl.no - w.cache.firstSpace) w.cache.firstSpace w
    if r.2 then return abandon r.1 sl else install env r.1 sl segd id rid
  else install env w sl segd id rid

end Verif.Wsilo
