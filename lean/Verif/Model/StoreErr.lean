/-
wsilo.c and segjob.c: storing when calls of the system fail.  `Model/Wsilo.lean` and `Model/Segjob.lean` are the same code with
calls that succeed.
-/
import Verif.Model.Crash
import Verif.Model.TornIndex

namespace Verif.StoreErr
open Verif Header Index Gzip Wsilo Ident Getjob Segjob Cache
open _root_.Verif.Commit (upd Silo)

/-! ### Finding a number -/

/-- What fails in `Wsilo_New` (wsilo.c:115-192) for a number: nothing, `stat(2)` of a silo that is there (wsilo.c:129), making the
directories (wsilo.c:137), or `open(2)` of the hold file for another reason than that it exists (wsilo.c:152). -/
inductive NewFail where
  | fine
  | stat
  | mkdir
  | hold
  deriving DecidableEq, Repr

/-- What `Wsilo_Next` comes to: a number, `exit(2)` (wsilo.c:162-168), or not yet an end. -/
inductive Next where
  | found (n : Nat)
  | exit
  | more
  deriving DecidableEq, Repr

/-- wsilo.c:115-168, 194-210: `Wsilo_Next` and `Wsilo_New`, as `wsiloNext`; `fuel` rounds of the loop.  (The number is a `uint32_t`,
and begins again at 0 after 2^32 rounds.) -/
def nextErr (silo hold : Nat → Bool) (F : Nat → NewFail) : (fuel : Nat) → (n : Nat) → Next
  | 0, _ => .more
  | fuel + 1, n =>
    if silo n ∧ F n ≠ .stat then nextErr silo hold F fuel (n + 1)
    else if F n = .mkdir then nextErr silo hold F fuel (n + 1)
    else if hold n then nextErr silo hold F fuel (n + 1)
    else if F n = .hold then .exit
    else .found n

/-! ### Committing -/

/-- How writing the cache file goes (aardwarc.c:201-205): all is well, it cannot be opened, or only so many bytes are written.
Nothing is checked. -/
inductive CacheW where
  | fine
  | noOpen
  | upto (k : Nat)
  deriving DecidableEq, Repr

/-- aardwarc.c:188-210: the file afterwards, when `new` was to be written over `old`. -/
def cacheAfter (old : Option Bytes) (new : Bytes) : CacheW → Option Bytes
  | .fine => some new
  | .noOpen => old
  | .upto k => some (new.take k ++ (old.getD []).drop k)

/-- wsilo.c:359-362, 385-388, 478-481: as `putCache`. -/
def putCacheErr (f : CacheW) (w : World) (c : Cache) : World :=
  if c = w.cache then w else { w with cache := c, cacheFile := cacheAfter w.cacheFile (writeCache w.cacheFile c) f }

/-- How writing an index entry goes (index.c:243-247): all is well, the file cannot be opened, or only `k` bytes are written.  The
last two are assertion failures. -/
inductive IdxW where
  | fine
  | noOpen
  | torn (k : Nat)
  deriving DecidableEq, Repr

/-- index.c:224-249 `IDX_Insert`; the result says whether it returns. -/
def insertErr (f : IdxW) (d : Dir) (key : Bytes) (flags silo off : Nat) (cont : Option Bytes) : Res (Dir × Bool) :=
  match f with
  | .fine => do
    let d ← idxInsert d key flags silo off cont
    return (d, true)
  | .noOpen => .ok (d, false)
  | .torn k => do
    let d ← Crash.idxTorn d key flags silo off cont k
    return (d, false)

/-- What fails in `silo_attempt_append` (wsilo.c:327-460) for a silo: nothing; `stat` (wsilo.c:355); `open` of the hold file
(wsilo.c:396); `open`, `fstat` or `mmap` (wsilo.c:400-422); `writev`, when `k` bytes were written (wsilo.c:432-436); writing the index
entry (wsilo.c:443); `close` or `unlink` of the hold file (wsilo.c:451-452). -/
inductive App where
  | fine
  | stat
  | hold
  | silo
  | write (k : Nat)
  | idx (f : IdxW)
  | unlock
  deriving DecidableEq, Repr

/-- What fails in `Wsilo_Commit`: in the attempts to append; when the cache file is written, twice for each silo; `pwrite` of the
header (wsilo.c:549-551); the two index entries (wsilo.c:471, 564); `link` (wsilo.c:477); `unlink` or `close` of the hold file
(wsilo.c:218-220). -/
structure Fails where
  app : Nat → App := fun _ => .fine
  cache : Nat → CacheW := fun _ => .fine
  hdr : Bool := false
  idx : IdxW := .fine
  info : IdxW := .fine
  link : Bool := false
  unlink : Bool := false

/-- What comes of an attempt to append: the next silo is tried, the silo is write-protected, the record is in the silo, or an
assertion fails. -/
inductive Ret where
  | skip
  | protect
  | done
  | stop
  deriving DecidableEq, Repr

/-- wsilo.c:443-458: the record is in the silo. -/
def appendIdx (a : App) (w : World) (sl : Sl) (sn : Nat) (f : Silo) (hz id : Bytes) : Res (World × Ret) := do
  Res.check (0 < f.data.length)
  let r ← insertErr (match a with
    | .idx x => x
    | _ => .fine) w.dir id sl.idx sn f.data.length none
  let w := { w with silos := upd w.silos sn (some { f with data := f.data ++ (hz ++ sl.tail) }), dir := r.1 }
  if r.2 = false ∨ a = .unlock then return ({ w with holds := upd w.holds sn true }, .stop) else return (w, .done)

/-- wsilo.c:393-458: as `appendTo`.  If less than the record was written the assertion in wsilo.c:435 fails. -/
def appendErr (a : App) (w : World) (sl : Sl) (sn : Nat) (f : Silo) (hz id : Bytes) : Res (World × Ret) :=
  if w.holds sn ∨ a = .hold ∨ a = .silo then .ok (w, .skip)
  else match a with
    | .write k => .ok ({ w with silos := upd w.silos sn (some { f with data := f.data ++ (hz ++ sl.tail).take k }), holds := upd w.holds sn true }, .stop)
    | a => appendIdx a w sl sn f hz id

/-- wsilo.c:327-460 `silo_attempt_append`: as `attemptAppend`. -/
def attemptErr (env : Env) (F : Fails) (w : World) (sl : Sl) (sn : Nat) (hz id : Bytes) : Res (World × Ret) :=
  if F.app sn = .stat then .ok (w, .skip)
  else match w.silos sn with
    | none => .ok (w, .skip)
    | some f =>
      let w := putCacheErr (F.cache (2 * sn)) w (bumpNon sn w.cache)
      if f.writable = false then .ok (w, .protect)
      else
        let w := putCacheErr (F.cache (2 * sn + 1)) w (bumpSpace env.max f.data.length sn w.cache)
        if f.data.length + (hz.length + sl.tail.length) > env.max then .ok (w, .skip)
        else appendErr (F.app sn) w sl sn f hz id

/-- wsilo.c:510-519: as `appendLoop`. -/
def loopErr (env : Env) (F : Fails) (sl : Sl) (hz id : Bytes) : (k : Nat) → (sn : Nat) → World → Res (World × Ret)
  | 0, _, w => .ok (w, .skip)
  | k + 1, sn, w => do
    let r ← attemptErr env F w sl sn hz id
    if r.2 = .skip then loopErr env F sl hz id k (sn + 1) r.1 else return r

/-- wsilo.c:477-482, 213-225: the hold file gets its name; as the end of `install`. -/
def linkErr (F : Fails) (w : World) (sl : Sl) (file : Bytes) : World × Bool :=
  if F.link ∨ w.silos sl.no ≠ none then (w, false)
  else
    let w := { w with silos := upd w.silos sl.no (some { data := file, writable := true }) }
    let w := putCacheErr (F.cache (2 * sl.no)) w (bumpNon sl.no w.cache)
    if F.unlink then (w, false) else (abandon w sl, true)

/-- wsilo.c:531-564, 464-483: as `install`; the result says whether it returns. -/
def installErr (env : Env) (F : Fails) (w : World) (sl : Sl) (segd : Bool) (id : Bytes) (rid : Option Bytes) : Res (World × Bool) := do
  let file ← finalHold env sl
  let fl ← commitFlags sl segd rid
  if F.hdr then return (w, false)
  else do
    let r ← insertErr F.idx w.dir id fl sl.no sl.hdStart rid
    if r.2 = false then return ({ w with dir := r.1 }, false)
    else do
      let q ← insertErr F.info r.1 sl.infoId F_WARCINFO sl.no 0 none
      if q.2 = false then return ({ w with dir := q.1 }, false)
      else return linkErr F { w with dir := q.1 } sl file

/-- wsilo.c:485-565 `Wsilo_Commit`: as `wsiloCommit`; the result says whether it returns. -/
def commitErr (env : Env) (F : Fails) (w : World) (sl : Sl) (segd : Bool) (id : Bytes) (rid : Option Bytes) : Res (World × Bool) :=
  if segd = false ∧ 0 < sl.no then do
    let hz := env.pack9 (headerSerialize env.pfx sl.hd)
    let r ← loopErr env F sl hz id (sl.no - w.cache.firstSpace) w.cache.firstSpace w
    match r.2 with
    | .stop => return (r.1, false)
    | .done => if F.unlink then return (r.1, false) else return (abandon r.1 sl, true)
    | _ => installErr env F r.1 sl segd id rid
  else installErr env F w sl segd id rid

/-! ### A job -/

/-- segjob.c:369-385: as `commitSegs`; `F k` is what fails for segment `k`, counted from 0. -/
def segsErr (env : Env) (fid : Bytes) (size : Nat) (F : Nat → Fails) : (k : Nat) → List Seg → World → Res (World × Bool)
  | _, [], w => .ok (w, true)
  | k, s :: ss, w => do
    let h ← (if s.segno = 1 then headerSet s.hdr b!"WARC-Segment-Number" b!"1"
      else headerSetRef env.pfx env.idSize s.hdr b!"WARC-Segment-Origin-ID" fid)
    let h ← (if ss = [] then headerSet h b!"WARC-Segment-Total-Length" (dec size) else Res.ok h)
    let r ← commitErr env (F k) w { s.silo with hd := h } true h.id (ss.head?.map (·.hdr.id))
    if r.2 then segsErr env fid size F (k + 1) ss r.1 else return r

/-- segjob.c:336-387: as `commitJob`, for an object that is not there yet (if it is, hold files are removed only); the result is the
ID that the function returns, if it does. -/
def jobErr {σ : Type} (env : Env) (F : Nat → Fails) (fuel : Nat) (w : World) (sj : Job σ) : Res (World × Option Bytes) := do
  Res.check (0 < sj.size)
  match sj.segs with
  | [] => .fail
  | s :: ss => do
    let s ← (if ss = [] then Res.ok s else firstId env sj.ident sj.payload s)
    let id ← digest2Ident env.pfx env.idSize s.hdr.id
    let g ← getjobNew env.ps env.pfx env.idSize fuel w s.hdr.id
    match g with
    | .job _ => return (destroy w (s :: ss), some id)
    | .error _ => do
      let r ← (if ss = [] then commitErr env (F 0) w s.silo false s.hdr.id none else segsErr env s.hdr.id sj.size F 0 (s :: ss) w)
      return (r.1, if r.2 then some id else none)

/-- main_store.c:261-271: as `storeObj`.  What fails before the commit, and what fails in looking up the ID, is not in `F`: those are
assertion failures with nothing changed but hold files (wsilo.c:299-300), or `nextErr`. -/
def storeErr {σ : Type} (env : Env) (D : Deflater σ) (F : Nat → Fails) (fuel : Nat) (w : World) (h : Hdr) (ident : Option Bytes) (chunks : List Bytes) :
    Res (World × Option Bytes) := do
  let sj ← segjobNew env h ident
  let r ← feedAll env D fuel chunks w sj
  let q ← feedLoop env D fuel r.1 r.2 []
  jobErr env F fuel q.1 q.2

end Verif.StoreErr
