/-
Model of /repo/main_rebuild.c: writing silos anew.
-/
import Verif.Model.Segjob
import Verif.Model.Rsilo

namespace Verif.Rebuild
open Verif Header Gzip Wsilo Segjob Rsilo Inflate

/-- What stays the same: the environment, `BUFSIZ`, and the size of `obuf` in `struct rebuild` (main_rebuild.c:48-66; 128 KiB). -/
structure Cfg where
  env : Env
  bufsiz : Nat
  osz : Nat

/-- main_rebuild.c:48-66 `struct rebuild`, as far as it matters in each of the states: 0, 1, 3, 10, 11 (as it is found at the start of a round, with
`rlen` 0) and 20.  `bs` is `body_start`. -/
inductive St (σ : Type) where
  | start
  | head (buf : Bytes)
  | fix (h : Hdr) (clen : Int) (got : Bytes)
  | body (left : Int) (bs : Nat) (gz : σ)
  | last (bs : Nat) (gz : σ) (avail : Bytes)
  | sep (left : Nat)

/-- What a round leaves: the state, the contents of the new file, and the input not taken. -/
structure Rb (σ : Type) where
  st : St σ
  out : Bytes
  rest : Bytes

/-- `strstr(3)` for an empty line: the position behind it. -/
def blankEnd : Bytes → Option Nat
  | [] => none
  | c :: l => if (b!"\r\n\r\n").isPrefixOf (c :: l) then some 4 else (blankEnd l).map (· + 1)

/-- main_rebuild.c:112-122, 155-165: write the header, and set up the compressor. -/
def putHeader (c : Cfg) (h : Hdr) (out : Bytes) : Bytes := out ++ c.env.pack0 (headerSerialize c.env.pfx h)

/-- main_rebuild.c:96-127: the header is complete. -/
def gotHeader {σ : Type} (c : Cfg) (D : Deflater σ) (buf out : Bytes) : Res (Rb σ) := do
  let h ← headerParse c.env.pfx (cstr buf)
  let clen ← headerGetNumber h b!"Content-Length"
  let h ← headerDelete h b!"Content-Length-GZIP"
  let h ← headerDelete h b!"z"
  if (headerGet h b!"WARC-record-digest").isSome then return ⟨.fix h clen [], out, []⟩
  else return ⟨.body clen (putHeader c h out).length D.init, putHeader c h out, []⟩

/-- main_rebuild.c:80-95: collect the header -/
def takeHead {σ : Type} (c : Cfg) (D : Deflater σ) (buf out p : Bytes) : Res (Rb σ) := do
  Res.check (buf.length + p.length + 1 < c.bufsiz)
  match blankEnd (cstr (buf ++ p)) with
  | none => return ⟨.head (buf ++ p), out, []⟩
  | some n => do
    Res.check (n = (buf ++ p).length)
    gotHeader c D (buf ++ p) out

/-- main_rebuild.c:146-172: the contents are complete. -/
def fixed {σ : Type} (c : Cfg) (D : Deflater σ) (h : Hdr) (data out p : Bytes) : Res (Rb σ) := do
  let h ← headerSet h b!"WARC-Block-digest" (b!"sha256:" ++ c.env.sha data)
  let h ← headerSetId c.env.idSize h (c.env.sha data)
  return ⟨.last (putHeader c h out).length D.init data, putHeader c h out, p⟩

/-- main_rebuild.c:129-173: an old record, of which digest and ID are computed anew.  `fixbuf` has `BUFSIZ` bytes.  The messages are left out. -/
def takeFix {σ : Type} (c : Cfg) (D : Deflater σ) (h : Hdr) (clen : Int) (got out p : Bytes) : Res (Rb σ) := do
  let h ← headerDelete h b!"WARC-record-digest"
  Res.access (0 ≤ clen)
  let oz := min (clen.toNat - got.length) p.length
  Res.access (got.length + oz ≤ c.bufsiz)
  if got.length + oz < clen.toNat then return ⟨.fix h clen (got ++ p.take oz), out, p.drop oz⟩
  else fixed c D h (got ++ p.take oz) out (p.drop oz)

/-- main_rebuild.c:186-218: the end of the contents: finish the member, patch its length in, and write the separator. -/
def endBody {σ : Type} (c : Cfg) (D : Deflater σ) (bs : Nat) (gz : σ) (avail out p : Bytes) : Res (Rb σ) := do
  let z := D.deflate gz avail .sync c.osz
  Res.check (z.ret = .ok)
  let y := D.deflate z.state (avail.drop z.used) .finish (c.osz - z.out.length)
  Res.check (y.ret = .streamEnd)
  Res.check (D.endOk y.state)
  let out := out ++ z.out ++ y.out
  let out ← writeAa out bs ((out.length : Int) - bs)
  return ⟨.sep 4, out ++ crnlcrnl, p⟩

/-- main_rebuild.c:174-206: contents.  What `deflate` has not taken of the input is lost, as `avail_in` is set anew. -/
def takeBody {σ : Type} (c : Cfg) (D : Deflater σ) (left : Int) (bs : Nat) (gz : σ) (out p : Bytes) : Res (Rb σ) := do
  Res.access (0 ≤ left)
  let oz := min left.toNat p.length
  if oz < left.toNat then do
    let z := D.deflate gz (p.take oz) .none c.osz
    Res.check (z.ret = .ok)
    return ⟨.body (left - oz) bs z.state, out ++ z.out, p.drop oz⟩
  else endBody c D bs gz (p.take oz) out (p.drop oz)

/-- main_rebuild.c:79-230: one round of the loop of `rebuild_process` -/
def round {σ : Type} (c : Cfg) (D : Deflater σ) (st : St σ) (out p : Bytes) : Res (Rb σ) :=
  match st with
  | .start => takeHead c D [] out p
  | .head buf => takeHead c D buf out p
  | .fix h clen got => takeFix c D h clen got out p
  | .body left bs gz => takeBody c D left bs gz out p
  | .last bs gz avail => endBody c D bs gz avail out p
  | .sep left => .ok ⟨if left - min left p.length = 0 then .start else .sep (left - min left p.length), out, p.drop (min left p.length)⟩

/-- main_rebuild.c:68-231 `rebuild_process`.  Of three rounds at least one takes input, which bounds their number. -/
def process {σ : Type} (c : Cfg) (D : Deflater σ) : (fuel : Nat) → St σ → (out p : Bytes) → Res (St σ × Bytes)
  | 0, _, _, _ => .fail
  | fuel + 1, st, out, p =>
    if p = [] then .ok (st, out)
    else do
      let r ← round c D st out p
      process c D fuel r.st r.out r.rest

/-- main_rebuild.c:277-280: the pieces `inflate` makes of a member; `obuf[oz] = '\0'` needs one byte more than the piece. -/
def pieces {σ : Type} (c : Cfg) (D : Deflater σ) : List Bytes → St σ → Bytes → Res (St σ × Bytes)
  | [], st, out => .ok (st, out)
  | p :: ps, st, out => do
    Res.access (p.length < 16 * c.env.ps)
    let r ← process c D (3 * p.length + 4) st out p
    pieces c D ps r.1 r.2

/-- main_rebuild.c:234-291 `rebuild_silo_iter`: member after member.  `cut` says in which pieces `inflate` hands out the contents of
a member, which depends on where in the file it is.  The loop ends at the
end of the file and, without a message, at what is not a whole gzip member; of such a member nothing is delivered in the model. -/
def members {σ : Type} (c : Cfg) (D : Deflater σ) (cut : Nat → Bytes → List Bytes) : (fuel : Nat) → (file : Bytes) → St σ → Bytes → Res (St σ × Bytes)
  | 0, _, _, _ => .fail
  | fuel + 1, file, st, out =>
    match gunzip1 file with
    | none => .ok (st, out)
    | some (data, rest) => do
      let r ← pieces c D (cut file.length data) st out
      members c D cut fuel rest r.1 r.2

/-- main_rebuild.c:234-291 for a file: the state, which is kept for the next one, and the contents of the new file. -/
def rebuildSilo {σ : Type} (c : Cfg) (D : Deflater σ) (cut : Nat → Bytes → List Bytes) (st : St σ) (file : Bytes) : Res (St σ × Bytes) :=
  members c D cut (file.length + 1) file st []

/-- main_rebuild.c:302-340 `main_rebuild`: file after file; the contents of the new files. -/
def rebuildFiles {σ : Type} (c : Cfg) (D : Deflater σ) (cut : Nat → Bytes → List Bytes) : List Bytes → St σ → Res (List Bytes)
  | [], _ => .ok []
  | f :: fs, st => do
    let r ← rebuildSilo c D cut st f
    let l ← rebuildFiles c D cut fs r.1
    return r.2 :: l

def mainRebuild {σ : Type} (c : Cfg) (D : Deflater σ) (cut : Nat → Bytes → List Bytes) (files : List Bytes) : Res (List Bytes) := rebuildFiles c D cut files .start

end Verif.Rebuild
