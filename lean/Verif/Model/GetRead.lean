/-
Model of /repo/rsilo.c, getjob.c and main_get.c when read(2) fails for the body of a record.
-/
import Verif.Model.MainStore

namespace Verif.GetRead
open Verif Header Index Rsilo Getjob Wsilo Segjob MainStore Gzip Inflate

/-- For a segment that is read: the number of calls of read(2) that succeed before one fails, or that none fails. -/
abbrev Fault := Option Nat

/-- rsilo.c:240-252: the loop of `Rsilo_ReadGZChunk`, as `Rsilo.gzLoop`; an error of read(2) is treated like the end of the file
(rsilo.c:245-246). -/
def gzLoopErr {σ : Type} (ps : Nat) (func : ByteIter σ) : (fuel : Nat) → Fault → Rs → σ → (ll : Nat) → Res (σ × Rs × Nat)
  | 0, _, rs, s, _ => pure (s, rs, 0)
  | fuel + 1, t, rs, s, ll =>
    if t = some 0 then pure (s, rs, 0)
    else
      let d := read rs (min (32 * ps : Nat) rs.bodylen.toNat)
      if d = [] then pure (s, rs, 0)
      else do
        let r ← func s d
        let rs1 := { rs with pos := rs.pos + d.length }
        if r.2 ≠ 0 then pure (r.1, rs1, 0)
        else
          let rs2 := { rs1 with bodylen := rs1.bodylen - d.length }
          if rs2.bodylen > 0 then gzLoopErr ps func fuel (t.map (· - 1)) rs2 r.1 (ll + d.length)
          else pure (r.1, { rs2 with whr := .crlf }, ll + d.length)

/-- rsilo.c:227-255 `Rsilo_ReadGZChunk`. -/
def readGZChunkErr {σ : Type} (ps : Nat) (func : ByteIter σ) (t : Fault) (rs : Rs) (s : σ) : Res (σ × Rs × Nat) := do
  Res.check (rs.whr = .body)
  let r ← gzLoopErr ps func (rs.bodylen.toNat + 1) t rs s 0
  pure (r.1, r.2.1, r.2.2 % 2 ^ 32)

/-- Whether `Rsilo_ReadChunk` meets the error: it reads a page at a time, and no more when `inflate` has come to the end of the
member (rsilo.c:277-296). -/
def met (ps : Nat) (t : Fault) (rs : Rs) : Bool :=
  match t with
  | none => false
  | some k => (gunzip1 ((rs.file.drop rs.pos).take (k * ps))).isNone

/-- rsilo.c:259-304 `Rsilo_ReadChunk`; `assert(i > 0)` (rsilo.c:279).  What was delivered before is not modelled. -/
def readChunkErr {σ : Type} (ps : Nat) (cut : Bytes → List Bytes) (func : ByteIter σ) (t : Fault) (rs : Rs) (s : σ) : Res (σ × Rs × Nat) :=
  if met ps t rs then .fail else readChunk cut func rs s

/-- getjob.c:251-254; the faults of the segments in turn. -/
def iterPlainErr {σ : Type} (ps : Nat) (cut : Bytes → List Bytes) (func : ByteIter σ) : List Fault → List GSeg → σ → Res σ
  | _, [], s => .ok s
  | ts, g :: gs, s => do
    let r ← readChunkErr ps cut func (ts.headD none) g.rs s
    if r.2.2 = 0 then return r.1 else iterPlainErr ps cut func ts.tail gs r.1

/-- getjob.c:260-262. -/
def iterStitchErr {σ : Type} (ps : Nat) (func : σ → Bytes → σ × Int) : List Fault → List GSeg → Stitch σ → Res (Stitch σ)
  | _, [], s => .ok s
  | ts, g :: gs, s => do
    let r ← readGZChunkErr ps (stitchIter func) (ts.headD none) g.rs s
    if r.2.2 = 0 then return r.1 else iterStitchErr ps func ts.tail gs r.1

/-- getjob.c:243-265 `GetJob_Iter`, which returns nothing. -/
def getjobIterateErr {σ : Type} (ps : Nat) (cut : Bytes → List Bytes) (ts : List Fault) (gj : GJ) (func : σ → Bytes → σ × Int) (s : σ)
    (gzip : Bool) : Res σ :=
  if gzip = false then iterPlainErr ps cut (fun s d => .ok (func s d)) ts gj.segs s
  else
    match gj.segs with
    | [g] => do
      let r ← readGZChunkErr ps (fun s d => .ok (func s d)) (ts.headD none) g.rs s
      return r.1
    | gs => do
      let st ← iterStitchErr ps func ts gs (stitchNew func s)
      return (stitchFini func st).1

/-- main_get.c:158-183: the object, as `MainStore.getObj`; with `-z` nothing is compared. -/
def getObjErr (env : Env) (cut : Bytes → List Bytes) (ts : List Fault) (gj : GJ) (zip : Bool) : Res Bytes := do
  let h1 ← gjHeader gj true
  let h9 ← gjHeader gj false
  let d ← getjobIterateErr env.ps cut ts gj getIter [] zip
  if zip then return d
  else do
    selfCheck env h1 h9 d
    return d

end Verif.GetRead
