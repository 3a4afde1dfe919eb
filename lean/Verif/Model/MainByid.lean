/-
Models of /repo/main_byid.c and /repo/main_dumpindex.c: listing records by the start of their IDs, and listing the index.
-/
import Verif.Model.Getjob
import Verif.Model.ValidId

namespace Verif.MainByid
open Verif Header Index Getjob Wsilo

/-- main_byid.c:62-87 `byid_iter` for one record: the line.  `printf` with a NULL string is undefined. -/
def byidRec (ps : Nat) (pfx : Bytes) (w : World) (e : Entry) : Res Bytes := do
  let r ← openRec ps pfx w e.silo e.off
  match headerGet r.1 b!"WARC-Type" with
  | none => .ub
  | some t => .ok (b!"id " ++ r.1.id ++ b!" wt " ++ t ++ b!"\n")

/-- main_byid.c:62-87 `byid_iter`: what has been printed and `retval`. -/
def byidIter (ps : Nat) (pfx : Bytes) (w : World) : Res (Bytes × Nat) → Entry → Res (Bytes × Nat) × Int
  | .ok s, e =>
    match byidRec ps pfx w e with
    | .ok l => (.ok (s.1 ++ l, s.2 + 1), 0)
    | .fail => (.fail, 1)
    | .ub => (.ub, 1)
  | r, _ => (r, 1)

/-- main_byid.c:117-119: the prefix is dropped -/
def byidFrag (pfx a : Bytes) : Bytes := if strncasecmpEq a pfx pfx.length then a.drop pfx.length else a

/-- What the program prints, and how it ends: an exit status. -/
structure ByidOut where
  out : Bytes
  status : Nat
  deriving DecidableEq, Repr

/-- main_byid.c:116-125: the arguments in turn -/
def byidArgs (ps : Nat) (pfx : Bytes) (w : World) (ok : Bool) : List Bytes → Bytes × Nat → Res ByidOut
  | [], s => .ok ⟨s.1, if ok then 0 else if s.2 < 256 then s.2 else 255⟩
  | a :: as, s =>
    if (byidFrag pfx a).all isHex = false then .ok ⟨s.1, 1⟩
    else do
      let r ← idxIter w.dir (some (byidFrag pfx a)) (byidIter ps pfx w) (.ok s)
      let s ← r.1
      byidArgs ps pfx w ok as s

/-- main_byid.c:89-129 `main_byid`; `ok` is the option `-e`.  Overflow of `retval` is not modelled. -/
def mainByid (ps : Nat) (pfx : Bytes) (w : World) (ok : Bool) (args : List Bytes) : Res ByidOut := byidArgs ps pfx w ok args ([], 0)

/-- `%*s` with a positive width: blanks in front -/
def padLeft (n : Nat) (c : UInt8) (t : Bytes) : Bytes := List.replicate (n - t.length) c ++ t

/-- The digits of `n` in lower-case hex, at most `k` of them, without leading zeros (but with one digit). -/
def hexDigits : (k : Nat) → (n : Nat) → Bytes
  | 0, _ => []
  | k + 1, n => if n < 16 then [hexLc n] else hexDigits k (n / 16) ++ [hexLc (n % 16)]

/-- main_dumpindex.c:62: the line for an entry -/
def dumpLine (e : Entry) : Bytes :=
  e.key ++ b!" 0x" ++ padLeft 8 48 (hexDigits 8 e.flags) ++ b!" " ++ padLeft 8 32 (dec e.silo) ++ b!" " ++ padLeft 12 32 (dec e.off) ++ b!" " ++ e.cont ++ b!"\n"

/-- main_dumpindex.c:53-64 `dumpindex_iter`; `u` is 0 or the flag given with `-t`. -/
def dumpIter (u : Nat) (s : Bytes) (e : Entry) : Bytes × Int :=
  if u ≠ 0 ∧ e.flags ≠ u then (s, 0) else (s ++ dumpLine e, 0)

/-- main_dumpindex.c:104-106: the arguments in turn -/
def dumpArgs (d : Dir) (u : Nat) : List Bytes → Bytes → Res Bytes
  | [], s => .ok s
  | a :: as, s => do
    let r ← idxIter d (some a) (dumpIter u) s
    dumpArgs d u as r.1

/-- main_dumpindex.c:66-108 `main_dumpindex` -/
def mainDumpindex (d : Dir) (u : Nat) (args : List Bytes) : Res Bytes :=
  if args = [] then do
    let r ← idxIter d none (dumpIter u) []
    return r.1
  else dumpArgs d u args []

end Verif.MainByid
