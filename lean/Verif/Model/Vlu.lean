/-
Model of /repo/vlu.c: assembling lines from chunks of bytes.
-/
import Verif.Basic.CStr

namespace Verif.Vlu
open Verif

/-- vlu.c:45-54 `struct vlu`: `bufl` is the capacity, `buf` the first `bufp` bytes of the buffer. -/
structure Vlu where
  bufl : Nat
  buf : Bytes
  deriving DecidableEq, Repr

/-- vlu.c:56-75 `VLU_New`: one byte is kept for the final NUL.  `BUFSIZ` is 1024 on FreeBSD. -/
def vluNew (bufsize : Nat) : Vlu := { bufl := (if bufsize = 0 then 1024 else bufsize) - 1, buf := [] }

/-- CR or NL (vlu.c:104). -/
def isEol (c : UInt8) : Bool := c == 10 || c == 13

/-- vlu.c:93-123 `LineUpProcess`.  `done` is the part of the buffer before `p`, with the line ends
overwritten by NUL, `cur` the bytes between `p` and `q`, and the last argument the bytes from `q` on.
The result is the state of the callback, the new contents of the buffer and the return value. -/
def lineUp {σ : Type} (f : σ → Bytes → σ × Int) (s : σ) (done cur : Bytes) : Bytes → σ × Bytes × Int
  | [] => (s, cur, 0)
  | c :: cs =>
    if c = 0 then (s, cur, 0)
    else if isEol c then
      if (f s cur).2 ≠ 0 then ((f s cur).1, done ++ cur ++ 0 :: cs, (f s cur).2)
      else lineUp f (f s cur).1 (done ++ cur ++ [0]) [] cs
    else lineUp f s done (cur ++ [c]) cs

/-- `LineUpProcess` on the buffer contents `b`. -/
def process {σ : Type} (f : σ → Bytes → σ × Int) (l : Vlu) (s : σ) (b : Bytes) : σ × Vlu × Int :=
  let r := lineUp f s [] [] b
  (r.1, { l with buf := r.2.1 }, r.2.2)

/-- vlu.c:154-177 `VLU_Feed`, the loop.  `none`: not finished after `fuel` rounds. -/
def feed {σ : Type} (f : σ → Bytes → σ × Int) : (fuel : Nat) → Vlu → σ → Bytes → Option (σ × Vlu × Int)
  | 0, _, _, _ => none
  | fuel + 1, l, s, data =>
    if data = [] then some (s, l, 0)
    else
      let u := min data.length (l.bufl - l.buf.length)
      let r := process f l s (l.buf ++ data.take u)
      if r.2.2 ≠ 0 then some r
      else feed f fuel r.2.1 r.1 (data.drop u)

/-- vlu.c:125-138 `VLU_Fd` on a file whose unread bytes are `file`; the system call returns at most
`sz` bytes at a time.  The result also has the bytes left unread.  Read errors are not modelled. -/
def vluFd {σ : Type} (f : σ → Bytes → σ × Int) (sz : Nat) (l : Vlu) (s : σ) (file : Bytes) :
    (σ × Vlu × Int) × Bytes :=
  let n := min (min sz file.length) (l.bufl - l.buf.length)
  if n = 0 then ((s, l, -2), file)
  else (process f l s (l.buf ++ file.take n), file.drop n)

/-- vlu.c:140-152 `VLU_File`: read until the callback or the end of the file stops it.  `sz i` is the
most the `i`th `read(2)` returns. -/
def vluFile {σ : Type} (f : σ → Bytes → σ × Int) (sz : Nat → Nat) :
    (fuel : Nat) → (i : Nat) → Vlu → σ → Bytes → Option (σ × Int)
  | 0, _, _, _, _ => none
  | fuel + 1, i, l, s, file =>
    let r := vluFd f (sz i) l s file
    if r.1.2.2 = 0 then vluFile f sz fuel (i + 1) r.1.2.1 r.1.1 r.2
    else some (r.1.1, r.1.2.2)

end Verif.Vlu
