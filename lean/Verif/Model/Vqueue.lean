/-
Model of /repo/vqueue.h: the tail queues (`VTAILQ_*`), with their pointers.  Of the macros those
that the program uses.

An element is in at most one queue by a given field; for elements with several fields, each
field has a memory of its own.
-/
import Verif.Basic.Res

namespace Verif.Vqueue

/-- The address of a `struct` of two pointers: a queue head (vqueue.h:425-430 `VTAILQ_HEAD`) or the
    entry of an element (vqueue.h:435-440 `VTAILQ_ENTRY`).  Both have the pointer to the next element first, so that
    the address is also that of a pointer to an element. -/
inductive Slot where
  | head (h : Nat)
  | elem (e : Nat)
  deriving DecidableEq, Repr

/-- The memory: of each slot the first pointer (`vtqh_first`, `vtqe_next`) and the second one
    (`vtqh_last`, `vtqe_prev`). -/
structure Mem where
  nxt : Slot → Option Nat
  prv : Slot → Slot

/-- Assignment to the first pointer of a slot. -/
def Mem.setNxt (m : Mem) (p : Slot) (v : Option Nat) : Mem :=
  { m with nxt := fun x => if x = p then v else m.nxt x }

/-- Assignment to the second pointer of a slot. -/
def Mem.setPrv (m : Mem) (p : Slot) (v : Slot) : Mem :=
  { m with prv := fun x => if x = p then v else m.prv x }

/-- vqueue.h:457 `VTAILQ_FIRST`. -/
def first (m : Mem) (h : Nat) : Option Nat := m.nxt (.head h)

/-- vqueue.h:455 `VTAILQ_EMPTY`. -/
def empty (m : Mem) (h : Nat) : Bool := (first m h).isNone

/-- vqueue.h:542 `VTAILQ_NEXT`. -/
def next (m : Mem) (e : Nat) : Option Nat := m.nxt (.elem e)

/-- vqueue.h:539-540 `VTAILQ_LAST`: the slot in front of the last pointer is taken for a head. -/
def last (m : Mem) (h : Nat) : Option Nat := m.nxt (m.prv (m.prv (.head h)))

/-- vqueue.h:544-545 `VTAILQ_PREV`. -/
def prev (m : Mem) (e : Nat) : Option Nat := m.nxt (m.prv (m.prv (.elem e)))

/-- vqueue.h:499-502 `VTAILQ_INIT`. -/
def init (m : Mem) (h : Nat) : Mem := (m.setNxt (.head h) none).setPrv (.head h) (.head h)

/-- vqueue.h:532-537 `VTAILQ_INSERT_TAIL`. -/
def insertTail (m : Mem) (h e : Nat) : Mem :=
  let m := m.setNxt (.elem e) none
  let m := m.setPrv (.elem e) (m.prv (.head h))
  let m := m.setNxt (m.prv (.head h)) (some e)
  m.setPrv (.head h) (.elem e)

/-- vqueue.h:515-520 `VTAILQ_INSERT_BEFORE`. -/
def insertBefore (m : Mem) (f e : Nat) : Mem :=
  let m := m.setPrv (.elem e) (m.prv (.elem f))
  let m := m.setNxt (.elem e) (some f)
  let m := m.setNxt (m.prv (.elem f)) (some e)
  m.setPrv (.elem f) (.elem e)

/-- vqueue.h:548-553, the branch of `VTAILQ_REMOVE`: the pointer back from the element `n`, or the
    one to the end. -/
def backFrom (m : Mem) (h : Nat) (n : Option Nat) (v : Slot) : Mem :=
  match n with
  | some g => m.setPrv (.elem g) v
  | none => m.setPrv (.head h) v

/-- vqueue.h:547-557 `VTAILQ_REMOVE`; the pointers of the element itself stay (`TRASHIT` is nothing). -/
def remove (m : Mem) (h e : Nat) : Mem :=
  let m := backFrom m h (m.nxt (.elem e)) (m.prv (.elem e))
  m.setNxt (m.prv (.elem e)) (m.nxt (.elem e))

/-- vqueue.h:459-462 `VTAILQ_FOREACH` from `p` on: the elements visited; `none` if that has no end within
    the given number of steps. -/
def walk (m : Mem) : (fuel : Nat) → (p : Option Nat) → Option (List Nat)
  | _, none => some []
  | 0, some _ => none
  | fuel + 1, some e => (walk m fuel (next m e)).map (e :: ·)

/-- vqueue.h:479-482 `VTAILQ_FOREACH_REVERSE`. -/
def walkBack (m : Mem) : (fuel : Nat) → (p : Option Nat) → Option (List Nat)
  | _, none => some []
  | 0, some _ => none
  | fuel + 1, some e => (walkBack m fuel (prev m e)).map (e :: ·)

/-- vqueue.h:469-472 `VTAILQ_FOREACH_SAFE` with a body that removes the elements for which `p` holds (as in
    header.c:153-160): the elements visited, and the memory after it. -/
def walkSafe (h : Nat) (p : Nat → Bool) : (fuel : Nat) → Mem → Option Nat → Option (List Nat × Mem)
  | _, m, none => some ([], m)
  | 0, _, some _ => none
  | fuel + 1, m, some e =>
    (walkSafe h p fuel (if p e then remove m h e else m) (next m e)).map (fun r => (e :: r.1, r.2))

/-- The operations that change queues. -/
inductive Op where
  | init (h : Nat)
  | tail (h e : Nat)
  | before (f e : Nat)
  | remove (h e : Nat)
  deriving DecidableEq, Repr

/-- One operation. -/
def apply (m : Mem) : Op → Mem
  | .init h => init m h
  | .tail h e => insertTail m h e
  | .before f e => insertBefore m f e
  | .remove h e => remove m h e

end Verif.Vqueue
