/-
Model of the event loop in /repo/proto.c:54-162, which both sides of `stow` run in.

An event is known by its address.  What a handler does to the list of events is a list of calls of `proto_add_ev`,
`proto_del_ev` and `proto_ctl_ev`; which ones is up to the handler, and may depend on anything.  What `poll(2)` and
`calloc(3)` return is up to the environment.  Simplifications: `close(2)` does not fail, and `nevs` does not overflow.
-/
import Verif.Basic.Res

namespace Verif.Evloop
open Verif

/-- proto.c:66-76 `struct ev`; `idx` is `none` for -1. -/
structure Ev where
  addr : Nat
  fd : Nat
  events : Nat
  enable : Bool
  idx : Option Nat
  deriving DecidableEq, Repr

/-- proto.c:78-79: the list, and how many events were ever added. -/
structure Loop where
  evs : List Ev
  nevs : Nat
  deriving DecidableEq, Repr

/-- The calls that change the list.  `addr` in `add` is what `calloc(3)` returns; in the others it is the value of the variable
which the caller keeps, 0 if the event has been removed. -/
inductive Op where
  | add (addr fd events : Nat)
  | del (addr : Nat)
  | ctl (addr : Nat) (enable : Bool)
  deriving DecidableEq, Repr

/-- Is there an event at this address? -/
def live (l : Loop) (a : Nat) : Bool := l.evs.any (fun e => e.addr == a)

/-- proto.c:81-97 `proto_add_ev` -/
def addEv (l : Loop) (addr fd events : Nat) : Loop :=
  { evs := l.evs ++ [⟨addr, fd, events, true, none⟩], nevs := l.nevs + 1 }

/-- proto.c:99-113 `proto_del_ev` -/
def delEv (l : Loop) (a : Nat) : Res Loop := do
  Res.check (live l a)
  .ok { l with evs := l.evs.filter (fun e => e.addr != a) }

/-- proto.c:115-126 `proto_ctl_ev` -/
def ctlEv (l : Loop) (a : Nat) (b : Bool) : Res Loop := do
  Res.check (live l a)
  .ok { l with evs := l.evs.map (fun e => if e.addr = a then { e with enable := b } else e) }

/-- One call. -/
def op (l : Loop) : Op → Res Loop
  | .add a fd ev => .ok (addEv l a fd ev)
  | .del a => delEv l a
  | .ctl a b => ctlEv l a b

/-- The calls of one handler, in order. -/
def ops (l : Loop) : List Op → Res Loop
  | [] => .ok l
  | o :: os => op l o >>= fun l' => ops l' os

/-- proto.c:141-151: fill in `fds`, which has room for `nfds`; what is filled in are the descriptors and the events asked for. -/
def fill (nfds : Nat) : (idx : Nat) → List Ev → Res (List Ev × List (Nat × Nat))
  | _, [] => .ok ([], [])
  | idx, e :: es =>
    if e.enable = false then do
      let r ← fill nfds idx es
      .ok ({ e with idx := none } :: r.1, r.2)
    else do
      Res.access (decide (idx < nfds))
      let r ← fill nfds (idx + 1) es
      .ok ({ e with idx := some idx } :: r.1, (e.fd, e.events) :: r.2)

/-- `VTAILQ_NEXT` of the event at address `a` -/
def next (a : Nat) : List Ev → Option Nat
  | [] => none
  | e :: es => if e.addr = a then es.head?.map (·.addr) else next a es

/-- A call of a handler: event, descriptor, `revents`. -/
structure Call where
  addr : Nat
  fd : Nat
  revents : Nat
  deriving DecidableEq, Repr

/-- proto.c:155-159: the loop over the events, from the one at this address on.  `rev` is what poll(2) left in `fds`, `hand` what the handlers do, `cs`
the calls so far.  `VTAILQ_FOREACH_SAFE` (vqueue.h) looks up the next event before the handler is called; if that event has been freed when its turn comes, it is used
after that.  The result is `none` if this number of steps is not enough. -/
def pass (rev : List Nat) (hand : Loop → Call → List Op) : (fuel : Nat) → Option Nat → Loop → List Call → Option (Res (Loop × List Call))
  | _, none, l, cs => some (.ok (l, cs))
  | 0, some _, _, _ => none
  | k + 1, some a, l, cs =>
    match l.evs.find? (fun e => e.addr == a) with
    | none => some .ub
    | some e =>
      match e.idx with
      | none => pass rev hand k (next a l.evs) l cs
      | some i =>
        match rev[i]? with
        | none => some .ub
        | some r =>
          if r = 0 then pass rev hand k (next a l.evs) l cs
          else
            match ops l (hand l ⟨a, e.fd, r⟩) with
            | .ok l' => pass rev hand k (next a l.evs) l' (cs ++ [⟨a, e.fd, r⟩])
            | .fail => some .fail
            | .ub => some .ub

/-- proto.c:136-160: one round.  `nfds` is how many entries `fds` has room for; `poll` what poll(2) leaves in `revents` of the entries that
are filled in.  The result has the new `nfds`, the events, and the calls made. -/
def round (fuel nfds : Nat) (poll : List (Nat × Nat) → List Nat) (hand : Loop → Call → List Op) (l : Loop) : Option (Res (Nat × Loop × List Call)) :=
  let nfds := if nfds < l.nevs then l.nevs else nfds
  match fill nfds 0 l.evs with
  | .ok (evs, fds) =>
    if fds = [] then some .fail
    else if (poll fds).all (· == 0) then some .fail
    else
      match pass (poll fds) hand fuel (evs.head?.map (·.addr)) { l with evs := evs } [] with
      | none => none
      | some (.ok r) => some (.ok (nfds, r))
      | some .fail => some .fail
      | some .ub => some .ub
  | .fail => some .fail
  | .ub => some .ub

/-- What there is outside the loop, for one round: how many steps to go, what poll(2) says, what the handlers do. -/
structure Turn where
  fuel : Nat
  poll : List (Nat × Nat) → List Nat
  hand : Loop → Call → List Op

/-- proto.c:128-162 `proto_dispatch_evs`, for some number of rounds; the result has the calls of each round.  It is `none` if `Turn.fuel` was not enough in one of them. -/
def dispatch (nfds : Nat) (l : Loop) : List Turn → Option (Res (Loop × List (List Call)))
  | [] => some (.ok (l, []))
  | t :: ts =>
    if l.evs = [] then some (.ok (l, []))
    else
      match round t.fuel nfds t.poll t.hand l with
      | none => none
      | some (.ok (n, l', cs)) =>
        match dispatch n l' ts with
        | some (.ok (l'', css)) => some (.ok (l'', cs :: css))
        | r => r
      | some .fail => some .fail
      | some .ub => some .ub

end Verif.Evloop
