/-
Model of /repo/vnum.c: numbers with size suffixes.

Floating point: a `double` is a rational, and the arithmetic of the machine is a parameter `FP`, about
which Verif/Props/Vnum.lean only assumes the usual error bounds.  Infinities, NaN as a number and
overflow are not modelled (numerals near 1e308); the exponent, which the C code also keeps in
`double`s, is an exact integer here.
-/
import Verif.Basic.CStr

namespace Verif.Vnum
open Verif

/-- The floating point operations vnum.c uses. -/
structure FP where
  mul : Rat → Rat → Rat
  add : Rat → Rat → Rat
  sub : Rat → Rat → Rat
  /-- `pow(10., e)` -/
  pow10 : Int → Rat

/-- State of the mantissa loop, vnum.c:55-57. -/
structure Mant where
  m : Rat
  e : Int
  ne : Int
  rest : Bytes

/-- vnum.c:69-79: digits and one decimal point. -/
def mantissa (fp : FP) : Bytes → Rat → Int → Int → Mant
  | [], m, e, ne => ⟨m, e, ne, []⟩
  | c :: p, m, e, ne =>
    if isDigit c then
      mantissa fp p (fp.sub (fp.add (fp.mul m 10) (c.toNat : Rat)) 48) ne (if ne ≠ 0 then ne - 1 else ne)
    else if c = 46 ∧ ne = 0 then mantissa fp p m e (-1)
    else ⟨m, e, ne, c :: p⟩

/-- vnum.c:88-89: digits of the exponent. -/
def expDigits : Bytes → Nat → Nat × Bytes
  | [], ee => (ee, [])
  | c :: p, ee => if isDigit c then expDigits p (ee * 10 + (c.toNat - 48)) else (ee, c :: p)

/-- vnum.c:64-65, 91-92. -/
def skipSp : Bytes → Bytes
  | [] => []
  | c :: p => if isSpace c then skipSp p else c :: p

/-- An optional sign (vnum.c:67-68, 84-85). -/
def sign : Bytes → Int × Bytes
  | [] => (1, [])
  | c :: p => if c = 45 then (-1, p) else if c = 43 then (1, p) else (1, c :: p)

/-- vnum.c:82-90: the exponent; `none` if there are no digits. -/
def exponent (p : Bytes) : Option (Int × Bytes) :=
  match p with
  | [] => some (0, [])
  | c :: q =>
    if c = 101 ∨ c = 69 then
      let s := sign q
      match s.2 with
      | [] => none
      | d :: _ => if isDigit d then some (s.1 * ((expDigits s.2 0).1 : Int), (expDigits s.2 0).2) else none
    else some (0, c :: q)

/-- vnum.c:51-95 `VNUMpfx`: the value (`none` for NaN) and the text behind the number. -/
def vnumPfx (fp : FP) (p : Bytes) : Option (Rat × Bytes) :=
  let s := sign (skipSp p)
  let r := mantissa fp s.2 0 1 0
  if r.e > 0 then none
  else
    match exponent r.rest with
    | none => none
    | some (x, rest) => some (fp.mul (fp.mul (s.1 : Rat) r.m) (fp.pow10 (r.e + x)), skipSp rest)

/-- Results of `VNUM_2bytes`; the number went through a cast to `uintmax_t`, which is undefined for
values outside its range. -/
inductive Out where
  | missing | invalid | absReq | badSuffix
  | ok (v : Nat)
  | ub
  deriving DecidableEq, Repr

/-- Cast of a `double` to `uintmax_t`: truncation. -/
def castU64 (x : Rat) : Out :=
  if -1 < x ∧ x < 2 ^ 64 then .ok x.floor.toNat else .ub

/-- round(3): half away from zero. -/
def round (x : Rat) : Rat := if 0 ≤ x then ((x + 1/2).floor : Rat) else -((-x + 1/2).floor : Rat)

/-- vnum.c:126-148: the multiplier letter and the number of bits it stands for. -/
def letter : Bytes → Nat × Bytes
  | [] => (0, [])
  | c :: p =>
    if c = 107 ∨ c = 75 then (10, p)
    else if c = 109 ∨ c = 77 then (20, p)
    else if c = 103 ∨ c = 71 then (30, p)
    else if c = 116 ∨ c = 84 then (40, p)
    else if c = 112 ∨ c = 80 then (50, p)
    else (0, c :: p)

/-- vnum.c:150-152. -/
def optB : Bytes → Bytes
  | [] => []
  | c :: p => if c = 98 ∨ c = 66 then p else c :: p

/-- vnum.c:122-124: a space before the multiplier. -/
def optSpace : Bytes → Bytes
  | [] => []
  | [c] => [c]
  | c :: d :: p => if c = 32 then d :: p else c :: d :: p

/-- vnum.c:99-161 `VNUM_2bytes`.  The multiplication is skipped when there is no letter. -/
def vnum2bytes (fp : FP) (p : Bytes) (rel : Nat) : Out :=
  if p = [] then .missing
  else
    match vnumPfx fp p with
    | none => .invalid
    | some (f, []) => castU64 f
    | some (f, [37]) => if rel = 0 then .absReq else castU64 (round (fp.mul f (fp.mul (rel : Rat) (1/100))))
    | some (f, e) =>
      let l := letter (optSpace e)
      if optB l.2 ≠ [] then .badSuffix
      else castU64 (round (if l.1 = 0 then f else fp.mul f (2 ^ l.1)))

end Verif.Vnum
