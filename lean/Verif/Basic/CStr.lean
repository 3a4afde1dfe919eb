/-
C strings (byte strings without NUL), hexadecimal and decimal text.
-/
import Verif.Basic.Bytes

namespace Verif

/-- `tolower(3)` in the C locale. -/
def toLower (c : UInt8) : UInt8 := if 65 ≤ c ∧ c ≤ 90 then c + 32 else c

/-- `isdigit(3)`. -/
def isDigit (c : UInt8) : Bool := 48 ≤ c && c ≤ 57

/-- Membership in the set "0123456789abcdefABCDEF" used with `strspn(3)`. -/
def isHex (c : UInt8) : Bool :=
  (48 ≤ c && c ≤ 57) || (97 ≤ c && c ≤ 102) || (65 ≤ c && c ≤ 70)

/-- `isspace(3)` in the C locale. -/
def isSpace (c : UInt8) : Bool := c == 32 || (9 ≤ c && c ≤ 13)

/-- `isgraph(3)` in the C locale. -/
def isGraph (c : UInt8) : Bool := 33 ≤ c && c ≤ 126

/-- `strcmp(3)` on byte strings without NUL. -/
def strcmp : Bytes → Bytes → Ordering
  | [], [] => .eq
  | [], _ :: _ => .lt
  | _ :: _, [] => .gt
  | a :: as, b :: bs => if a < b then .lt else if b < a then .gt else strcmp as bs

/-- `strcasecmp(3)`. -/
def strcasecmp (a b : Bytes) : Ordering := strcmp (a.map toLower) (b.map toLower)

/-- `strncmp(a, b, n) == 0`. -/
def strncmpEq (a b : Bytes) (n : Nat) : Bool := a.take n == b.take n

/-- `strncasecmp(a, b, n) == 0`. -/
def strncasecmpEq (a b : Bytes) (n : Nat) : Bool :=
  (a.take n).map toLower == (b.take n).map toLower

/-- One lower-case hex digit, as `%x` prints it. -/
def hexLc (n : Nat) : UInt8 := if n < 10 then UInt8.ofNat (48 + n) else UInt8.ofNat (87 + n)

/-- Lower-case hex text of a byte string (`%016jx`, `%08x`, `SHA256_End`). -/
def hexStr : Bytes → Bytes
  | [] => []
  | b :: bs => hexLc (b.toNat / 16) :: hexLc (b.toNat % 16) :: hexStr bs

/-- Decimal digits of a number, least significant first; the fuel bounds the number of digits. -/
def decAux : (fuel : Nat) → Nat → Bytes
  | 0, _ => []
  | fuel + 1, n =>
    if n < 10 then [UInt8.ofNat (48 + n)] else UInt8.ofNat (48 + n % 10) :: decAux fuel (n / 10)

/-- `%u` / `%ju` / `%jd` of a non-negative number. -/
def dec (n : Nat) : Bytes := (decAux (n + 1) n).reverse

end Verif
