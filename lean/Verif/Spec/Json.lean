/-
JSON, RFC 8259: which texts are JSON, and what they say.
-/
import Verif.Basic.Bytes

namespace Verif.Spec.Json
open Verif

/-- What a text says.  Strings and numbers are as they are written; the members of an object are in their order, and a name may be there twice
(RFC 8259, section 4). -/
inductive J where
  | lit (b : Bytes)
  | num (b : Bytes)
  | str (b : Bytes)
  | arr (l : List J)
  | obj (l : List (Bytes × J))
  deriving BEq, Repr

/-- Section 2, `ws`. -/
def isWs (c : UInt8) : Bool := c = 32 ∨ c = 9 ∨ c = 10 ∨ c = 13

def skip : Bytes → Bytes
  | [] => []
  | c :: cs => if isWs c then skip cs else c :: cs

def isHexDigit (c : UInt8) : Bool := (48 ≤ c ∧ c ≤ 57) ∨ (97 ≤ c ∧ c ≤ 102) ∨ (65 ≤ c ∧ c ≤ 70)

/-- Section 7: a string behind its first quotation mark; what is in it, and what follows.  That it is UTF-8 is not asked for. -/
def string : Bytes → Option (Bytes × Bytes)
  | [] => none
  | 34 :: cs => some ([], cs)
  | 92 :: 117 :: a :: b :: c :: d :: cs =>
    if isHexDigit a && isHexDigit b && isHexDigit c && isHexDigit d then (string cs).map fun r => (92 :: 117 :: a :: b :: c :: d :: r.1, r.2) else none
  | 92 :: c :: cs => if c ∈ b!"\"\\/bfnrt" then (string cs).map fun r => (92 :: c :: r.1, r.2) else none
  | c :: cs => if c < 32 ∨ c = 92 then none else (string cs).map fun r => (c :: r.1, r.2)

def isDigit (c : UInt8) : Bool := 48 ≤ c ∧ c ≤ 57

/-- Digits, and what follows. -/
def digits : Bytes → Bytes × Bytes
  | [] => ([], [])
  | c :: cs => if isDigit c then (c :: (digits cs).1, (digits cs).2) else ([], c :: cs)

/-- Section 6, `int`: a zero, or digits that do not begin with a zero. -/
def int (b : Bytes) : Option (Bytes × Bytes) :=
  match digits b with
  | ([], _) => none
  | (48 :: _ :: _, _) => none
  | r => some r

/-- Section 6, `frac`. -/
def frac : Bytes → Option (Bytes × Bytes)
  | 46 :: cs => if (digits cs).1 = [] then none else some (46 :: (digits cs).1, (digits cs).2)
  | cs => some ([], cs)

/-- Section 6, `exp`. -/
def exp : Bytes → Option (Bytes × Bytes)
  | e :: s :: cs =>
    if e = 101 ∨ e = 69 then
      if s = 43 ∨ s = 45 then if (digits cs).1 = [] then none else some (e :: s :: (digits cs).1, (digits cs).2)
      else if (digits (s :: cs)).1 = [] then none else some (e :: (digits (s :: cs)).1, (digits (s :: cs)).2)
    else some ([], e :: s :: cs)
  | [e] => if e = 101 ∨ e = 69 then none else some ([], [e])
  | [] => some ([], [])

/-- Section 6, `minus`. -/
def minus : Bytes → Bytes × Bytes
  | 45 :: cs => ([45], cs)
  | cs => ([], cs)

/-- Section 6, `number`. -/
def number (b : Bytes) : Option (Bytes × Bytes) :=
  (int (minus b).2).bind fun i => (frac i.2).bind fun f => (exp f.2).map fun e => ((minus b).1 ++ i.1 ++ f.1 ++ e.1, e.2)

mutual
/-- Section 3: a value, and what follows.  The number only bounds the depth of the recursion. -/
def value : Nat → Bytes → Option (J × Bytes)
  | 0, _ => none
  | n + 1, b =>
    match b with
    | 123 :: cs =>
      match skip cs with
      | 125 :: cs => some (.obj [], cs)
      | cs => (members n cs).map fun r => (.obj r.1, r.2)
    | 91 :: cs =>
      match skip cs with
      | 93 :: cs => some (.arr [], cs)
      | cs => (elements n cs).map fun r => (.arr r.1, r.2)
    | 34 :: cs => (string cs).map fun r => (.str r.1, r.2)
    | 116 :: 114 :: 117 :: 101 :: cs => some (.lit b!"true", cs)
    | 102 :: 97 :: 108 :: 115 :: 101 :: cs => some (.lit b!"false", cs)
    | 110 :: 117 :: 108 :: 108 :: cs => some (.lit b!"null", cs)
    | cs => (number cs).map fun r => (.num r.1, r.2)
/-- Section 4: the members of an object, up to its end. -/
def members : Nat → Bytes → Option (List (Bytes × J) × Bytes)
  | 0, _ => none
  | n + 1, b =>
    match skip b with
    | 34 :: cs =>
      match string cs with
      | none => none
      | some (k, cs) =>
        match skip cs with
        | 58 :: cs =>
          match value n (skip cs) with
          | none => none
          | some (v, cs) =>
            match skip cs with
            | 44 :: cs => (members n cs).map fun r => ((k, v) :: r.1, r.2)
            | 125 :: cs => some ([(k, v)], cs)
            | _ => none
        | _ => none
    | _ => none
/-- Section 5: the elements of an array, up to its end. -/
def elements : Nat → Bytes → Option (List J × Bytes)
  | 0, _ => none
  | n + 1, b =>
    match value n (skip b) with
    | none => none
    | some (v, cs) =>
      match skip cs with
      | 44 :: cs => (elements n cs).map fun r => (v :: r.1, r.2)
      | 93 :: cs => some ([v], cs)
      | _ => none
end

/-- Section 2: the text is JSON, and says this. -/
def parse (b : Bytes) : Option J :=
  match value (b.length + 1) (skip b) with
  | some (v, cs) => if skip cs = [] then some v else none
  | none => none

end Verif.Spec.Json
