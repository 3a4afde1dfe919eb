/-
Outcomes of the modelled C functions.

`ok`   – the function returned normally,
`fail` – an `assert`/`AN`/`AZ`/`WRONG` (vas.h, vas.c) fired: the process aborts,
`ub`   – the C code would have undefined behaviour (out-of-bounds access, ...).
-/
namespace Verif

inductive Res (α : Type) where
  | ok (a : α)
  | fail
  | ub
  deriving DecidableEq, Repr

namespace Res

variable {α β : Type}

def bind : Res α → (α → Res β) → Res β
  | ok a, f => f a
  | fail, _ => fail
  | ub, _ => ub

instance : Monad Res where
  pure := ok
  bind := bind

/-- `assert(c)` / `AN` / `AZ` / `xxxassert` (vas.h:30-80): abort unless `c`. -/
def check (c : Bool) : Res Unit := if c then ok () else fail

/-- A memory access that is undefined unless `c`. -/
def access (c : Bool) : Res Unit := if c then ok () else ub

@[simp] theorem pure_eq (a : α) : (pure a : Res α) = ok a := rfl
@[simp] theorem ok_bind (a : α) (f : α → Res β) : (ok a >>= f) = f a := rfl
@[simp] theorem fail_bind (f : α → Res β) : ((fail : Res α) >>= f) = fail := rfl
@[simp] theorem ub_bind (f : α → Res β) : ((ub : Res α) >>= f) = ub := rfl
@[simp] theorem check_true : check true = ok () := rfl
@[simp] theorem check_false : check false = fail := rfl
@[simp] theorem access_true : access true = ok () := rfl
@[simp] theorem access_false : access false = ub := rfl

theorem bind_eq_ok {x : Res α} {f : α → Res β} {b : β} :
    (x >>= f) = ok b ↔ ∃ a, x = ok a ∧ f a = ok b := by
  cases x <;> simp

theorem check_eq_ok {c : Bool} {u : Unit} : check c = ok u ↔ c = true := by
  cases c <;> simp

theorem access_eq_ok {c : Bool} {u : Unit} : access c = ok u ↔ c = true := by
  cases c <;> simp

theorem check_bind_eq_ok {c : Bool} {f : Unit → Res β} {b : β} :
    (check c >>= f) = ok b ↔ c = true ∧ f () = ok b := by
  cases c <;> simp

theorem access_bind_eq_ok {c : Bool} {f : Unit → Res β} {b : β} :
    (access c >>= f) = ok b ↔ c = true ∧ f () = ok b := by
  cases c <;> simp

/-- The value of an outcome, if it is one. -/
def toOption : Res α → Option α
  | ok a => some a
  | _ => none

end Res
end Verif
