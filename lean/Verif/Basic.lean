/-!
# Basics: bytes, outcomes

`Bytes` stands for `std::string` / `char[]` contents.  `Outcome` is the result of running a C++
function: it returns, throws, or runs into undefined behaviour.
-/
namespace Licensecc

/-- Byte strings (`std::string`, `std::vector<uint8_t>`, contents of `char` arrays). -/
abbrev Bytes := List UInt8

open Lean in
/-- `b!"text"` is the explicit list of the byte values of an ASCII string literal. -/
macro:max "b!" s:str : term => do
  let bs := s.getString.toUTF8.toList
  let elems := (bs.map fun b => Syntax.mkNumLit (toString b.toNat)).toArray
  `(([$[$elems],*] : List UInt8))

/-- C++ exception classes that matter for the modelled `catch` clauses. -/
inductive Exn where
  /-- `std::logic_error` -/
  | logicError
  /-- `std::invalid_argument` (derives from `std::logic_error`) -/
  | invalidArgument
  /-- `std::out_of_range` (derives from `std::logic_error`) -/
  | outOfRange
  /-- `std::length_error` (derives from `std::logic_error`) -/
  | lengthError
  /-- `std::runtime_error` -/
  | runtimeError
  deriving DecidableEq, Repr

/-- Would `catch (logic_error&)` catch it? -/
def Exn.isLogicError : Exn → Bool
  | .logicError | .invalidArgument | .outOfRange | .lengthError => true
  | .runtimeError => false

/-- Result of executing a C++ function. -/
inductive Outcome (α : Type) where
  /-- normal return -/
  | ok (a : α)
  /-- a C++ exception propagates -/
  | throw (e : Exn)
  /-- undefined behaviour happened -/
  | ub
  deriving DecidableEq, Repr

namespace Outcome

/-- Sequencing: exceptions and undefined behaviour propagate. -/
def bind {α β : Type} (x : Outcome α) (f : α → Outcome β) : Outcome β :=
  match x with
  | ok a => f a
  | throw e => throw e
  | ub => ub

instance : Monad Outcome where
  pure := ok
  bind := bind

@[simp] theorem pure_eq {α : Type} (a : α) : (pure a : Outcome α) = ok a := rfl
@[simp] theorem ok_bind {α β : Type} (a : α) (f : α → Outcome β) : (ok a >>= f) = f a := rfl
@[simp] theorem throw_bind {α β : Type} (e : Exn) (f : α → Outcome β) :
    ((throw e : Outcome α) >>= f) = throw e := rfl
@[simp] theorem ub_bind {α β : Type} (f : α → Outcome β) : ((ub : Outcome α) >>= f) = ub := rfl

theorem bind_eq_ok {α β : Type} {x : Outcome α} {f : α → Outcome β} {b : β} :
    (x >>= f) = ok b ↔ ∃ a, x = ok a ∧ f a = ok b := by
  cases x <;> simp

theorem bind_eq_throw {α β : Type} {x : Outcome α} {f : α → Outcome β} {e : Exn} :
    (x >>= f) = throw e ↔ x = throw e ∨ ∃ a, x = ok a ∧ f a = throw e := by
  cases x <;> simp

theorem bind_eq_ub {α β : Type} {x : Outcome α} {f : α → Outcome β} :
    (x >>= f) = ub ↔ x = ub ∨ ∃ a, x = ok a ∧ f a = ub := by
  cases x <;> simp

instance : LawfulMonad Outcome := LawfulMonad.mk'
  (id_map := by intro α x; cases x <;> rfl)
  (pure_bind := by intros; rfl)
  (bind_assoc := by intro α β γ x f g; cases x <;> rfl)

end Outcome

/-- `FUNCTION_RETURN`, src/library/base/base.h:42. -/
inductive FuncRet where
  | ok | notAvail | error | bufferTooSmall
  deriving DecidableEq, Repr

end Licensecc
