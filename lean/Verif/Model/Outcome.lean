/-
Outcomes of C++ calls.
-/
namespace Verif

/-- The exception classes the library distinguishes.
Models /repo/proptest/assert.hpp:12-67 (`AssertFailed`, `PropertyFailedBase`, `Discard`,
`Success`, all derived from `std::logic_error`), other `std::exception`s with a tag for the ones
the library throws itself, and objects not derived from `std::exception` (`foreign`). -/
inductive Exn where
  | assertFailed
  | propertyFailed
  | discard
  | success
  | invalidArgument
  | runtimeError
  | stdOther
  | foreign
deriving DecidableEq, Repr

/-- Is the thrown object caught by `catch (const std::exception&)`?
Models the class hierarchy of /repo/proptest/assert.hpp:12-67. -/
def Exn.isStd : Exn → Bool
  | .foreign => false
  | _ => true

/-- Result of a C++ call: normal return, exception, undefined behaviour, or "step budget of the
model exhausted" (`diverges`), which stands for a loop that has not ended yet.
Does not model a particular C++ function; used by all model files. -/
inductive Outcome (α : Type) where
  | ok (a : α)
  | throws (e : Exn)
  | ub
  | diverges
deriving DecidableEq, Repr

namespace Outcome

/-- Sequencing of C++ statements: the first abnormal outcome wins.
Models `;` of C++ (no file of /repo). -/
def bind {α β : Type} : Outcome α → (α → Outcome β) → Outcome β
  | ok a, f => f a
  | throws e, _ => throws e
  | ub, _ => ub
  | diverges, _ => diverges

/-- Notation for sequencing. No particular code of /repo. -/
instance : Monad Outcome where
  pure := ok
  bind := bind

@[simp] theorem pure_eq {α : Type} (a : α) : (pure a : Outcome α) = ok a := rfl
@[simp] theorem ok_bind {α β : Type} (a : α) (f : α → Outcome β) : (ok a >>= f) = f a := rfl
@[simp] theorem throws_bind {α β : Type} (e : Exn) (f : α → Outcome β) :
    ((throws e : Outcome α) >>= f) = throws e := rfl
@[simp] theorem ub_bind {α β : Type} (f : α → Outcome β) : ((ub : Outcome α) >>= f) = ub := rfl
@[simp] theorem diverges_bind {α β : Type} (f : α → Outcome β) :
    ((diverges : Outcome α) >>= f) = diverges := rfl

theorem bind_eq_ok {α β : Type} {x : Outcome α} {f : α → Outcome β} {b : β} :
    (x >>= f) = ok b ↔ ∃ a, x = ok a ∧ f a = ok b := by
  cases x <;> simp

end Outcome
end Verif
