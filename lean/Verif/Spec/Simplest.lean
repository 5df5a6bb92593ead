import Verif.Spec.Tree
import Verif.Spec.Draws
/-
The simplest form of a generated value, as documented in /repo/docs/Shrinking.md: the value one arrives at by always
accepting the first shrink that is offered.
-/
namespace Verif
variable {α : Type}

/-- `Simplest t u`: somebody who starts at `t` and always accepts the first offered shrink ends at `u`, which offers no
shrinks any more. -/
inductive Simplest : Shr α → Shr α → Prop where
  | done {t : Shr α} : t.shrinks = [] → Simplest t t
  | step {t s u : Shr α} {rest : List (Shr α)} : t.shrinks = s :: rest → Simplest s u → Simplest t u

/-- The simplest form of whatever the generator makes has the property `P`. -/
def Gen.SimplestIs {σ : Type} (g : Gen σ α) (P : α → Prop) : Prop :=
  ∀ t u, g.Makes t → Simplest t u → P u.value

end Verif
