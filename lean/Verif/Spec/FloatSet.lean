import Verif.Spec.Floating
import Mathlib.Data.Finset.Card
import Mathlib.Data.Finset.Dedup
import Mathlib.Data.Rat.Defs
import Mathlib.Algebra.Order.Ring.Rat
import Mathlib.Order.WithBot
/-
Vocabulary for sets of floating point numbers. Not part of /repo.
-/
namespace Verif
namespace Floating

/-- What the number is in the order of all numbers, from minus infinity to infinity; both zeros are the same. NaN is no
number. -/
def Fl.number (F : Fmt) : Fl → Option (WithBot (WithTop ℚ))
  | .nan => none
  | .inf true => some ⊥
  | .inf false => some ((⊤ : WithTop ℚ) : WithBot (WithTop ℚ))
  | .zero neg => ((Fl.zero neg).toRat? F).map fun q => ((q : WithTop ℚ) : WithBot (WithTop ℚ))
  | .fin neg f e => ((Fl.fin neg f e).toRat? F).map fun q => ((q : WithTop ℚ) : WithBot (WithTop ℚ))

/-- How many different numbers there are. -/
def different (F : Fmt) (vs : List Fl) : Nat := (vs.filterMap (Fl.number F)).toFinset.card

end Floating
end Verif
