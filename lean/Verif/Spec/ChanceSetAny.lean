import Verif.Spec.Chance
import Mathlib.Algebra.BigOperators.Group.Finset.Basic
import Mathlib.Algebra.Field.Rat
/-
The probability of a set that is filled by drawing values one after the other, until it has enough elements.
-/
namespace Verif

/-- The probability that the next `k` new values are those of `rest`, in any order, if the values drawn before, which
are of no use any more, have the probability `taken`: the next new value is `u` with probability `P u / (1 - taken)`. -/
def successive {α : Type} [DecidableEq α] (P : α → ℚ) : Nat → Finset α → ℚ → ℚ
  | 0, _, _ => 1
  | k + 1, rest, taken => (∑ u ∈ rest, P u * successive P k (rest.erase u) (taken + P u)) / (1 - taken)

end Verif
