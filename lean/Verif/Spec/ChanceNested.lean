import Verif.Spec.Chance
/-
`oneOf` of generators that have loops themselves (another `oneOf`, a filter, a set).
-/
namespace Verif
variable {α : Type}

/-- The alternatives of a call of `oneOf(alternatives...)` (combinator/oneof.hpp:59-101) with their loops cut off after
`n` rounds. -/
def cutAlts (alts : List ((Nat → Src (Shr α)) × Dbl)) (n : Nat) : List (Src (Shr α) × Dbl) :=
  alts.map fun a => (a.1 n, a.2)

/-- A call of the generator `oneOf(alternatives...)` (combinator/oneof.hpp:59-101) whose alternatives have loops: all
give up after `n` rounds. -/
def oneOfNested (alts : List ((Nat → Src (Shr α)) × Dbl)) (n : Nat) : Src (Shr α) := oneOfCall (cutAlts alts n) n

end Verif
