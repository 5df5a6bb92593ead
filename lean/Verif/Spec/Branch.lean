import Verif.Spec.Chance
/-
How likely the second of two alternatives is.
-/
namespace Verif
open Comb

/-- `oneOf(weightedGen(just(false), w1), weightedGen(just(true), w2))`: true if the second alternative is taken. -/
def secondTaken (w1 w2 : Dbl) : Nat → Src (Shr Bool) :=
  oneOfCall [(fun _ _ s => .ok (.leaf false, s), w1), (fun _ _ s => .ok (.leaf true, s), w2)]

end Verif
