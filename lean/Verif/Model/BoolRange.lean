import Verif.Model.Combinator
/-
`Arbi<bool>` for any `double`: /repo/proptest/generator/bool.cpp.
-/
namespace Verif
namespace Comb
open Integral
variable {σ : Type}

/-- Models `Arbi<bool>(prob)` and a call of it, /repo/proptest/generator/bool.cpp:5-11; the conversion of `prob` is in
`getRandomBool`, /repo/proptest/Random.cpp:24-29. -/
def arbiBoolOf (R : Rng σ) (prob : Dbl) : Gen σ Bool := fun s => do
  let thr ← threshold prob
  arbiBool R thr s

end Comb
end Verif
