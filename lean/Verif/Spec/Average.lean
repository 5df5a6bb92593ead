import Verif.Spec.ChanceTest
/-
The average of what a function that draws random numbers returns. Not part of /repo.
-/
namespace Verif

/-- The average of `F` over what the function returns, where not returning normally counts as 0. -/
def Average {α : Type} (f : Src α) (F : α → ℚ) (μ : ℚ) : Prop :=
  ∃ e, Follows f e ∧ e.mean (fun o => match o with
    | .ok a => F a
    | _ => 0) = μ

/-- The same for a function with a loop `while (true)` (`f n` gives up after `n` rounds): the average over the returns within
`n` rounds tends to `μ`. -/
def AverageLimit {α : Type} (f : Nat → Src α) (F : α → ℚ) (μ : ℚ) : Prop :=
  ∀ ε : ℚ, 0 < ε → ∃ N, ∀ n, N ≤ n → ∃ q, Average (f n) F q ∧ |q - μ| < ε

namespace Engine
open PairTuple
variable {n : Nat} {A : Fin n → Type}

/-- A call of `forAll`: how often it calls the property function in the runs, i.e. without the calls for shrinking. -/
def callsMade (c : AnyTest A) (fuel : Nat) : Src Nat := fun σ R seed =>
  let r := runForAll (c σ R) fuel { rand := seed, saved := seed, i := 0, fails := [], trace := [] }
  r.1.bind fun _ => .ok ((calls .run r.2.trace).length, r.2.rand)

end Engine
end Verif
