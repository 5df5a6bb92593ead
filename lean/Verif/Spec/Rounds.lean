import Verif.Spec.Chance
/-
How many rounds a loop takes on average.
-/
namespace Verif
variable {σ α : Type}

/-- The average number of rounds, for a function with a loop (`f m` gives up after `m` rounds): the sum, over all
`m`, of the probabilities that `m` rounds are not enough. Not part of /repo. -/
def MeanRounds (f : Nat → Src α) (μ : ℚ) : Prop :=
  ∃ r : Nat → ℚ, (∀ m, Chance (f m) (fun _ => true) (r m)) ∧
    ∀ ε : ℚ, 0 < ε → ∃ N, ∀ M, N ≤ M → |∑ m ∈ Finset.range M, (1 - r m) - μ| < ε

/-- The generator, with its calls counted. Not part of /repo. -/
def counted (g : Gen σ α) : Gen (σ × Nat) α := fun s => do
  let (t, s') ← g s.1
  pure (t, s', s.2 + 1)

end Verif
