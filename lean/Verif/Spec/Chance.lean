import Mathlib.Algebra.BigOperators.Group.Finset.Basic
import Mathlib.Data.Int.Interval
import Mathlib.Data.Rat.Defs
import Mathlib.Algebra.Field.Rat
import Verif.Model.Combinator
/-
The chance of an event, for functions that draw random numbers.

The model assumes nothing about the distribution of the numbers an engine returns. The properties about
probabilities do: they speak of draws from `std::uniform_int_distribution(a, b)` that are independent and return
every number of [a,b] equally likely (which is what the C++ standard promises of an ideal engine). The definitions
below say what that means, without reference to a particular engine: a function *follows* an experiment, a finite
tree of draws, if for every engine and every state it does what the experiment does with the draws of that engine;
its chances are those of the experiment, i.e. averages over the possible results of every draw.
-/
namespace Verif

/-- A finite random experiment: a result, or a draw from [a,b] after which the experiment goes on depending on what
was drawn. Not part of /repo. -/
inductive Exp (α : Type) where
  | ret (x : α)
  | draw (a b : Int) (next : Int → Exp α)

namespace Exp
variable {σ α β : Type}

/-- Does the experiment with the draws of an engine. -/
def run (R : Rng σ) : Exp α → σ → α × σ
  | ret x, s => (x, s)
  | draw a b next, s => (next (R.draw s a b).1).run R (R.draw s a b).2

/-- The average of `f` over the results, all numbers in the range of a draw being equally likely. -/
def mean (f : α → ℚ) : Exp α → ℚ
  | ret x => f x
  | draw a b next => (∑ v ∈ Finset.Icc a b, (next v).mean f) / (b - a + 1)

/-- No draw is from an empty range. -/
def Valid : Exp α → Prop
  | ret _ => True
  | draw a b next => a ≤ b ∧ ∀ v, a ≤ v → v ≤ b → (next v).Valid

end Exp

/-- A function that draws random numbers, for every engine. -/
abbrev Src (α : Type) := ∀ σ : Type, Rng σ → σ → Outcome (α × σ)

/-- The function does, with every engine in every state, what the experiment does. -/
def Follows {α : Type} (f : Src α) (e : Exp (Outcome α)) : Prop :=
  e.Valid ∧ ∀ (σ : Type) (R : Rng σ) (s : σ), f σ R s = (e.run R s).1.bind fun a => .ok (a, (e.run R s).2)

/-- 1 for a normal return with a result in `E`, else 0. -/
def hit {α : Type} (E : α → Bool) : Outcome α → ℚ
  | .ok a => if E a then 1 else 0
  | _ => 0

/-- The function returns normally, with a result in `E`, with probability `p`. -/
def Chance {α : Type} (f : Src α) (E : α → Bool) (p : ℚ) : Prop := ∃ e, Follows f e ∧ e.mean (hit E) = p

/-- The same for a function with a loop `while (true)` (`f n` gives up after `n` rounds): the probability of a
return within `n` rounds with a result in `E` tends to `p`. -/
def ChanceLimit {α : Type} (f : Nat → Src α) (E : α → Bool) (p : ℚ) : Prop :=
  ∀ ε : ℚ, 0 < ε → ∃ N, ∀ n, N ≤ n → ∃ q, Chance (f n) E q ∧ |q - p| < ε

/-- A call of the generator `oneOf(alternatives...)`, an alternative without weight having weight 0. -/
def oneOfCall {α : Type} (alts : List (Src (Shr α) × Dbl)) (rounds : Nat) : Src (Shr α) := fun σ R s => do
  let ws ← Comb.oneOf (alts.map fun a => ({ gen := a.1 σ R, weight := a.2 } : Comb.Weighted σ α))
  Comb.oneOfLoop R ws rounds s

/-- The list has as many elements as there are conditions, and each satisfies its condition. -/
def fits {α : Type} : List (α → Bool) → List α → Bool
  | [], [] => true
  | E :: Es, x :: xs => E x && fits Es xs
  | _, _ => false

/-- The numbers of an interval that satisfy a condition. -/
def covered (E : Int → Bool) (i : Int × Int) : ℚ := ((Finset.Icc i.1 i.2).filter fun v => E v).card

/-- The number of elements of an interval. -/
def width (i : Int × Int) : ℚ := i.2 - i.1 + 1

/-- The value that a call of a generator returns, without the shrinks. (Where a generator depends on a value, the
shrinks contain later results of the engine and are not determined by the draws of the call.) -/
def valueOnly {α : Type} (g : Src (Shr α)) : Src α := fun σ R s => do
  let (t, s) ← g σ R s
  pure (t.value, s)

/-- A call of the generator `intervals(is)`. -/
def intervalsCall (is : List (Int × Int)) (rounds : Nat) : Src (Shr Int) := fun _ R s => do
  let ws ← Comb.intervals R is
  Comb.oneOfLoop R ws rounds s

/-- A call of the generator `uintervals(is)`. -/
def uintervalsCall (is : List (Int × Int)) (rounds : Nat) : Src (Shr Int) := fun _ R s => do
  let ws ← Comb.uintervals R is
  Comb.oneOfLoop R ws rounds s

end Verif
