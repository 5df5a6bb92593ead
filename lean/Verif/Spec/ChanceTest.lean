import Verif.Spec.Chance
import Verif.Spec.Property
/-
What a test finds, as a function of the draws of the engine. Not part of /repo.
-/
namespace Verif
namespace Engine
open PairTuple
variable {n : Nat} {A : Fin n → Type}

/-- A test (a `Property` object with its settings), for every engine. -/
abbrev AnyTest (A : Fin n → Type) := ∀ σ : Type, Rng σ → Cfg σ A

/-- One draw of the values of all arguments. -/
def argsDraw (c : AnyTest A) : Src (Args A) := fun σ R s => do
  let (ts, s) ← Gen.drawTuple (c σ R).gens (c σ R).orderRun s
  pure (fun i => (ts i).value, s)

/-- What a call of `forAll` reports: nothing, or the number printed in "Falsifiable, after ... tests" and the
arguments that failed, before shrinking. -/
def Report.found : Report A → Option (Nat × Args A)
  | .falsified after start _ => some (after, fun i => (start i).value)
  | _ => none

/-- A call of `forAll`, with the engine in the state that the seed gives: what it reports, and the state the engine
`rand` of the call is left in. -/
def forAllCall (c : AnyTest A) (fuel : Nat) : Src (Option (Nat × Args A)) := fun σ R seed =>
  let r := runForAll (c σ R) fuel { rand := seed, saved := seed, i := 0, fails := [], trace := [] }
  r.1.bind fun rep => .ok (rep.found, r.2.rand)

/-- "Falsifiable, after `m` tests", with arguments in `E`. -/
def reports (m : Nat) (E : Args A → Bool) : Option (Nat × Args A) → Bool
  | some (k, a) => k == m && E a
  | none => false

/-- A test with `N` runs and no time limit, in the usual setting: generators that do not throw, and a property
function `f` without memory that returns or throws a std::exception, and does not fail an expectation before
PROP_SUCCESS or PROP_DISCARD. -/
structure Searches (c : AnyTest A) (f : Args A → Ev Bool) (N : Nat) : Prop where
  setting : ∀ σ R, Setting (c σ R)
  total : ∀ σ R, (c σ R).GensTotal
  pure : ∀ σ R, (c σ R).Pure f
  out : ∀ a, (∃ b, (f a).out = .ok b) ∨ ∃ e, (f a).out = .throws e ∧ e.isStd = true
  quiet : ∀ a, (f a).out = .throws .success ∨ (f a).out = .throws .discard → (f a).fails = []
  runs : ∀ σ R, (c σ R).numRuns = N
  noLimit : ∀ σ R, (c σ R).maxDurationMs = 0

/-- A generator that returns or goes on forever: it does not throw. -/
def Settles {α : Type} (g : Src α) : Prop := ∀ σ R s, (∃ r, g σ R s = .ok r) ∨ g σ R s = .diverges

/-- The same for generators with a loop that draws again until it succeeds: drawing the arguments returns or goes on
forever. -/
structure Searching (c : AnyTest A) (f : Args A → Ev Bool) (N : Nat) : Prop where
  setting : ∀ σ R, Setting (c σ R)
  draws : ∀ σ R s, (∃ r, Gen.drawTuple (c σ R).gens (c σ R).orderRun s = .ok r) ∨
    Gen.drawTuple (c σ R).gens (c σ R).orderRun s = .diverges
  pure : ∀ σ R, (c σ R).Pure f
  out : ∀ a, (∃ b, (f a).out = .ok b) ∨ ∃ e, (f a).out = .throws e ∧ e.isStd = true
  quiet : ∀ a, (f a).out = .throws .success ∨ (f a).out = .throws .discard → (f a).fails = []
  runs : ∀ σ R, (c σ R).numRuns = N
  noLimit : ∀ σ R, (c σ R).maxDurationMs = 0

end Engine
end Verif
