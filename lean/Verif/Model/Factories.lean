import Verif.Model.Combinator
/-
`dependency`, `chain` and `derive` with factories that change their argument:
/repo/proptest/combinator/dependency.hpp, chain.hpp and derive.hpp.
-/
namespace Verif
namespace Comb
open Shr
variable {σ α β γ : Type}

/-- A factory of type `GenFunction<U>(T&)`: what it leaves of its argument, and the generator it returns. Models
`gen2gen`, /repo/proptest/combinator/dependency.hpp:22-30 (likewise chain.hpp:28-36, derive.hpp:22-28): it is called with
a reference to the value stored in the shrinkable, after a `const_cast`. -/
abbrev Factory (σ α β : Type) := α → α × Gen σ β

/-- Models `DependencyInterFunctor::operator()`, /repo/proptest/combinator/dependency.hpp:36-41 (likewise chain.hpp:42-47,
derive.hpp:36-41): the pair is made after the call of the factory. -/
def interM (f : Factory σ α β) (v : α) (s : σ) : Outcome (α × Shr β) := do
  let (u, _) ← (f v).2 s
  pure ((f v).1, u)

/-- `dependent` of Model/Combinator.lean with such a factory, /repo/proptest/combinator/dependency.hpp:53-74,
chain.hpp:58-79 and 110-138, derive.hpp:52-73. Simplified: the shrinks of a value are those of the value as it was made
(see C114 for strings, whose shrinks are made from the stored value), and made anew each time a stream is evaluated. -/
def dependentM (gen1 : Gen σ α) (f : Factory σ α β) (o : List Nat → σ) (s : σ) : Outcome (Shr (α × Shr β) × σ) := do
  let (t, s) ← gen1 s
  let (u, s) ← (f t.value).2 s
  let s ← peek (fun v => (f v).2) t.shrinks s
  let intermediate := node ((f t.value).1, u) (lazyMapList (interM f) o [] 0 t.shrinks)
  pure (intermediate.andThen expand, s)

/-- `dependency` and `pairWith`, /repo/proptest/combinator/dependency.hpp:47-84. -/
def dependencyM (gen1 : Gen σ α) (f : Factory σ α β) (o : List Nat → σ) : Gen σ (α × β) := fun s => do
  let (i, s) ← dependentM gen1 f o s
  pure (i.flatMap fun p => leaf (p.1, p.2.value), s)

/-- `chain` and `tupleWith`, /repo/proptest/combinator/chain.hpp:53-149. -/
def chainM (cat : α → β → γ) (gen1 : Gen σ α) (f : Factory σ α β) (o : List Nat → σ) : Gen σ γ := fun s => do
  let (i, s) ← dependentM gen1 f o s
  pure (i.flatMap fun p => leaf (cat p.1 p.2.value), s)

/-- `derive`, /repo/proptest/combinator/derive.hpp:47-82. -/
def deriveM (gen1 : Gen σ α) (f : Factory σ α β) (o : List Nat → σ) : Gen σ β := fun s => do
  let (i, s) ← dependentM gen1 f o s
  pure (i.flatMap fun p => p.2, s)

end Comb
end Verif
