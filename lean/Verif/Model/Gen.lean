import Verif.Model.Random
import Verif.Model.Shrinkable
/-
Generators: /repo/proptest/GenBase.hpp, /repo/proptest/Generator.hpp, /repo/proptest/util/tuple.hpp.
-/
namespace Verif

/-- A generator: from the state of the random engine to a shrinkable and the new state. Models
`GenFunction<T> = function<Shrinkable<T>(Random&)>`, /repo/proptest/GenBase.hpp:34-35, and `Generator<T>`,
/repo/proptest/Generator.hpp:41-46. Simplified: a generator has no mutable state of its own. -/
abbrev Gen (σ α : Type) := σ → Outcome (Shr α × σ)

/-- The generator may produce the shrinkable `t` (for some state of the engine). Specification only,
not part of /repo. -/
def Gen.Makes {σ α : Type} (g : Gen σ α) (t : Shr α) : Prop := ∃ s s', g s = .ok (t, s')

namespace Gen
variable {σ : Type} {n : Nat} {A : Fin n → Type}

/-- Calls the generators of a tuple in the given order; components not yet produced are `none`. Models
the argument list of `util::make_tuple(...)` in `transformHeteroTupleWithArgHelper`,
/repo/proptest/util/tuple.hpp:60-65, and `get<index>(genTup)(rand)...`,
/repo/proptest/util/invokeWithGenTuple.hpp:14. C++ leaves the order of these calls unspecified, so it is
a parameter. -/
def drawInto (gens : (i : Fin n) → Gen σ (A i)) :
    List (Fin n) → ((i : Fin n) → Option (Shr (A i))) → σ →
      Outcome (((i : Fin n) → Option (Shr (A i))) × σ)
  | [], acc, s => .ok (acc, s)
  | i :: is, acc, s => do
    let (t, s') ← gens i s
    drawInto gens is (fun j => if h : i = j then some (h ▸ t) else acc j) s'

/-- All components of a tuple, drawn in the order `order` (a list of all component indices without
repetition). Models /repo/proptest/util/tuple.hpp:56-71 with `util::Generate`, and
/repo/proptest/util/invokeWithGenTuple.hpp:14. A missing component cannot happen in C++; it is `ub`. -/
def drawTuple (gens : (i : Fin n) → Gen σ (A i)) (order : List (Fin n)) (s : σ) :
    Outcome (((i : Fin n) → Shr (A i)) × σ) := do
  let (acc, s') ← drawInto gens order (fun _ => none) s
  if h : ∀ i, (acc i).isSome then .ok ((fun i => (acc i).get (h i)), s') else .ub

end Gen
end Verif
