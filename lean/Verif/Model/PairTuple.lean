import Mathlib.Logic.Function.Basic
import Verif.Model.Gen
/-
Pairs and tuples: /repo/proptest/shrinker/pair.hpp, shrinker/tuple.hpp, generator/pair.hpp,
generator/tuple.hpp.
-/
namespace Verif
namespace PairTuple
open Shr
variable {σ α β : Type}

/-- Models `PairShrinker::shrinkFirst`, /repo/proptest/shrinker/pair.hpp:16-33. -/
def shrinkFirst (parent : Shr (Shr α × Shr β)) : List (Shr (Shr α × Shr β)) :=
  (parent.value.1.flatMap (fun v => leaf (leaf v, parent.value.2))).shrinks

/-- Models `PairShrinker::shrinkSecond`, /repo/proptest/shrinker/pair.hpp:35-52. -/
def shrinkSecond (parent : Shr (Shr α × Shr β)) : List (Shr (Shr α × Shr β)) :=
  (parent.value.2.flatMap (fun v => leaf (parent.value.1, leaf v))).shrinks

/-- Models `PairShrinker::shrink` and `shrinkPair`, /repo/proptest/shrinker/pair.hpp:54-62 and 66-74. -/
def shrinkPair (a : Shr α) (b : Shr β) : Shr (α × β) :=
  (((leaf (a, b)).concat shrinkFirst).concat shrinkSecond).flatMap
    (fun p => leaf (p.1.value, p.2.value))

/-- Models `pairOf`, /repo/proptest/generator/pair.hpp:21-30. `firstFirst` is the unspecified order in
which the two argument expressions are evaluated. -/
def pairOf (firstFirst : Bool) (g : Gen σ α) (h : Gen σ β) : Gen σ (α × β) := fun s =>
  if firstFirst then do
    let (a, s) ← g s
    let (b, s) ← h s
    pure (shrinkPair a b, s)
  else do
    let (b, s) ← h s
    let (a, s) ← g s
    pure (shrinkPair a b, s)

variable {n : Nat} {A : Fin n → Type}

/-- A tuple of shrinkables, `tuple<Shrinkable<ARGS>...>` of /repo/proptest/shrinker/tuple.hpp:14. -/
abbrev Tup (A : Fin n → Type) := (i : Fin n) → Shr (A i)

/-- Models `TupleShrinker::genStream<N>`, /repo/proptest/shrinker/tuple.hpp:36-56. The code updates a
shared copy of the parent's tuple; each use overwrites component N, so a functional update is the same. -/
def genStream (N : Fin n) (parent : Shr (Tup A)) : List (Shr (Tup A)) :=
  ((parent.value N).flatMap (fun v => leaf (Function.update parent.value N (leaf v)))).shrinks

/-- Models `TupleShrinker::ConcatHelper<N>`, /repo/proptest/shrinker/tuple.hpp:21-34. -/
def concatHelper (N : Nat) (aggr : Shr (Tup A)) : Shr (Tup A) :=
  if h : N < n then concatHelper (N + 1) (aggr.concat (genStream ⟨N, h⟩)) else aggr
termination_by n - N

/-- Models `TupleShrinker::shrink` and `shrinkTuple`, /repo/proptest/shrinker/tuple.hpp:65-70 and 75-79,
applied to `make_shrinkable(elemTup)`. -/
def shrinkTuple (comps : Tup A) : Shr ((i : Fin n) → A i) :=
  (concatHelper 0 (leaf comps)).flatMap (fun t => leaf (fun i => (t i).value))

/-- Models `tupleOf`, /repo/proptest/generator/tuple.hpp:23-35; `order` is the unspecified order in which
the component generators are called. -/
def tupleOf (order : List (Fin n)) (gens : (i : Fin n) → Gen σ (A i)) : Gen σ ((i : Fin n) → A i) :=
  fun s => do
    let (comps, s') ← Gen.drawTuple gens order s
    pure (shrinkTuple comps, s')

end PairTuple
end Verif
