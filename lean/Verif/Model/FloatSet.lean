import Verif.Model.Containers
import Verif.Model.Floating
import Mathlib.Data.Rat.Defs
import Mathlib.Algebra.Order.Field.Rat
/-
Sets and maps whose elements or keys are floating point numbers: /repo/proptest/generator/set.hpp and map.hpp with
`T` or `Key` being `float` or `double`.

`operator<` of these types is not a linear order (NaN is neither smaller nor larger than anything), so that the lists of
Model/Containers.lean do not apply. `std::set` and `std::map` are binary trees here, as in the standard libraries. How they
are rebalanced is a parameter: any function that keeps the sequence of the elements.
-/
namespace Verif
namespace FloatSet
open Shr Random ListLike Floating
variable {σ β : Type}

/-- The finite numbers. No particular code of /repo. -/
def quantity (F : Fmt) : Fl → ℚ
  | .fin neg f e => (if neg then -1 else 1) * f * 2^(e - F.p)
  | _ => 0

/-- `operator<` of `float` and `double` (IEEE 754) as used by `std::less<Shrinkable<T>>`, /repo/proptest/generator/set.hpp:16,
and by `std::set<T>`. -/
def less (F : Fmt) : Fl → Fl → Bool
  | .nan, _ => false
  | _, .nan => false
  | .inf a, .inf b => a && !b
  | .inf a, _ => a
  | _, .inf b => !b
  | x, y => decide (quantity F x < quantity F y)

/-- A binary tree, as `std::set` and `std::map` are made of. Models the sets at /repo/proptest/generator/set.hpp:57 and
/repo/proptest/generator/map.hpp:35. -/
inductive SetTree (β : Type) where
  | nil
  | node (l : SetTree β) (x : β) (r : SetTree β)

/-- The elements in the order of iteration. Models the loops at /repo/proptest/shrinker/listlike.hpp:48-50 and
/repo/proptest/generator/map.hpp:45. -/
def SetTree.toList : SetTree β → List β
  | nil => []
  | node l x r => l.toList ++ x :: r.toList

/-- Rebalancing of a tree after an insertion: any function. The theorems assume that it keeps the sequence of the elements.
Part of `insert`, /repo/proptest/generator/set.hpp:61. -/
abbrev Balance := ∀ β : Type, SetTree β → SetTree β

/-- The number of elements before the place where `insert` looks for `x`: to the left of an element if `x` is less, else to the
right. Part of `insert`, /repo/proptest/generator/set.hpp:61 (`_M_get_insert_unique_pos` of libstdc++). -/
def place (lt : β → β → Bool) (x : β) : SetTree β → Nat
  | .nil => 0
  | .node l y r => if lt x y then place lt x l else l.toList.length + 1 + place lt x r

/-- Puts `x` at that place. Part of `insert`, /repo/proptest/generator/set.hpp:61. -/
def put (lt : β → β → Bool) (x : β) : SetTree β → SetTree β
  | .nil => .node .nil x .nil
  | .node l y r => if lt x y then .node (put lt x l) y r else .node l y (put lt x r)

/-- Whether `x` is inserted: if there is an element before its place, that element must be less than `x`. Part of `insert`,
/repo/proptest/generator/set.hpp:61 (`_M_get_insert_unique_pos` of libstdc++). -/
def fresh (lt : β → β → Bool) (x : β) (t : SetTree β) : Bool :=
  match place lt x t with
  | 0 => true
  | p + 1 =>
    match t.toList[p]? with
    | some y => lt y x
    | none => true

/-- Models `insert` of `std::set` and `std::map` at /repo/proptest/shrinker/listlike.hpp:60, /repo/proptest/generator/set.hpp:61 and
/repo/proptest/generator/map.hpp:39, 47. -/
def insert (bal : Balance) (lt : β → β → Bool) (x : β) (t : SetTree β) : SetTree β :=
  if fresh lt x t then bal β (put lt x t) else t

/-- Models a loop inserting elements one by one into an empty container, /repo/proptest/shrinker/listlike.hpp:57-61,
/repo/proptest/generator/map.hpp:45-48. -/
def build (bal : Balance) (lt : β → β → Bool) (xs : List β) : SetTree β :=
  xs.foldl (fun t x => insert bal lt x t) .nil

/-- Models `while (shrinkableSet->size() < size) insert(elemGen(rand))`, /repo/proptest/generator/set.hpp:59-62 and
/repo/proptest/generator/map.hpp:37-40, cut off after `fuel` iterations. -/
def fill (bal : Balance) (lt : β → β → Bool) (g : Gen σ β) (size : Nat) :
    Nat → SetTree (Shr β) → σ → Outcome (SetTree (Shr β) × σ)
  | 0, t, s => if t.toList.length < size then .diverges else .ok (t, s)
  | fuel + 1, t, s =>
    if t.toList.length < size then do
      let (x, s) ← g s
      fill bal lt g size fuel (insert bal (fun a b => lt a.value b.value) x t) s
    else .ok (t, s)

/-- Models `shrinkSet`, /repo/proptest/shrinker/set.hpp:8-11, and `shrinkContainer`,
/repo/proptest/shrinker/listlike.hpp:43-64. -/
def shrinkSet (bal : Balance) (lt : β → β → Bool) (xs : List (Shr β)) (minSize : Nat) : Outcome (Shr (List β)) := do
  let t ← membershipwise xs minSize
  pure (t.flatMap fun v => leaf (build bal lt (v.map Shr.value)).toList)

/-- Models `Arbi<set<T>>::operator()`, /repo/proptest/generator/set.hpp:53-64, with the loop cut off after `fuel`
iterations. -/
def arbiSet (bal : Balance) (lt : β → β → Bool) (R : Rng σ) (g : Gen σ β) (minSize maxSize fuel : Nat) : Gen σ (List β) :=
  fun s => do
    let (size, s) ← getRandomSize R minSize (maxSize + 1) s
    let (t, s) ← fill bal lt g size.toNat fuel .nil s
    let r ← shrinkSet bal lt t.toList minSize
    pure (r, s)

/-- Models `shrinkMap`, /repo/proptest/shrinker/map.hpp:9-44; sub-maps are built by insertion, like the map at the end. -/
def shrinkMap {α : Type} (bal : Balance) (lt : β → β → Bool) (xs : List (Shr β × Shr α)) (minSize : Nat) : Shr (List (β × α)) :=
  ((Containers.mapSizes xs.length minSize).flatMap fun size =>
    if size = 0 then leaf [] else
      leaf (build bal (fun a b => lt a.1.value b.1.value) (xs.take size)).toList).flatMap
        fun m => leaf (build bal (fun a b => lt a.1 b.1) (m.map fun e => (e.1.value, e.2.value))).toList

/-- Models `Arbi<map<Key, T>>::operator()`, /repo/proptest/generator/map.hpp:31-51, with the loop cut off after `fuel`
iterations. -/
def arbiMap {α : Type} (bal : Balance) (lt : β → β → Bool) (R : Rng σ) (keyGen : Gen σ β) (elemGen : Gen σ α)
    (minSize maxSize fuel : Nat) : Gen σ (List (β × α)) := fun s => do
  let (size, s) ← getRandomSize R minSize (maxSize + 1) s
  let (t, s) ← fill bal lt keyGen size.toNat fuel .nil s
  let (elems, s) ← drawMany elemGen t.toList.length s
  let m := build bal (fun a b => lt a.1.value b.1.value) (t.toList.zip elems)
  pure (shrinkMap bal lt m.toList minSize, s)

/-- Models `Arbi<float>::operator()` and `Arbi<double>::operator()`, /repo/proptest/generator/floating.cpp:11-25. Simplified:
without shrinks, which sets and maps do not look at. -/
def floats (R : Rng σ) (F : Fmt) : Gen σ Fl := fun s => do
  let (v, s) ← arbiValue R F s
  pure (leaf v, s)

end FloatSet
end Verif
