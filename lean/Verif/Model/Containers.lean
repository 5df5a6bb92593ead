import Mathlib.Order.Basic
import Verif.Model.ListLike
/-
Sets, maps and strings: /repo/proptest/shrinker/set.hpp, map.hpp, string.cpp,
/repo/proptest/generator/set.hpp, map.hpp, string.cpp.

`std::set` and `std::map` are lists in iteration order, that is, sorted strictly increasing by value or key.
Simplification: `operator<` of elements and keys is a linear order.
-/
namespace Verif
namespace Containers
open Shr BinSearch Random ListLike
variable {σ α β κ : Type}

/-- Models `std::set::insert` and `std::map::insert` as used in /repo/proptest/shrinker/listlike.hpp:60,
/repo/proptest/generator/set.hpp:61, /repo/proptest/shrinker/map.hpp:38 and
/repo/proptest/generator/map.hpp:39, 47: elements are compared by `key`
(`std::less<Shrinkable<T>>`, /repo/proptest/generator/set.hpp:11-18, compares the values), and an element
equivalent to a present one is not inserted. -/
def insertBy [LinearOrder κ] (key : β → κ) (x : β) : List β → List β
  | [] => [x]
  | y :: ys =>
    if key x < key y then x :: y :: ys
    else if key y < key x then y :: insertBy key x ys
    else y :: ys

/-- Models a loop inserting elements one by one into an empty container, e.g.
/repo/proptest/shrinker/listlike.hpp:57-61, /repo/proptest/shrinker/map.hpp:33-39. -/
def insertAll [LinearOrder κ] (key : β → κ) (xs : List β) : List β :=
  xs.foldl (fun acc x => insertBy key x acc) []

/-- Models `shrinkSet`, /repo/proptest/shrinker/set.hpp:8-11, and `shrinkContainer`,
/repo/proptest/shrinker/listlike.hpp:43-64. -/
def shrinkSet [LinearOrder α] (xs : List (Shr α)) (minSize : Nat) : Outcome (Shr (List α)) := do
  let t ← membershipwise xs minSize
  pure (t.flatMap fun v => leaf (insertAll id (v.map Shr.value)))

/-- Models `while (shrinkableSet->size() < size) insert(elemGen(rand))`,
/repo/proptest/generator/set.hpp:59-62 and /repo/proptest/generator/map.hpp:37-40, cut off after `fuel`
iterations. -/
def fillSet [LinearOrder α] (g : Gen σ α) (size : Nat) : Nat → List (Shr α) → σ → Outcome (List (Shr α) × σ)
  | 0, acc, s => if acc.length < size then .diverges else .ok (acc, s)
  | fuel + 1, acc, s =>
    if acc.length < size then do
      let (x, s) ← g s
      fillSet g size fuel (insertBy Shr.value x acc) s
    else .ok (acc, s)

/-- Models `Arbi<set<T>>::operator()`, /repo/proptest/generator/set.hpp:53-64, with the loop cut off after
`fuel` iterations. -/
def arbiSet [LinearOrder α] (R : Rng σ) (g : Gen σ α) (minSize maxSize fuel : Nat) : Gen σ (List α) := fun s => do
  let (size, s) ← getRandomSize R minSize (maxSize + 1) s
  let (xs, s) ← fillSet g size.toNat fuel [] s
  let t ← shrinkSet xs minSize
  pure (t, s)

/-- Models `rangeShrinkable`, /repo/proptest/shrinker/map.hpp:14-17. For a map with fewer than `minSize`
entries the (signed) size difference is negative and the sizes offered are `size..minSize`. -/
def mapSizes (size minSize : Nat) : Shr Nat :=
  if minSize ≤ size then sizeRange minSize size else (bsNat (minSize - size)).map (minSize - ·)

/-- Models `shrinkMap`, /repo/proptest/shrinker/map.hpp:9-44. -/
def shrinkMap [LinearOrder κ] (xs : List (Shr κ × Shr β)) (minSize : Nat) : Shr (List (κ × β)) :=
  ((mapSizes xs.length minSize).flatMap fun size =>
    if size = 0 then leaf [] else leaf (xs.take size)).flatMap
      fun m => leaf (insertAll Prod.fst (m.map fun e => (e.1.value, e.2.value)))

/-- Models `Arbi<map<Key, T>>::operator()`, /repo/proptest/generator/map.hpp:31-51, with the key loop cut off
after `fuel` iterations. -/
def arbiMap [LinearOrder κ] (R : Rng σ) (keyGen : Gen σ κ) (elemGen : Gen σ β) (minSize maxSize fuel : Nat) :
    Gen σ (List (κ × β)) := fun s => do
  let (size, s) ← getRandomSize R minSize (maxSize + 1) s
  let (keys, s) ← fillSet keyGen size.toNat fuel [] s
  let (elems, s) ← drawMany elemGen keys.length s
  pure (shrinkMap (insertAll (fun e => e.1.value) (keys.zip elems)) minSize, s)

/-- Models the part of the string shrink tree that removes characters at the end,
/repo/proptest/shrinker/string.cpp:7-11. -/
def shrinkRear (str : List α) (minSize : Nat) : Shr (List α) :=
  (bsNat (str.length - minSize)).map fun size => str.take (size + minSize)

/-- Models the stream of candidates that removes characters at the front,
/repo/proptest/shrinker/string.cpp:14-24. -/
def shrinkFront (minSize : Nat) (str : List α) : List (Shr (List α)) :=
  if str.length = minSize then []
  else ((bsNat (str.length - minSize)).map fun value =>
    (str.drop (minSize + value)).take (str.length - (minSize + value))).shrinks

/-- Models `shrinkString`, /repo/proptest/shrinker/string.cpp:6-25, for strings of at least `minSize`
characters (the only caller guarantees this, /repo/proptest/generator/string.cpp:32-37; for shorter strings
the sizes wrap around). -/
def shrinkString (str : List α) (minSize : Nat) : Shr (List α) :=
  (shrinkRear str minSize).concat fun shr => shrinkFront minSize shr.value

/-- Models `Arbi<string>::operator()`, /repo/proptest/generator/string.cpp:30-38. -/
def arbiString (R : Rng σ) (g : Gen σ α) (minSize maxSize : Nat) : Gen σ (List α) := fun s => do
  let (size, s) ← getRandomSize R minSize (maxSize + 1) s
  let (xs, s) ← drawMany g size.toNat s
  pure (shrinkString (xs.map Shr.value) minSize, s)

end Containers
end Verif
