import Verif.Model.Shrinkable
/-
Shrinking of integers by binary search: /repo/proptest/generator/util.cpp.
-/
namespace Verif
namespace BinSearch
open Shr

/-- What a machine does with the exact result of an addition or subtraction. Not part of /repo; the
three instances below are the C++ rules for `int64_t` and `uint64_t`. -/
abbrev Norm := Int → Outcome Int

/-- C++ rule for `int64_t`: a result that is not representable is undefined behaviour. -/
def normS64 : Norm := fun x => if -2^63 ≤ x ∧ x < 2^63 then .ok x else .ub

/-- C++ rule for `uint64_t`: reduction modulo 2^64. -/
def normU64 : Norm := fun x => .ok (x % 2^64)

/-- Like `normU64`, but flags every wrap-around as undefined. Not the C++ rule; used to state that no
wrap-around happens. -/
def normU64Trap : Norm := fun x => if 0 ≤ x ∧ x < 2^64 then .ok x else .ub

/-- Models the local function `genpos`, /repo/proptest/generator/util.cpp:14-24 (signed) and 54-64
(unsigned). `/` and `%` truncate towards zero as in C++. The lazy tail and the lazy shrinks are explored
eagerly, so `ok` means that no explored position misbehaves. `fuel` bounds the recursion depth. -/
def genpos (norm : Norm) : Nat → Int → Int → Outcome (List (Shr Int))
  | 0, _, _ => .diverges
  | fuel + 1, min, max => do
    let half ← norm (min.tdiv 2 + max.tdiv 2)
    let mid ← norm (half + if min.tmod 2 ≠ 0 ∧ max.tmod 2 ≠ 0 then 1 else 0)
    let min1 ← norm (min + 1)
    if min1 ≥ max then pure []
    else do
      let min2 ← norm (min + 2)
      if min2 ≥ max then pure [leaf mid]
      else do
        let sub ← genpos norm fuel min mid
        let rest ← genpos norm fuel mid max
        pure ((leaf mid).withShrinks sub :: rest)

/-- Models the local function `genneg`, /repo/proptest/generator/util.cpp:26-36 (signed); the unsigned
copy 66-76 is never called because the last branch of 78-85 is unreachable. -/
def genneg (norm : Norm) : Nat → Int → Int → Outcome (List (Shr Int))
  | 0, _, _ => .diverges
  | fuel + 1, min, max => do
    let half ← norm (min.tdiv 2 + max.tdiv 2)
    let mid ← norm (half + if min.tmod 2 ≠ 0 ∧ max.tmod 2 ≠ 0 then -1 else 0)
    let min1 ← norm (min + 1)
    if min1 ≥ max then pure []
    else do
      let min2 ← norm (min + 2)
      if min2 ≥ max then pure [leaf mid]
      else do
        let sub ← genneg norm fuel mid max
        let rest ← genneg norm fuel min mid
        pure ((leaf mid).withShrinks sub :: rest)

/-- Models the shrinks lambda of `binarySearchShrinkable`, /repo/proptest/generator/util.cpp:38-45, and
of `binarySearchShrinkableU`, 78-85. -/
def tree (norm : Norm) (value : Int) : Outcome (Shr Int) :=
  if value = 0 then .ok (leaf value)
  else if value > 0 then do
    let rest ← genpos norm (value.natAbs + 1) 0 value
    pure ((leaf value).withShrinks ([leaf 0] ++ rest))
  else do
    let rest ← genneg norm (value.natAbs + 1) value 0
    pure ((leaf value).withShrinks ([leaf 0] ++ rest))

/-- Models `util::binarySearchShrinkable`, /repo/proptest/generator/util.cpp:8-46. -/
def binarySearchShrinkable (value : Int) : Outcome (Shr Int) := tree normS64 value

/-- Models `util::binarySearchShrinkableU`, /repo/proptest/generator/util.cpp:48-86. -/
def binarySearchShrinkableU (value : Int) : Outcome (Shr Int) := tree normU64 value

/-- `genpos` for natural numbers without machine arithmetic. Models
/repo/proptest/generator/util.cpp:14-24; the equality with the checked version is proved
(`Verif/Lemmas/BinSearch.lean`). -/
def posTree : Nat → Nat → Nat → List (Shr Nat)
  | 0, _, _ => []
  | fuel + 1, min, max =>
    let mid := min / 2 + max / 2 + if min % 2 ≠ 0 ∧ max % 2 ≠ 0 then 1 else 0
    if min + 1 ≥ max then []
    else if min + 2 ≥ max then [leaf mid]
    else node mid (posTree fuel min mid) :: posTree fuel mid max

/-- The shrink tree of a natural number. Models `binarySearchShrinkable`,
/repo/proptest/generator/util.cpp:8-46, for values `≥ 0`; the equality with the checked version is proved
(`Verif/Lemmas/BinSearch.lean`). -/
def bsNat (n : Nat) : Shr Nat :=
  node n (if n = 0 then [] else leaf 0 :: posTree n 0 n)

end BinSearch
end Verif
