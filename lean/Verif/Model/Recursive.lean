import Verif.Model.Combinator
/-
Generators that refer to themselves: /repo/proptest/combinator/reference.hpp.
-/
namespace Verif
namespace Recursive
open Shr Random ListLike Comb
variable {σ : Type}

/-- A value with values of the same kind inside. Models `Box` of the documentation example,
/repo/proptest/combinator/reference.hpp:20-21 (class in /repo/proptest/test/test_combinator2.cpp:384-389). -/
inductive Box where
  | node (kids : List Box)

/-- The values inside, /repo/proptest/test/test_combinator2.cpp:388. -/
def Box.kids : Box → List Box
  | .node ks => ks

/-- Models `GenFunction<Box> boxGen = construct<Box, vector<Box>>(Arbi<vector<Box>>(reference(boxGen))
.setSize(lo, hi))`, /repo/proptest/combinator/reference.hpp:20-21, with `reference`,
/repo/proptest/combinator/reference.hpp:25-29: a call of the inner generator is a call of `boxGen`, looked up when it
is made. `fuel` is the depth of the calls within each other that we look at; a call that goes deeper is
`diverges`. -/
def boxGen (R : Rng σ) (lo hi : Nat) : Nat → Gen σ Box
  | 0, _ => .diverges
  | fuel + 1, s => construct (n := 1) (A := fun _ => List Box) (fun a => .ok (.node (a 0)))
      (fun _ => arbiVector R (boxGen R lo hi fuel) lo hi) [0] s

/-- The same with `Generator::map` in place of `construct`: `GenFunction<Box> boxGen =
Arbi<vector<Box>>(reference(boxGen)).setSize(lo, hi).map<Box>(...)`; models /repo/proptest/combinator/reference.hpp:25-29
with /repo/proptest/Generator.hpp:59-65. -/
def boxMapGen (R : Rng σ) (lo hi : Nat) : Nat → Gen σ Box
  | 0, _ => .diverges
  | fuel + 1, s => transform (arbiVector R (boxMapGen R lo hi fuel) lo hi) Box.node s

end Recursive
end Verif
