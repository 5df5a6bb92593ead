import Verif.Model.Recursive
import Verif.Model.Integral
/-
Generators that refer to themselves in one of the alternatives of `oneOf`, as in
/repo/proptest/test/test_combinator2.cpp:456-469.
-/
namespace Verif
namespace Recursive
open Shr Random ListLike Comb Integral IntType
variable {σ : Type}

/-- Models `Node`, /repo/proptest/test/test_combinator2.cpp:391-398. -/
inductive Node where
  | node (value : Int) (kids : List Node)

/-- The types of the arguments of the constructor of `Node`, /repo/proptest/test/test_combinator2.cpp:394. -/
abbrev NodeArg : Fin 2 → Type
  | 0 => Int
  | 1 => List Node

/-- Models `construct<Node, int, vector<Node>>(intGen, vecGen)`, /repo/proptest/combinator/construct.hpp:113-136, with the
constructor /repo/proptest/test/test_combinator2.cpp:394; `order` is the order in which the arguments are drawn. -/
def nodeOf (order : List (Fin 2)) (intGen : Gen σ Int) (vecGen : Gen σ (List Node)) : Gen σ Node :=
  construct (n := 2) (A := NodeArg) (fun a => .ok (.node (a 0) (a 1)))
    (fun i => match i with
      | 0 => intGen
      | 1 => vecGen) order

/-- Models `leafGen`, /repo/proptest/test/test_combinator2.cpp:462. -/
def leafGen (intGen : Gen σ Int) : Gen σ Node :=
  construct (n := 1) (A := fun _ => Int) (fun a => .ok (.node (a 0) [])) (fun _ => intGen) [0]

/-- Models `branch1Gen`, /repo/proptest/test/test_combinator2.cpp:461-464. -/
def branch1Gen (R : Rng σ) (order : List (Fin 2)) : Gen σ Node :=
  nodeOf order (arbiInt R i32) (arbiVector R (leafGen (arbiInt R i32)) 1 2)

/-- Models `GenFunction<Node> branchNGen = construct<Node, int, vector<Node>>(intGen, Arbi<vector<Node>>(oneOf<Node>(base,
reference(branchNGen))).setSize(lo, hi))`, /repo/proptest/test/test_combinator2.cpp:465-466, with any weights `w1`, `w2`
of the alternatives (0 for none) and any generator `base`. `fuel` bounds both the depth of the calls within each other and
the number of rounds of each `oneOf`; a call that exceeds it is `diverges`. Simplified: in the code the weights are
assigned, and refused if they are too great, when `branchNGen` is defined, here in every call. -/
def branchGen (R : Rng σ) (order : List (Fin 2)) (intGen : Gen σ Int) (base : Gen σ Node) (w1 w2 : Dbl) (lo hi : Nat) :
    Nat → Gen σ Node
  | 0, _ => .diverges
  | fuel + 1, s => nodeOf order intGen (arbiVector R (fun s => do
      let ws ← oneOf [{ gen := base, weight := w1 },
        { gen := branchGen R order intGen base w1 w2 lo hi fuel, weight := w2 }]
      oneOfLoop R ws fuel s) lo hi) s

end Recursive
end Verif
