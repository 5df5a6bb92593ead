import Verif.Spec.Tree
/-
Greedy shrinking as a user describes it: look at the offered shrinks from first to last, move to the
first one for which the property fails, stop when none fails.
-/
namespace Verif
variable {α : Type}

mutual
/-- The value greedy shrinking ends at. -/
def Shr.greedy (fails : α → Bool) : Shr α → α
  | .node v ss => Shr.greedyList fails v ss
/-- Greedy shrinking with best value `cur` so far and remaining candidates. -/
def Shr.greedyList (fails : α → Bool) (cur : α) : List (Shr α) → α
  | [] => cur
  | c :: cs => if fails c.value then Shr.greedy fails c else Shr.greedyList fails cur cs
end

mutual
/-- The number of times greedy shrinking evaluates the property. -/
def Shr.greedyEvals (fails : α → Bool) : Shr α → Nat
  | .node _ ss => Shr.greedyEvalsList fails ss
/-- Evaluations for the remaining candidates. -/
def Shr.greedyEvalsList (fails : α → Bool) : List (Shr α) → Nat
  | [] => 0
  | c :: cs => 1 + if fails c.value then Shr.greedyEvals fails c else Shr.greedyEvalsList fails cs
end

mutual
/-- The node of the tree greedy shrinking ends at. -/
def Shr.greedyNode (fails : α → Bool) : Shr α → Shr α
  | .node v ss => Shr.greedyNodeList fails (.node v ss) ss
/-- The same with best node `cur` so far and remaining candidates. -/
def Shr.greedyNodeList (fails : α → Bool) (cur : Shr α) : List (Shr α) → Shr α
  | [] => cur
  | c :: cs => if fails c.value then Shr.greedyNode fails c else Shr.greedyNodeList fails cur cs
end

mutual
/-- The values greedy shrinking evaluates the property for, in order. -/
def Shr.greedyTried (fails : α → Bool) : Shr α → List α
  | .node _ ss => Shr.greedyTriedList fails ss
/-- The same for the remaining candidates. -/
def Shr.greedyTriedList (fails : α → Bool) : List (Shr α) → List α
  | [] => []
  | c :: cs => c.value :: if fails c.value then Shr.greedyTried fails c else Shr.greedyTriedList fails cs
end

mutual
/-- All values of the tree, one entry per position. -/
def Shr.values : Shr α → List α
  | .node v ss => v :: Shr.valuesList ss
/-- All values of a list of trees. -/
def Shr.valuesList : List (Shr α) → List α
  | [] => []
  | s :: ss => Shr.values s ++ Shr.valuesList ss
end

end Verif
