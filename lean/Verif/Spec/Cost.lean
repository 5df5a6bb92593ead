import Verif.Spec.Tree
import Verif.Model.Gen
/-
How many candidates a search in a shrink tree can try.
-/
namespace Verif
variable {α : Type}

mutual
/-- The largest number of candidates that can be tried when the offered shrinks are tried from first to last, the
search goes on with the shrinks of the first candidate that is adopted, and ends when all shrinks offered were tried
in vain. Which candidates are adopted is arbitrary. -/
def Shr.cost : Shr α → Nat
  | .node _ ss => Shr.costList ss
/-- The same for the remaining candidates: after the first one was tried, the search goes on with its shrinks or with
the other candidates. -/
def Shr.costList : List (Shr α) → Nat
  | [] => 0
  | s :: ss => 1 + max (Shr.cost s) (Shr.costList ss)
end

/-- Whatever the generator makes, a search for a simpler value tries at most `B` candidates. -/
def Gen.TriesAtMost {σ : Type} (g : Gen σ α) (B : Nat) : Prop := ∀ t, g.Makes t → t.cost ≤ B

end Verif
