import Mathlib.Data.Fin.Basic
/-
Lexicographic order of index tuples.
-/
namespace Verif
namespace Engine

/-- `a` comes before `b` when the last component varies fastest: they differ first at `N`, where `a` is smaller. -/
def LexLt {n : Nat} (a b : Fin n → Nat) : Prop := ∃ N, (∀ j, j < N → a j = b j) ∧ a N < b N

end Engine
end Verif
