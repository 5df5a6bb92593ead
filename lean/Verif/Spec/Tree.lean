import Verif.Model.Shrinkable
/-
Specification vocabulary for shrink trees. Uses only the observations a user has: the value of a
shrinkable and the list of shrinks it offers.
-/
namespace Verif
variable {α : Type}

/-- `Desc t s`: a user who starts at `t` and repeatedly picks one of the offered shrinks can arrive
at `s` (in zero or more steps). -/
inductive Desc : Shr α → Shr α → Prop where
  | refl (t : Shr α) : Desc t t
  | step {t s u : Shr α} : s ∈ t.shrinks → Desc s u → Desc t u

/-- The value `v` can be arrived at by shrinking from `t` (in zero or more steps). -/
def Reach (t : Shr α) (v : α) : Prop := ∃ s, Desc t s ∧ s.value = v

/-- The shrinkable found by following the choices `p` (indices into the offered shrinks). -/
def Shr.at? : Shr α → List Nat → Option (Shr α)
  | t, [] => some t
  | t, i :: p =>
    match t.shrinks[i]? with
    | none => none
    | some s => Shr.at? s p

/-- The value found by following the choices `p`. -/
def Shr.valueAt? (t : Shr α) (p : List Nat) : Option α := (t.at? p).map Shr.value

mutual
/-- All sequences of values seen from the root down to some node, in exploration order (a node before
its shrinks, shrinks from first to last). -/
def Shr.histories : Shr α → List (List α)
  | .node v ss => [v] :: (Shr.historiesList ss).map (v :: ·)
/-- `histories` of the trees of a list, one after the other. -/
def Shr.historiesList : List (Shr α) → List (List α)
  | [] => []
  | s :: ss => Shr.histories s ++ Shr.historiesList ss
end

mutual
/-- The length of the longest chain of shrink steps that starts at the root. -/
def Shr.height : Shr α → Nat
  | .node _ ss => Shr.heightList ss
/-- 0 for no trees, otherwise one more than the largest height. -/
def Shr.heightList : List (Shr α) → Nat
  | [] => 0
  | s :: ss => max (Shr.height s + 1) (Shr.heightList ss)
end

end Verif
