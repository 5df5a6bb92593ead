import Verif.Spec.Property
import Verif.Model.LazyShrink
/-
Specification vocabulary for shrinks that are streams.
-/
namespace Verif
namespace LazyShrink
open Engine Stream' PairTuple
variable {n : Nat} {A : Fin n → Type} {σ α : Type}

/-- `x` has the values and shrinks of the finite tree `t`, however they are computed. -/
inductive Unfolds (K : Source α) : K.X → Shr α → Prop where
  | mk {x : K.X} {v : α} {ss : List (Shr α)} (ys : List K.X) (hv : K.value x = v) (hs : K.shrinks x = Seq.ofList ys)
      (hl : ys.length = ss.length) (h : ∀ (i : Nat) (y : K.X) (t : Shr α), ys[i]? = some y → ss[i]? = some t → Unfolds K y t) :
      Unfolds K x (.node v ss)

/-- Two outcomes are the same, up to how the shrinkables are computed. -/
def Same (K : (i : Fin n) → Source (A i)) : Outcome (LTup K) × St σ A → Outcome (Tup A) × St σ A → Prop
  | (.ok xs, s), (.ok ts, s') => s = s' ∧ ∀ i, Unfolds (K i) (xs i) (ts i)
  | (.throws e, s), (.throws e', s') => e = e' ∧ s = s'
  | (.ub, s), (.ub, s') => s = s'
  | (.diverges, s), (.diverges, s') => s = s'
  | _, _ => False

/-- `y` is the first shrink of `x` that fails. -/
def FirstFailing (K : Source α) (bad : α → Bool) (x y : K.X) : Prop :=
  ∃ k, (K.shrinks x).get? k = some y ∧ bad (K.value y) = true ∧ ∀ j < k, ∀ z, (K.shrinks x).get? j = some z → bad (K.value z) = false

/-- The shrinks of `x` go on without end and all pass. -/
def Endless (K : Source α) (bad : α → Bool) (x : K.X) : Prop :=
  ∀ k, ∃ z, (K.shrinks x).get? k = some z ∧ bad (K.value z) = false

/-- The arguments as the property function gets them. -/
def args (K : (i : Fin n) → Source (A i)) (vals : LTup K) : Args A := fun i => (K i).value (vals i)

end LazyShrink
end Verif
