import Verif.Model.Throwing
import Verif.Spec.Property
/-
What can be said about shrinkables whose streams throw.
-/
namespace Verif
namespace Throwing
open Engine PairTuple
variable {n : Nat} {A : Fin n → Type} {σ α β : Type}

/-- Evaluating the shrinks of the shrinkable, or of one of its shrinks, and so on, may end with `o`. -/
def Stops (t : Lazy α) (o : Outcome Unit) : Prop := ∃ v ∈ t.values, v.2 = o

/-- No evaluation of shrinks throws. -/
def Calm (t : Lazy α) : Prop := ∀ o, Stops t o → o = .ok ()

/-- The same exception, or the same other way of not returning. -/
def SameStop (o : Outcome α) (o' : Outcome β) : Prop :=
  (∃ e, o = .throws e ∧ o' = .throws e) ∨ (o = .ub ∧ o' = .ub) ∨ (o = .diverges ∧ o' = .diverges)

/-- The shrinkables drawn for the arguments when they are drawn again for shrinking. -/
def LCfg.Draws (c : LCfg σ A) (ts : LTup A) : Prop :=
  ∃ s r, Gen.drawTuple c.gens c.set.orderShrink s = .ok (ts, r)

end Throwing
end Verif
