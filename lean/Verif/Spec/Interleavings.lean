import Verif.Spec.Concurrency
/-
Actions of rear threads whose order does not matter.
-/
namespace Verif
namespace Concurrency
open Engine Stateful
variable {O M : Type} {N : Nat}

/-- The two actions, in whatever order two threads do them, both return and have the same effect on the object and on
the models of the two threads, or do not both return in either order. -/
def Commute (a b : Act O M) : Prop :=
  ∀ o m n o' m' n', (∃ p, (a o m).out = .ok (p, m') ∧ (b p n).out = .ok (o', n')) ↔
    ∃ p, (b o n).out = .ok (p, n') ∧ (a p m).out = .ok (o', m')

/-- Actions of different threads commute. -/
def Commuting (rears : Fin N → List (Act O M)) : Prop :=
  ∀ t u, t ≠ u → ∀ a ∈ rears t, ∀ b ∈ rears u, Commute a b

/-- What the action does to the object, and whether it returns, does not depend on the model. -/
def ObjectOnly (a : Act O M) : Prop :=
  ∀ o m m' p, (∃ q, (a o m).out = .ok (p, q)) ↔ ∃ q, (a o m').out = .ok (p, q)

/-- Executing `b` does not change whether the precondition of `a` holds. -/
def Keeps (b a : ClassAct O M) : Prop :=
  ∀ o m o' m', (b.run o m).out = .ok (true, o', m') → (a.precondition o' m').out = (a.precondition o m).out

/-- The two class style actions leave the precondition of the other alone, and executed in either order both return true
with the same effect on object and model, or do not both return true. -/
def ClassCommute (a b : ClassAct O M) : Prop :=
  Keeps a b ∧ Keeps b a ∧ ∀ o m o' m',
    (∃ p q, (a.run o m).out = .ok (true, p, q) ∧ (b.run p q).out = .ok (true, o', m')) ↔
      ∃ p q, (b.run o m).out = .ok (true, p, q) ∧ (a.run p q).out = .ok (true, o', m')

/-- Class style actions of the two threads commute. -/
def ClassCommuting (rears : Fin 2 → List (ClassAct O M)) : Prop :=
  ∀ t u, t ≠ u → ∀ a ∈ rears t, ∀ b ∈ rears u, ClassCommute a b

end Concurrency
end Verif
