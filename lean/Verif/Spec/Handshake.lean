import Verif.Model.Handshake
/-! What the theorems about the start and the end of rear threads speak of. -/
namespace Verif
open Stateful
namespace Concurrency
variable {N : Nat} {μ : Type}

/-- What an execution has done to the memory the threads work on. -/
def Res.mapMem : Res (Hand N μ) → Res μ
  | .running s => .running s.mem
  | .ub => .ub
  | .terminated => .terminated

/-- The scheduler runs the spawner and every thread again and again. -/
def Fair (σ : Nat → Option (Fin N)) : Prop := ∀ a k, ∃ j, k ≤ j ∧ σ j = a

/-- The thread has entered its loop. -/
def RearPc.Entered (p : RearPc) : Prop := p = .body ∨ p = .exited

/-- The thread has not yet said that it is ready. -/
def RearPc.NotReady (p : RearPc) : Prop := p = .unborn ∨ p = .hello

instance (p : RearPc) : Decidable p.Entered := by unfold RearPc.Entered; infer_instance
instance (p : RearPc) : Decidable p.NotReady := by unfold RearPc.NotReady; infer_instance

/-- An action of the class style that can be tried and executed in every state. -/
def ClassAct.Returns {O M : Type} (a : ClassAct O M) : Prop :=
  ∀ o m, (∃ b, (a.precondition o m).out = .ok b) ∧ ∃ r, (a.run o m).out = .ok (true, r)

end Concurrency
end Verif
