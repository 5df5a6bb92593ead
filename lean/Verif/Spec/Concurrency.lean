import Verif.Model.Concurrency
/-
What concurrent runs are expected to do, independently of the steps of the threads.
-/
namespace Verif
namespace Concurrency
open Engine Stateful
variable {O M : Type} {N : Nat}

/-- The actions of thread `t` in a sequence of executed actions. -/
def ofThread {α : Type} (t : Fin N) (order : List (Fin N × α)) : List α :=
  (order.filter fun x => x.1 = t).map (·.2)

/-- The actions `order` were executed one after the other, on one object, each thread with its own model; all of them
returned normally. -/
inductive Linear (o₀ : O) (m₀ : M) : List (Fin N × Act O M) → O → (Fin N → M) → Prop
  | nil : Linear o₀ m₀ [] o₀ fun _ => m₀
  | snoc (order : List (Fin N × Act O M)) (o : O) (ms : Fin N → M) (t : Fin N) (a : Act O M) (o' : O) (m' : M) :
      Linear o₀ m₀ order o ms → (a o (ms t)).out = .ok (o', m') →
      Linear o₀ m₀ (order ++ [(t, a)]) o' fun u => if u = t then m' else ms u

/-- What a thread does with a class style action: it evaluates the precondition, with the given result, or it executes
the action. -/
inductive ClassDoes where
  | check (holds : Bool)
  | run

/-- What the threads did, `order`, happened one after the other, on one object and one model; all executed actions
returned true. -/
inductive ClassLinear (o₀ : O) (m₀ : M) : List (Fin 2 × ClassAct O M × ClassDoes) → O → M → Prop
  | nil : ClassLinear o₀ m₀ [] o₀ m₀
  | check {order : List (Fin 2 × ClassAct O M × ClassDoes)} {o : O} {m : M} (t : Fin 2) (a : ClassAct O M) (b : Bool) :
      ClassLinear o₀ m₀ order o m → (a.precondition o m).out = .ok b →
      ClassLinear o₀ m₀ (order ++ [(t, a, .check b)]) o m
  | run {order : List (Fin 2 × ClassAct O M × ClassDoes)} {o : O} {m : M} (t : Fin 2) (a : ClassAct O M) (o' : O)
      (m' : M) : ClassLinear o₀ m₀ order o m → (a.run o m).out = .ok (true, o', m') →
      ClassLinear o₀ m₀ (order ++ [(t, a, .run)]) o' m'

/-- What a thread has to do for its list of actions: take them in order, evaluate the precondition, and execute the
action if and only if the precondition held. -/
inductive InTurn : List (ClassAct O M) → List (ClassAct O M × ClassDoes) → Prop
  | nil : InTurn [] []
  | skip {as : List (ClassAct O M)} {es : List (ClassAct O M × ClassDoes)} (a : ClassAct O M) :
      InTurn as es → InTurn (a :: as) ((a, .check false) :: es)
  | exec {as : List (ClassAct O M)} {es : List (ClassAct O M × ClassDoes)} (a : ClassAct O M) :
      InTurn as es → InTurn (a :: as) ((a, .check true) :: (a, .run) :: es)

theorem InTurn.append {as bs : List (ClassAct O M)} {es fs : List (ClassAct O M × ClassDoes)} (h : InTurn as es)
    (h' : InTurn bs fs) : InTurn (as ++ bs) (es ++ fs) := by
  induction h with
  | nil => exact h'
  | skip a _ ih => exact .skip a ih
  | exec a _ ih => exact .exec a ih

/-- The action always returns normally. -/
def Act.Returns (a : Act O M) : Prop := ∀ o m, ∃ r, (a o m).out = .ok r

/-- The class style action can always be executed, and returns true. -/
def ClassAct.Runs (a : ClassAct O M) : Prop :=
  ∀ o m, (a.precondition o m).out = .ok true ∧ ∃ r, (a.run o m).out = .ok (true, r)

/-- The class style action does not run into undefined behaviour by itself. -/
def ClassAct.Defined (a : ClassAct O M) : Prop :=
  ∀ o m, (a.precondition o m).out ≠ .ub ∧ (a.run o m).out ≠ .ub

end Concurrency
end Verif
