import Verif.Model.Property
import Verif.Spec.Tree
import Verif.Spec.Greedy
/-
What a user can observe of the property engine: calls of the property function and of the hooks.
-/
namespace Verif
namespace Engine
variable {n : Nat} {A : Fin n → Type} {σ : Type}

/-- The call of the property function recorded by an event of the given phase. -/
def Event.call? (ph : Phase) : Event A → Option (Args A × Ev Bool)
  | .call ph' args e => if ph' = ph then some (args, e) else none
  | _ => none

/-- The calls of the property function in the given phase, oldest first. -/
def calls (ph : Phase) (tr : Trace A) : List (Args A × Ev Bool) := tr.reverse.filterMap (Event.call? ph)

/-- The call ended with PROP_DISCARD. -/
def Ev.discarded (e : Ev Bool) : Bool := e.out = .throws .discard

/-- The call shows a violation of the property: it returned false, threw a std::exception other than Discard
and Success, or recorded a failed expectation. -/
def Ev.Fails (e : Ev Bool) : Prop :=
  e.out = .ok false ∨ (∃ x, e.out = .throws x ∧ x.isStd = true ∧ x ≠ .discard ∧ x ≠ .success) ∨ e.fails ≠ []

/-- The call did not simply return true without a failed expectation: it returned false, threw a std::exception
of any kind (also Discard and Success), or recorded a failed expectation. -/
def Ev.Rejects (e : Ev Bool) : Prop :=
  e.out = .ok false ∨ (∃ x, e.out = .throws x ∧ x.isStd = true) ∨ e.fails ≠ []

/-- A hook that is not installed, or returns normally without a failed expectation. -/
def QuietHook (h : Option (Trace A → Ev Unit)) : Prop := ∀ k, h = some k → ∀ tr, k tr = ⟨[], .ok ()⟩

/-- Both hooks are quiet. -/
def Cfg.Quiet (c : Cfg σ A) : Prop := QuietHook c.startup ∧ QuietHook c.cleanup

/-- The property function has no memory: what it does depends on the arguments only. -/
def Cfg.Pure (c : Cfg σ A) (f : Args A → Ev Bool) : Prop := ∀ tr args, c.func tr args = f args

/-- No generator throws an exception, whatever the state of the random engine, and each component is drawn. -/
def Cfg.GensTotal (c : Cfg σ A) : Prop := ∀ s, ∃ r, Gen.drawTuple c.gens c.orderRun s = .ok r

/-- The usual setting: the hooks return normally and record nothing, the compiler uses the same argument
evaluation order when the arguments are drawn and when they are drawn again for shrinking, each argument is shrunk
once, and no generator throws `Success`. -/
structure Setting (c : Cfg σ A) : Prop where
  quiet : c.Quiet
  order : c.orderShrink = c.orderRun
  nodup : c.orderEach.Nodup
  gens : ∀ s, Gen.drawTuple c.gens c.orderRun s ≠ .throws .success

/-- The state of the random engine after one draw of all arguments. -/
def Cfg.next (c : Cfg σ A) (s : σ) : σ :=
  match Gen.drawTuple c.gens c.orderRun s with
  | .ok (_, s') => s'
  | _ => s

/-- Every block of the trace (newest event first) is: startup, call and, if the call returned, cleanup; or it
ends early because a generator threw. -/
inductive Paired : Trace A → Prop
  | nil : Paired []
  | returned (ph : Phase) (args : Args A) (e0 e2 : Ev Unit) (e1 : Ev Bool) (b : Bool) (tr : Trace A) :
      e1.out = .ok b → Paired tr → Paired (.cleanup ph e2 :: .call ph args e1 :: .startup ph e0 :: tr)
  | threw (ph : Phase) (args : Args A) (e0 : Ev Unit) (e1 : Ev Bool) (tr : Trace A) :
      (∀ b, e1.out ≠ .ok b) → Paired tr → Paired (.call ph args e1 :: .startup ph e0 :: tr)
  | genRun (e0 : Ev Unit) (e : Exn) (tr : Trace A) :
      Paired tr → Paired (.genThrew .run e :: .startup .run e0 :: tr)
  | genShrink (e : Exn) (tr : Trace A) : Paired tr → Paired (.genThrew .shrink e :: tr)

/-- Greedy shrinking of one argument after the other, in the given order: argument `N` is shrunk while the other
arguments keep their current values. -/
def greedyEach (fails : Args A → Bool) : List (Fin n) → ((i : Fin n) → Shr (A i)) → ((i : Fin n) → Shr (A i))
  | [], ts => ts
  | N :: rest, ts =>
    greedyEach fails rest (Function.update ts N
      ((ts N).greedyNode fun v => fails (Function.update (fun i => (ts i).value) N v)))

/-- The argument tuples this evaluates the property for, in order. -/
def greedyEachTried (fails : Args A → Bool) : List (Fin n) → ((i : Fin n) → Shr (A i)) → List (Args A)
  | [], _ => []
  | N :: rest, ts =>
    ((ts N).greedyTried fun v => fails (Function.update (fun i => (ts i).value) N v)).map
        (fun v => Function.update (fun i => (ts i).value) N v) ++
      greedyEachTried fails rest (Function.update ts N
        ((ts N).greedyNode fun v => fails (Function.update (fun i => (ts i).value) N v)))

/-- The user supplied functions return or throw, they do not run forever. -/
structure Terminating (c : Cfg σ A) : Prop where
  func : ∀ tr a, (c.func tr a).out ≠ .diverges
  startup : ∀ k, c.startup = some k → ∀ tr, (k tr).out ≠ .diverges
  cleanup : ∀ k, c.cleanup = some k → ∀ tr, (k tr).out ≠ .diverges
  gens : ∀ s, Gen.drawTuple c.gens c.orderShrink s ≠ .diverges

end Engine
end Verif
