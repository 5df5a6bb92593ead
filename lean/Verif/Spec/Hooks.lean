import Verif.Spec.Property
/-
What the events of a run of the property engine show, when also the hooks may fail.
-/
namespace Verif
namespace Engine
variable {n : Nat} {A : Fin n → Type} {σ : Type}

/-- A `std::exception` other than Discard and Success. -/
def Exn.IsError (x : Exn) : Prop := x.isStd = true ∧ x ≠ .discard ∧ x ≠ .success

/-- The hook recorded a failed expectation or threw a `std::exception` other than Discard and Success. -/
def Ev.HookFails (e : Ev Unit) : Prop := e.fails ≠ [] ∨ ∃ x, e.out = .throws x ∧ Exn.IsError x

/-- Something the user wrote failed during a run (not during shrinking): the property function, a hook or a
generator. -/
def Event.Failing : Event A → Prop
  | .startup .run e => e.HookFails
  | .cleanup .run e => e.HookFails
  | .call .run _ e => e.Fails
  | .genThrew .run x => Exn.IsError x
  | _ => False

/-- Something the user wrote threw Discard or Success: the property function or a hook during a run, or a
generator. -/
def Event.Interrupts : Event A → Prop
  | .startup .run e => e.out = .throws .discard ∨ e.out = .throws .success
  | .cleanup .run e => e.out = .throws .discard ∨ e.out = .throws .success
  | .call .run _ e => e.out = .throws .discard ∨ e.out = .throws .success
  | .genThrew _ x => x = .discard ∨ x = .success
  | _ => False

/-- The events, oldest first, of a run in which the startup hook (if any) returns, the property function returns
true on the given arguments and the cleanup hook (if any) returns, all without a failed expectation. -/
def Cfg.goodRun (c : Cfg σ A) (a : Args A) : List (Event A) :=
  (if c.startup.isSome then [.startup .run ⟨[], .ok ()⟩] else []) ++ [.call .run a ⟨[], .ok true⟩] ++
    (if c.cleanup.isSome then [.cleanup .run ⟨[], .ok ()⟩] else [])

end Engine
end Verif
