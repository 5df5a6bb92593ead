import Verif.Model.ConcurrencyGo
/-
Vocabulary for claims about the run of a whole concurrent test. Not part of /repo.
-/
namespace Verif
namespace Concurrency
open Engine Stateful
variable {σ O L α : Type}

/-- What is generated, without the rest. -/
inductive Generated (O L : Type) where
  | obj (r : Outcome O)
  | lists (r : Outcome L)

/-- What an event generated. -/
def GoEvent.generated : GoEvent O L → Option (Generated O L)
  | .obj r => some (.obj r)
  | .lists r => some (.lists r)
  | _ => none

/-- All that was generated in a test, in order. -/
def generated (es : List (GoEvent O L)) : List (Generated O L) := es.filterMap GoEvent.generated

/-- The initial objects of the runs, in order. -/
def objects (es : List (GoEvent O L)) : List (Outcome O) :=
  es.filterMap fun
    | .obj r => some r
    | _ => none

/-- The event is a call of the startup hook. -/
def GoEvent.isStartup : GoEvent O L → Bool
  | .startup _ => true
  | _ => false

/-- The event is a call of the cleanup hook. -/
def GoEvent.isCleanup : GoEvent O L → Bool
  | .cleanup _ => true
  | _ => false

/-- The event is an execution of actions and post check. -/
def GoEvent.isBody : GoEvent O L → Bool
  | .body _ _ => true
  | _ => false

/-- The event is an execution of actions and post check without exception. -/
def GoEvent.isReturned : GoEvent O L → Bool
  | .body (.done ⟨_, .ok ()⟩) _ => true
  | _ => false

/-- Whenever an object is given out it is `o`, or as the last execution left it. -/
def Follows : O → List (GoEvent O L) → Prop
  | _, [] => True
  | o, .obj r :: es => r = .ok o ∧ Follows o es
  | _, .body _ left :: es => Follows left es
  | o, _ :: es => Follows o es

/-- Events of one attempt with hooks: the startup hook, then the generation, then the actions, then the cleanup hook,
where each part is only there if the part before went well. -/
inductive OneAttempt : List (GoEvent O L) → Prop where
  | startup (e : Ev Unit) : e.out ≠ .ok () → OneAttempt [.startup e]
  | obj (e : Ev Unit) (r : Outcome O) : e.out = .ok () → (∀ o, r ≠ .ok o) → OneAttempt [.startup e, .obj r]
  | lists (e : Ev Unit) (o : O) (r : Outcome L) : e.out = .ok () → (∀ l, r ≠ .ok l) →
      OneAttempt [.startup e, .obj (.ok o), .lists r]
  | body (e : Ev Unit) (o : O) (l : L) (r : Invoked Unit) (left : O) : e.out = .ok () →
      (∀ f, r ≠ .done ⟨f, .ok ()⟩) → OneAttempt [.startup e, .obj (.ok o), .lists (.ok l), .body r left]
  | full (e : Ev Unit) (o : O) (l : L) (f : List String) (left : O) (c : Ev Unit) : e.out = .ok () →
      OneAttempt [.startup e, .obj (.ok o), .lists (.ok l), .body (.done ⟨f, .ok ()⟩) left, .cleanup c]

end Concurrency
end Verif
