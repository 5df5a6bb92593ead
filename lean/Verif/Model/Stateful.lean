import Verif.Model.ListLike
import Verif.Model.Property
/-
Stateful testing: /repo/proptest/stateful/stateful_function.hpp, /repo/proptest/stateful/stateful_class.hpp and
/repo/proptest/util/action.hpp.
-/
namespace Verif
namespace Stateful
open Engine Random
variable {σ O M : Type}

/-- Sequencing of user code that may record failed expectations. No particular code of /repo. -/
def andThen {α β : Type} (x : Ev α) (f : α → Ev β) : Ev β :=
  match x.out with
  | .ok a => ⟨x.fails ++ (f a).fails, (f a).out⟩
  | .throws e => ⟨x.fails, .throws e⟩
  | .ub => ⟨x.fails, .ub⟩
  | .diverges => ⟨x.fails, .diverges⟩

/-- Models `Action<ObjectType, ModelType>`, /repo/proptest/util/action.hpp:33-57: a function changing the object and
the model. Simplified: the action has no state outside of object and model; its name is left out. `SimpleAction` (lines
13-31, wrapped at 40-44) is the case of an action that leaves the model alone. -/
abbrev Act (O M : Type) := O → M → Ev (O × M)

/-- Models the loop over the actions, /repo/proptest/stateful/stateful_function.hpp:102-104. -/
def runActions : List (Act O M) → O × M → Ev (O × M)
  | [], s => ⟨[], .ok s⟩
  | a :: as, s => andThen (a s.1 s.2) (runActions as)

/-- Models the lambda `func` of `StatefulProperty::go`, /repo/proptest/stateful/stateful_function.hpp:99-108. The model
factory takes the object by reference and so may change it. -/
def func (factory : O → Ev (O × M)) (postCheck : Option (O → M → Ev (O × M))) (obj : O) (actions : List (Act O M)) :
    Ev Bool :=
  andThen (factory obj) fun s =>
    andThen (runActions actions s) fun s =>
      match postCheck with
      | none => ⟨[], .ok true⟩
      | some check => andThen (check s.1 s.2) fun _ => ⟨[], .ok true⟩

/-- Models the class `Action` of the class style, /repo/proptest/stateful/stateful_class.hpp:46-60: `precondition` takes
the object and model as `const`, `run` may change them and returns a `bool`. -/
structure ClassAct (O M : Type) where
  precondition : O → M → Ev Bool
  run : O → M → Ev (Bool × O × M)

/-- Models the default implementations of `Action`, /repo/proptest/stateful/stateful_class.hpp:53-59. -/
def ClassAct.default : ClassAct O M := ⟨fun _ _ => ⟨[], .ok true⟩, fun _ _ => ⟨[], .throws .runtimeError⟩⟩

/-- Models the loop over the actions in the class style, /repo/proptest/stateful/stateful_class.hpp:145-148 (and, for
actions without model, 124-127). `PROP_ASSERT` of `false` throws `AssertFailed`. -/
def runClassActions : List (ClassAct O M) → O × M → Ev (O × M)
  | [], s => ⟨[], .ok s⟩
  | a :: as, s =>
    andThen (a.precondition s.1 s.2) fun b =>
      if b then
        andThen (a.run s.1 s.2) fun (r, s') =>
          if r then runClassActions as s' else ⟨[], .throws .assertFailed⟩
      else runClassActions as s

/-- Models the property function of the class style, /repo/proptest/stateful/stateful_class.hpp:143-150 (and, with a
factory that does nothing, 123-129). -/
def classFunc (factory : O → Ev (O × M)) (obj : O) (actions : List (ClassAct O M)) : Ev Bool :=
  andThen (factory obj) fun s => andThen (runClassActions actions s) fun _ => ⟨[], .ok true⟩

/-- The argument types of a stateful property: the object and the list of actions.
/repo/proptest/stateful/stateful_function.hpp:32. -/
def Two (X Y : Type) : Fin 2 → Type
  | 0 => X
  | 1 => Y

/-- A pair of generators. Models `util::make_tuple(initialGen, actionListGen)`,
/repo/proptest/stateful/stateful_function.hpp:95. -/
def twoGens {X Y : Type} (gx : Gen σ X) (gy : Gen σ Y) : (i : Fin 2) → Gen σ (Two X Y i)
  | 0 => gx
  | 1 => gy

/-- The part of the environment that does not depend on the stateful property: evaluation orders (see `Cfg`), the clock,
the random engine, the global seed (`getGlobalSeed`, /repo/proptest/Property.cpp:10-19) and the defaults
(/repo/proptest/Property.cpp:24-25). No particular code of /repo. -/
structure Env (σ X Y : Type) where
  R : Rng σ
  /-- the engine constructed from a seed -/
  seeded : Nat → σ
  globalSeed : Nat
  defaultNumRuns : Nat
  defaultMaxDurationMs : Nat
  orderRun : List (Fin 2)
  orderShrink : List (Fin 2)
  orderEach : List (Fin 2)
  thrown : σ → σ
  clock : Trace (Two X Y) → Nat

/-- Models the value of the sentinel `UINT64_MAX`, /repo/proptest/stateful/stateful_function.hpp:37. -/
def uint64Max : Nat := 2^64 - 1

/-- Models the value of the sentinel `UINT32_MAX`, /repo/proptest/stateful/stateful_function.hpp:37. -/
def uint32Max : Nat := 2^32 - 1

/-- Models the members of `StatefulProperty`, /repo/proptest/stateful/stateful_function.hpp:125-134. `initialGen` and
`modelFactory` are `std::function`s: `none` is an empty one. -/
structure Prop' (σ O M : Type) where
  seed : Nat
  numRuns : Nat
  maxDurationMs : Nat
  initialGen : Option (Gen σ O)
  modelFactory : Option (O → Ev (O × M))
  actionGen : Gen σ (Act O M)
  postCheck : Option (O → M → Ev (O × M))
  onStartup : Option (Trace (Two O (List (Act O M))) → Ev Unit)
  onCleanup : Option (Trace (Two O (List (Act O M))) → Ev Unit)

/-- Models the constructor, /repo/proptest/stateful/stateful_function.hpp:36-39. -/
def Prop'.new (initialGen : Gen σ O) (factory : O → Ev (O × M)) (actionGen : Gen σ (Act O M)) : Prop' σ O M :=
  ⟨uint64Max, uint32Max, uint32Max, some initialGen, some factory, actionGen, none, none, none⟩

/-- Models `setSeed`, /repo/proptest/stateful/stateful_function.hpp:41-45. -/
def Prop'.setSeed (p : Prop' σ O M) (s : Nat) : Prop' σ O M := { p with seed := s }

/-- Models `setNumRuns`, /repo/proptest/stateful/stateful_function.hpp:47-51. -/
def Prop'.setNumRuns (p : Prop' σ O M) (n : Nat) : Prop' σ O M := { p with numRuns := n }

/-- Models `setMaxDurationMs`, /repo/proptest/stateful/stateful_function.hpp:53-57. -/
def Prop'.setMaxDurationMs (p : Prop' σ O M) (n : Nat) : Prop' σ O M := { p with maxDurationMs := n }

/-- Models `setOnStartup`, /repo/proptest/stateful/stateful_function.hpp:59-63. -/
def Prop'.setOnStartup (p : Prop' σ O M) (h : Trace (Two O (List (Act O M))) → Ev Unit) : Prop' σ O M :=
  { p with onStartup := some h }

/-- Models `setOnCleanup`, /repo/proptest/stateful/stateful_function.hpp:65-69. -/
def Prop'.setOnCleanup (p : Prop' σ O M) (h : Trace (Two O (List (Act O M))) → Ev Unit) : Prop' σ O M :=
  { p with onCleanup := some h }

/-- Models `setPostCheck`, /repo/proptest/stateful/stateful_function.hpp:72-89. -/
def Prop'.setPostCheck (p : Prop' σ O M) (h : O → M → Ev (O × M)) : Prop' σ O M := { p with postCheck := some h }

/-- Calling an empty `std::function` throws `bad_function_call`. Models the call of `initialGen`,
/repo/proptest/stateful/stateful_function.hpp:95. -/
def callGen {α : Type} : Option (Gen σ α) → Gen σ α
  | some g => g
  | none => fun _ => .throws .stdOther

/-- As `callGen`, for the call of the model factory, /repo/proptest/stateful/stateful_function.hpp:101. -/
def callFactory : Option (O → Ev (O × M)) → O → Ev (O × M)
  | some f => f
  | none => fun _ => ⟨[], .throws .stdOther⟩

/-- The property built by `go`, /repo/proptest/stateful/stateful_function.hpp:93-120. Line 114 installs the cleanup hook
by `setOnStartup`. The list generator has the default sizes 0 and 200, /repo/proptest/generator/list.hpp:58-61. -/
def Prop'.config (p : Prop' σ O M) (env : Env σ O (List (Act O M))) : Cfg σ (Two O (List (Act O M))) where
  gens := twoGens (callGen p.initialGen) (ListLike.arbiVector env.R p.actionGen 0 200)
  orderRun := env.orderRun
  orderShrink := env.orderShrink
  orderEach := env.orderEach
  thrown := env.thrown
  func := fun _ args => func (callFactory p.modelFactory) p.postCheck (args 0) (args 1)
  startup :=
    match p.onCleanup with
    | some h => some h
    | none => p.onStartup
  cleanup := none
  numRuns := if p.numRuns ≠ uint32Max then p.numRuns else env.defaultNumRuns
  maxDurationMs := if p.maxDurationMs ≠ uint32Max then p.maxDurationMs else env.defaultMaxDurationMs
  clock := env.clock

/-- The seed in force, /repo/proptest/stateful/stateful_function.hpp:115-116 and the initialiser in
/repo/proptest/PropertyBase.hpp:76. -/
def Prop'.seedUsed (p : Prop' σ O M) (env : Env σ O (List (Act O M))) : σ :=
  env.seeded (if p.seed ≠ uint64Max then p.seed else env.globalSeed)

/-- Models `go`, /repo/proptest/stateful/stateful_function.hpp:91-122. Lines 95 and 97 pass the members `initialGen` and
`modelFactory` as rvalues, so the `std::function`s are moved into the tuple and the shared pointer; a moved-from
`std::function` is empty (the standard leaves its value unspecified, in libstdc++ and libc++ it is empty). -/
def Prop'.go (p : Prop' σ O M) (env : Env σ O (List (Act O M))) (fuel : Nat)
    (tr : Trace (Two O (List (Act O M)))) :
    (Outcome (Report (Two O (List (Act O M)))) × Trace (Two O (List (Act O M)))) × Prop' σ O M :=
  (forAll (p.config env) fuel (p.seedUsed env) tr, { p with initialGen := none, modelFactory := none })

/-- Models the class style property, /repo/proptest/stateful/stateful_class.hpp:78-107 and 117-152, for an action list
generator made by `actionListGenOf` (lines 109-115) from the generator `actionGen` of one action. -/
def classConfig (env : Env σ O (List (ClassAct O M))) (initialGen : Gen σ O) (factory : O → Ev (O × M))
    (actionGen : Gen σ (ClassAct O M)) (numRuns maxDurationMs : Nat) : Cfg σ (Two O (List (ClassAct O M))) where
  gens := twoGens initialGen (ListLike.arbiVector env.R actionGen 0 200)
  orderRun := env.orderRun
  orderShrink := env.orderShrink
  orderEach := env.orderEach
  thrown := env.thrown
  func := fun _ args => classFunc factory (args 0) (args 1)
  startup := none
  cleanup := none
  numRuns := numRuns
  maxDurationMs := maxDurationMs
  clock := env.clock

end Stateful
end Verif
