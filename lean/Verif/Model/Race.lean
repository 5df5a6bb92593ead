import Verif.Model.Concurrency
import Verif.Spec.Race
/-
What the rear threads of a concurrent test do with the `PropertyContext` that all of them share: the pointer
`PropertyBase::context` (/repo/proptest/Property.cpp:23) is one global variable, and nothing in `PropertyContext` is atomic or protected by a lock.

`uses t k o m` are the parts of the context that the action of thread `t` with `k` actions after it writes when it is
executed on the object `o` and the model `m`. Simplified: all accesses count as writes (every macro below writes), and the
precondition functions of the class style use no macros.
-/
namespace Verif
namespace Concurrency
open Engine Stateful Race
variable {N : Nat} {O M : Type}

/-- The parts of a `PropertyContext`, /repo/proptest/PropertyContext.hpp:51-53: `lastStreamExists` is written by
`succeed` (/repo/proptest/PropertyContext.cpp:48-52) and by `fail` (54-58), so by every `PROP_EXPECT` whether it holds or
not; `failures` by `fail`; `tags` by `tag` (27-46). -/
inductive Part where
  | lastStream
  | failures
  | tags
deriving DecidableEq

/-- What a `PROP_EXPECT` that holds, one that fails, and `PROP_TAG` (or `PROP_STAT`) write. Models
/repo/proptest/PropertyBase.hpp:7-19, 42-60. -/
inductive Macro where
  | expectHolds
  | expectFails
  | tag
deriving DecidableEq

/-- What the macros write, /repo/proptest/PropertyContext.cpp:27-58. -/
def Macro.writes : Macro → List Part
  | .expectHolds => [.lastStream]
  | .expectFails => [.failures, .lastStream]
  | .tag => [.tags]

/-- What a step of thread `t` does that matters for data races: the two `counter++` of
/repo/proptest/stateful/concurrency_function.hpp:212 and 215, and the macros in the action (213). The stores to the log are
to different entries and left out. -/
def stepTrace (uses : Fin N → Nat → O → M → List Macro) (s : Sys N O M) (t : Fin N) : Trace N Part :=
  match s.thr t with
  | ⟨_ :: _, .start, _⟩ => [(t, .sync)]
  | ⟨_ :: as, .act, m⟩ => ((uses t as.length s.obj m).flatMap Macro.writes).map fun p => (t, .write p)
  | ⟨_ :: _, .stop, _⟩ => [(t, .sync)]
  | _ => []

/-- What the threads do in an execution. No particular code of /repo. -/
def runTrace (uses : Fin N → Nat → O → M → List Macro) : List (Fin N) → Sys N O M → Trace N Part
  | [], _ => []
  | t :: sched, s =>
    stepTrace uses s t ++
      match step s t with
      | .running s' => runTrace uses sched s'
      | _ => []

/-- What a step of thread `t` of the class style does that matters for data races: the `counter++` of
/repo/proptest/stateful/concurrency_class.hpp:209 and the macros in `run` (207). -/
def classStepTrace (uses : Fin 2 → Nat → O → M → List Macro) (s : ClassSys O M) (t : Fin 2) : Trace 2 Part :=
  match s.thr t with
  | ⟨_ :: as, .run⟩ => ((uses t as.length s.obj s.model).flatMap Macro.writes).map fun p => (t, .write p)
  | ⟨_ :: _, .fetch⟩ => [(t, .sync)]
  | _ => []

/-- What the two threads do in an execution. No particular code of /repo. -/
def classRunTrace (uses : Fin 2 → Nat → O → M → List Macro) : List (Fin 2) → ClassSys O M → Trace 2 Part
  | [], _ => []
  | t :: sched, s =>
    classStepTrace uses s t ++
      match classStep s t with
      | .running s' => classRunTrace uses sched s'
      | _ => []

end Concurrency
end Verif
