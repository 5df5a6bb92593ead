import Verif.Model.Spawn
/-
The settings of a concurrent test: constructors, setters and `go` of `Concurrency`,
/repo/proptest/stateful/concurrency_function.hpp and /repo/proptest/stateful/concurrency_class.hpp.
-/
namespace Verif
namespace Concurrency
open Engine Stateful
variable {σ O M : Type}

/-- Models the members of `Concurrency` (function style), /repo/proptest/stateful/concurrency_function.hpp:116-126. The
`shared_ptr`s that may be null are `Option`s. `numRuns` and `numThreads` are `int`s. The class style,
/repo/proptest/stateful/concurrency_class.hpp:41-119, has the same members, constructors and setters except for the number of
threads, which is two there, and keeps the number of runs as a `uint32_t`. -/
structure Conc (σ O M : Type) where
  initial : Source σ O
  factory : Option (O → Ev (O × M))
  actions : Draw σ (List (Act O M))
  startup : Option (Nat → Ev Unit)
  cleanup : Option (Nat → Ev Unit)
  postCheck : Option (O → M → Ev (O × M))
  seed : Nat
  numRuns : Int
  numThreads : Int
  maxDurationMs : Nat

/-- What a test is run with: the global seed (`getGlobalSeed`, /repo/proptest/Property.cpp:10-19), the engine made from a seed,
the milliseconds passed before attempt `k`, how the threads of attempt `k` are scheduled, the model made by `ModelType()`, and
the object if an exception leaves it broken (see `invokeLeft`). No particular code of /repo. -/
structure ConcEnv (σ O M : Type) where
  globalSeed : Nat
  seeded : Nat → σ
  clock : Nat → Nat
  sched : (N : Nat) → Nat → List (Fin N)
  model : M
  broken : O

/-- Models the constructors and the functions `concurrency` that call them,
/repo/proptest/stateful/concurrency_function.hpp:38-61 and 342-372: without a model factory for simple actions, with one
otherwise. -/
def Conc.new (env : ConcEnv σ O M) (initial : Source σ O) (factory : Option (O → Ev (O × M)))
    (actions : Draw σ (List (Act O M))) : Conc σ O M :=
  ⟨initial, factory, actions, none, none, none, env.globalSeed, 200, 2, 0⟩

/-- Models `setSeed`, /repo/proptest/stateful/concurrency_function.hpp:92-96. -/
def Conc.setSeed (c : Conc σ O M) (n : Nat) : Conc σ O M := { c with seed := n }

/-- Models `setNumRuns`, /repo/proptest/stateful/concurrency_function.hpp:98-102: `uint32_t` is converted to `int`. -/
def Conc.setNumRuns (c : Conc σ O M) (n : Nat) : Conc σ O M := { c with numRuns := toInt32 n }

/-- Models `setMaxConcurrency`, /repo/proptest/stateful/concurrency_function.hpp:104-108: `uint32_t` is converted to `int`. -/
def Conc.setMaxConcurrency (c : Conc σ O M) (n : Nat) : Conc σ O M := { c with numThreads := toInt32 n }

/-- Models `setMaxDurationMs`, /repo/proptest/stateful/concurrency_function.hpp:110-114. -/
def Conc.setMaxDurationMs (c : Conc σ O M) (n : Nat) : Conc σ O M := { c with maxDurationMs := n }

/-- Models `setOnStartup`, /repo/proptest/stateful/concurrency_function.hpp:63-66. -/
def Conc.setOnStartup (c : Conc σ O M) (h : Nat → Ev Unit) : Conc σ O M := { c with startup := some h }

/-- Models `setOnCleanup`, /repo/proptest/stateful/concurrency_function.hpp:68-71. -/
def Conc.setOnCleanup (c : Conc σ O M) (h : Nat → Ev Unit) : Conc σ O M := { c with cleanup := some h }

/-- Models `setPostCheck`, /repo/proptest/stateful/concurrency_function.hpp:73-78. (The overload for tests without a model,
lines 80-86, does not compile: `make_shared` without a type.) -/
def Conc.setPostCheck (c : Conc σ O M) (h : O → M → Ev (O × M)) : Conc σ O M := { c with postCheck := some h }

/-- Models the check of the time limit, /repo/proptest/stateful/concurrency_function.hpp:140-147. -/
def Conc.timeUp (c : Conc σ O M) (env : ConcEnv σ O M) (k : Nat) : Bool :=
  if c.maxDurationMs ≠ 0 then decide (env.clock k > c.maxDurationMs) else false

/-- Models the model at the start of a run, /repo/proptest/stateful/concurrency_function.hpp:244. -/
def Conc.makeModel (c : Conc σ O M) (env : ConcEnv σ O M) (obj : O) : Ev (O × M) :=
  match c.factory with
  | some f => f obj
  | none => ⟨[], .ok (obj, env.model)⟩

/-- The test that `go` runs: the members as they are, /repo/proptest/stateful/concurrency_function.hpp:130-185. -/
def Conc.test (c : Conc σ O M) (env : ConcEnv σ O M) : Test σ O (Lists c.numThreads.toNat O M) :=
  functionTest c.initial c.actions (c.makeModel env) c.postCheck c.startup c.cleanup (c.timeUp env)
    (env.sched c.numThreads.toNat) env.broken

/-- Models `go`, /repo/proptest/stateful/concurrency_function.hpp:130-185; `cell` is the object that `just` holds. -/
def Conc.go (c : Conc σ O M) (env : ConcEnv σ O M) (fuel : Nat) (cell : O) :
    Ended σ O (Lists c.numThreads.toNat O M) Bool :=
  goTest (c.test env) fuel c.numRuns.toNat (env.seeded c.seed) cell

end Concurrency
end Verif
