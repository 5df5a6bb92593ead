import Verif.Model.Property
/-
`Property` objects: their settings, copies of them, and what copies share. /repo/proptest/Property.hpp,
/repo/proptest/PropertyBase.hpp, /repo/proptest/Property.cpp.
-/
namespace Verif
namespace Object
open Engine
variable {n : Nat} {A : Fin n → Type} {σ : Type}

/-- Evaluation orders (see `Cfg`), the clock, the random engine and the global seed (`getGlobalSeed`,
/repo/proptest/Property.cpp:10-19, see Model/Process.lean). No particular code of /repo. -/
structure Env (σ : Type) (A : Fin n → Type) where
  orderRun : List (Fin n)
  orderShrink : List (Fin n)
  orderEach : List (Fin n)
  thrown : σ → σ
  clock : Trace A → Nat
  /-- the engine constructed from a seed, /repo/proptest/Random.cpp:6 -/
  seeded : Nat → σ
  globalSeed : Nat

/-- Models `defaultNumRuns`, /repo/proptest/Property.cpp:24. `setDefaultNumRuns` is declared (/repo/proptest/PropertyBase.hpp:78)
and documented, but not defined: a program that calls it is not linked. So the number does not change. -/
def defaultNumRuns : Nat := 1000

/-- Models `defaultMaxDurationMs`, /repo/proptest/Property.cpp:25. -/
def defaultMaxDurationMs : Nat := 0

/-- The function object `funcPtr` points to, /repo/proptest/PropertyBase.hpp:101: what it does may depend on what happened in
the tests it was used in, `past`. -/
structure Fn (A : Fin n → Type) where
  call : Trace A → Args A → Ev Bool
  past : Trace A

/-- Models the members of a `Property`, /repo/proptest/PropertyBase.hpp:96-104. `func` is the number of the function object `funcPtr`
points to. Simplified: the objects `genTupPtr`, `onStartupPtr` and `onCleanupPtr` point to are never changed after they are made
(/repo/proptest/Property.hpp:88, 126, 138, 174), they are kept by value; the hooks know the past of the function object only. -/
structure Obj (σ : Type) (A : Fin n → Type) where
  seed : Nat
  numRuns : Nat
  maxDurationMs : Nat
  func : Nat
  gens : (i : Fin n) → Gen σ (A i)
  onStartup : Option (Trace A → Ev Unit)
  onCleanup : Option (Trace A → Ev Unit)

/-- The `Property` objects of a program and the function objects they point to, in the order in which they were made. No particular
code of /repo. -/
structure World (σ : Type) (A : Fin n → Type) where
  objs : List (Obj σ A)
  funcs : List (Fn A)

/-- Models the constructors, /repo/proptest/Property.hpp:88 and /repo/proptest/PropertyBase.hpp:75-76: new objects for the function and the
generators. -/
def World.make (env : Env σ A) (w : World σ A) (f : Trace A → Args A → Ev Bool) (gens : (i : Fin n) → Gen σ (A i)) : World σ A where
  objs := w.objs ++ [⟨env.globalSeed, defaultNumRuns, defaultMaxDurationMs, w.funcs.length, gens, none, none⟩]
  funcs := w.funcs ++ [⟨f, []⟩]

/-- Models the implicit copy constructor of `Property`, /repo/proptest/Property.hpp:77, /repo/proptest/PropertyBase.hpp:72: the numbers and
the shared pointers are copied. -/
def World.copy (w : World σ A) (i : Nat) : World σ A :=
  match w.objs[i]? with
  | some o => { w with objs := w.objs ++ [o] }
  | none => w

/-- Models `setSeed`, /repo/proptest/Property.hpp:100-104. -/
def Obj.setSeed (o : Obj σ A) (s : Nat) : Obj σ A := { o with seed := s }

/-- Models `setNumRuns`, /repo/proptest/Property.hpp:112-116. -/
def Obj.setNumRuns (o : Obj σ A) (k : Nat) : Obj σ A := { o with numRuns := k }

/-- Models `setOnStartup`, /repo/proptest/Property.hpp:124-128: a new function object. -/
def Obj.setOnStartup (o : Obj σ A) (h : Trace A → Ev Unit) : Obj σ A := { o with onStartup := some h }

/-- Models `setOnCleanup`, /repo/proptest/Property.hpp:136-140: a new function object. -/
def Obj.setOnCleanup (o : Obj σ A) (h : Trace A → Ev Unit) : Obj σ A := { o with onCleanup := some h }

/-- Models `setMaxDurationMs`, /repo/proptest/Property.hpp:148-152. -/
def Obj.setMaxDurationMs (o : Obj σ A) (k : Nat) : Obj σ A := { o with maxDurationMs := k }

/-- What `runForAll` uses of the object, /repo/proptest/Property.hpp:193-266: `given` are the generators given to `forAll`, which take the
place of those of the object (lines 171-176; which ones may be given is modelled in Model/PropertyMake.lean). -/
def Obj.config (env : Env σ A) (o : Obj σ A) (f : Trace A → Args A → Ev Bool) (given : (i : Fin n) → Option (Gen σ (A i))) : Cfg σ A where
  gens := fun i => (given i).getD (o.gens i)
  orderRun := env.orderRun
  orderShrink := env.orderShrink
  orderEach := env.orderEach
  thrown := env.thrown
  func := f
  startup := o.onStartup
  cleanup := o.onCleanup
  numRuns := o.numRuns
  maxDurationMs := o.maxDurationMs
  clock := env.clock

/-- Models `forAll` of the object number `i`, /repo/proptest/Property.hpp:171-176, 193-196: the result, and the function object has seen one
more test. `fuel` as in `Engine.forAll`. -/
def World.forAll (env : Env σ A) (w : World σ A) (i : Nat) (given : (i : Fin n) → Option (Gen σ (A i))) (fuel : Nat) :
    Option (Outcome (Report A)) × World σ A :=
  match w.objs[i]? with
  | some o =>
    match w.funcs[o.func]? with
    | some f =>
      let r := Engine.forAll (o.config env f.call given) fuel (env.seeded o.seed) f.past
      (some r.1, { w with funcs := w.funcs.set o.func { f with past := r.2 } })
    | none => (none, w)
  | none => (none, w)

/-- The setters, /repo/proptest/Property.hpp:100-152. -/
inductive Setter (A : Fin n → Type) where
  | seed (s : Nat)
  | runs (k : Nat)
  | duration (k : Nat)
  | startup (h : Trace A → Ev Unit)
  | cleanup (h : Trace A → Ev Unit)

/-- The call of a setter, /repo/proptest/Property.hpp:100-152. -/
def Setter.call (o : Obj σ A) : Setter A → Obj σ A
  | .seed s => o.setSeed s
  | .runs k => o.setNumRuns k
  | .duration k => o.setMaxDurationMs k
  | .startup h => o.setOnStartup h
  | .cleanup h => o.setOnCleanup h

/-- The statements of a program that uses `Property` objects: `property(f, gens...)` (/repo/proptest/Property.hpp:503-511), copying, setters
and `forAll`. -/
inductive Stmt (σ : Type) (A : Fin n → Type) where
  | make (f : Trace A → Args A → Ev Bool) (gens : (i : Fin n) → Gen σ (A i))
  | copy (i : Nat)
  | set (i : Nat) (s : Setter A)
  | forAll (i : Nat) (given : (i : Fin n) → Option (Gen σ (A i))) (fuel : Nat)

/-- The execution of a statement. Models C++ statements; no particular code of /repo. -/
def Stmt.exec (env : Env σ A) (w : World σ A) : Stmt σ A → World σ A
  | .make f gens => w.make env f gens
  | .copy i => w.copy i
  | .set i s => { w with objs := w.objs.modify i fun o => s.call o }
  | .forAll i given fuel => (w.forAll env i given fuel).2

/-- The execution of a program. Models C++ statements; no particular code of /repo. -/
def exec (env : Env σ A) (w : World σ A) (p : List (Stmt σ A)) : World σ A := p.foldl (Stmt.exec env) w

end Object
end Verif
