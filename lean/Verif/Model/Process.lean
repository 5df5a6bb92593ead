import Verif.Model.Seed
import Verif.Model.Property
/-
The tests of a program one after the other: where each gets its seed from, /repo/proptest/Property.cpp:10-19,
/repo/proptest/PropertyBase.hpp:76, /repo/proptest/Property.hpp:100-104, 195-196.
-/
namespace Verif
namespace Process
open Printing Engine
variable {n : Nat} {A : Fin n → Type} {σ : Type}

/-- The variables `env_seed` and `time`, /repo/proptest/Property.cpp:12 and 16, `none` until they are initialised. -/
structure Statics where
  envSeed : Option (Option Text) := none
  time : Option Int := none

/-- Models `getGlobalSeed`, /repo/proptest/Property.cpp:10-19, called when `PROPTEST_SEED` is `env` and the time is `now`:
`static` variables are initialised by the first call that gets there. Simplified: the text of the variable is kept, not the
pointer to it. -/
def globalSeed (env : Option Text) (now : Int) (st : Statics) : Outcome Int × Statics :=
  let e := st.envSeed.getD env
  let st := { st with envSeed := some e }
  match e with
  | some t => ((Seed.atoll t).bind fun v => .ok (IntType.u64.wrap v), st)
  | none =>
    let time := st.time.getD now
    (.ok (IntType.u64.wrap time), { st with time := some time })

/-- A property that is made and tested with `forAll`: `env` and `now` are the environment variable and the time when it is made,
`given` is the argument of `setSeed`, /repo/proptest/Property.hpp:100-104, if it is called. The tests of a program may differ in
everything; here they have the same argument types. What a property function remembers of the tests before is part of
`cfg.func`. -/
structure Test (σ : Type) (A : Fin n → Type) where
  env : Option Text
  now : Int
  given : Option Int
  cfg : Cfg σ A
  fuel : Nat

/-- Models the constructor of `PropertyBase`, /repo/proptest/PropertyBase.hpp:76, `setSeed`, /repo/proptest/Property.hpp:100-104,
and the call of `forAll`, where both engines are made from the seed, /repo/proptest/Property.hpp:195-196; `engine` is the
constructor of `Random`, /repo/proptest/Random.cpp:6. -/
def Test.run (engine : Int → σ) (t : Test σ A) (st : Statics) : Outcome (Outcome (Report A) × Trace A) × Statics :=
  let r := globalSeed t.env t.now st
  (r.1.bind fun s => .ok (forAll t.cfg t.fuel (engine (t.given.getD s)) []), r.2)

/-- The results of the tests of a program, one after the other. Models a `main` with calls of
/repo/proptest/Property.hpp:171-177. -/
def results (engine : Int → σ) : List (Test σ A) → Statics → List (Outcome (Outcome (Report A) × Trace A))
  | [], _ => []
  | t :: ts, st => (t.run engine st).1 :: results engine ts (t.run engine st).2

end Process
end Verif
