import Verif.Model.Property
/-
The property engine for generators that keep a state of their own, e.g. a counter captured by a user's generator function
or used by `lazy` (/repo/proptest/combinator/lazy.hpp). The engine saves and restores the random engine only
(/repo/proptest/Property.hpp:195-196, 217).
-/
namespace Verif
namespace Engine
open PairTuple
variable {n : Nat} {A : Fin n → Type} {σ ρ ω : Type}

/-- `shrink` in Model/Property.lean with the given way to generate the failed values again,
/repo/proptest/Property.hpp:414-428. -/
def shrinkWith (draw : Eng σ A (Tup A)) (c : Cfg σ A) : Eng σ A (Report A) := do
  let i ← Eng.reads (fun s => s.i)
  let start ← draw
  let shrunk ← shrinkEach c c.orderEach start
  pure (.falsified (i + 1) start shrunk)

/-- `attempt` in Model/Property.lean with `shrinkWith`, /repo/proptest/Property.hpp:216-235. -/
def attemptWith (draw : Eng σ A (Tup A)) (c : Cfg σ A) : Eng σ A (Step A) := do
  Eng.modify (fun s => { s with saved := s.rand })
  runStartup c .run
  let result ← invokeWithGenTuple c
  runCleanup c .run
  let failures ← flushFailures
  if !failures.isEmpty then
    let r ← shrinkWith draw c
    pure (.stop r)
  else if !result then
    let r ← shrinkWith draw c
    pure (.stop r)
  else
    pure .pass

/-- `guarded` in Model/Property.lean with `shrinkWith`, /repo/proptest/Property.hpp:216-241. -/
def guardedWith (draw : Eng σ A (Tup A)) (c : Cfg σ A) : Eng σ A (Step A) :=
  Eng.tryCatch (attemptWith draw c) (fun e =>
    if e = .success then pure .pass
    else if e = .discard then pure .again
    else Eng.throw e)

/-- `doWhile` in Model/Property.lean with `shrinkWith`, /repo/proptest/Property.hpp:214-242. -/
def doWhileWith (draw : Eng σ A (Tup A)) (c : Cfg σ A) : Nat → Eng σ A (Option (Report A))
  | 0 => Eng.lift .diverges
  | fuel + 1 => do
    let v ← guardedWith draw c
    match v with
    | .pass => pure none
    | .again => doWhileWith draw c fuel
    | .stop r => pure (some r)

/-- `forLoop` in Model/Property.lean with `shrinkWith`, /repo/proptest/Property.hpp:203-243, 263-265. -/
def forLoopWith (draw : Eng σ A (Tup A)) (c : Cfg σ A) (fuel : Nat) : Nat → Eng σ A (Report A)
  | 0 => pure .passed
  | left + 1 => do
    let elapsed ← Eng.reads (fun s => c.clock s.trace)
    if c.maxDurationMs ≠ 0 ∧ c.maxDurationMs < elapsed then
      Eng.reads (fun s => .timedOut s.i)
    else
      let v ← doWhileWith draw c fuel
      match v with
      | some r => pure r
      | none => do
        Eng.modify (fun s => { s with i := s.i + 1 })
        forLoopWith draw c fuel left

/-- `runForAll` in Model/Property.lean with `shrinkWith`, /repo/proptest/Property.hpp:193-266. -/
def runForAllWith (draw : Eng σ A (Tup A)) (c : Cfg σ A) (fuel : Nat) : Eng σ A (Report A) :=
  Eng.withContext (Eng.catchStd (forLoopWith draw c fuel c.numRuns) (shrinkWith draw c))

/-- Generates the failed values again with generators that have a state of their own: the random engine is the saved one,
but the generators are in the state in which the run has left them. Models
`transformHeteroTupleWithArg<Generate>(curGenTup, savedRand)`, /repo/proptest/Property.hpp:417-418. -/
def drawAgain (c : Cfg (ρ × ω) A) : Eng (ρ × ω) A (Tup A) := fun s =>
  match Gen.drawTuple c.gens c.orderShrink (s.saved.1, s.rand.2) with
  | .ok (ts, r) => (.ok ts, { s with saved := (r.1, s.saved.2), rand := (s.rand.1, r.2) })
  | .throws e => (.throws e, { s with saved := c.thrown (s.saved.1, s.rand.2), trace := .genThrew .shrink e :: s.trace })
  | .ub => (.ub, s)
  | .diverges => (.diverges, s)

/-- Models `forAll`, /repo/proptest/Property.hpp:171-177, for generators with a state `own` of their own. -/
def forAllOwn (c : Cfg (ρ × ω) A) (fuel : Nat) (seed : ρ) (own : ω) (tr : Trace A) : Outcome (Report A) × Trace A :=
  let r := runForAllWith (drawAgain c) c fuel { rand := (seed, own), saved := (seed, own), i := 0, fails := [], trace := tr }
  (r.1, r.2.trace)

end Engine
end Verif
