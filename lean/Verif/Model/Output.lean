import Verif.Model.Property
import Verif.Model.Context
/-
What `forAll` prints: /repo/proptest/Property.hpp:193-266, 338-428, with the tags and failed expectations collected by
/repo/proptest/PropertyContext.cpp. The definitions follow those of Model/Property.lean statement by statement, with the
output and the tags added; `forAll_agrees` (Lemmas/Output.lean) shows that nothing else differs.

Simplifications of this file: `cout` and `cerr` are one stream, texts are kept as data instead of being formatted (see
Model/Printing.lean for values and Model/Context.lean for failures), generators do not call PROP_TAG.
-/
namespace Verif
namespace Output
open PairTuple Engine Context
variable {n : Nat} {A : Fin n → Type} {σ K V α β : Type}

/-- Why a test is said to be falsified: the text after "Falsifiable, after ... tests", /repo/proptest/Property.hpp:226-227
(failed expectations), 231 (nothing), 245, 251 and 257 (the text of the exception; simplified: its kind). -/
inductive Why where
  | expectations (fails : List String)
  | nothing
  | exception (e : Exn)
deriving DecidableEq

/-- A line of output: "random seed" (/repo/proptest/Property.hpp:197; simplified: without the number), "OK, passed"
(263), "Timed out" (208), "Falsifiable" (226, 231, 245, 251, 257), "with args" (420), "shrinking found simpler failing
arg" (396), "by failed expectation" (398), "simplest args found by shrinking" (427), and the statistics
(/repo/proptest/PropertyContext.cpp:91-110). Simplified: the time of "Timed out" is left out. -/
inductive Line (A : Fin n → Type) (K V : Type) where
  | seed
  | passed (tests : Nat)
  | timedOut (tests : Nat)
  | falsifiable (after : Nat) (why : Why)
  | withArgs (args : Args A)
  | simpler (N : Fin n) (args : Args A)
  | byExpectations (fails : List String)
  | simplest (args : Args A)
  | statistics (summary : List (K × List (V × Nat × Nat)))

/-- A property with the tags its functions record: the calls PROP_TAG(key, value) made, in order, during the call that is
recorded as the given event, which may depend on everything that happened before. Extends `Cfg` in Model/Property.lean;
/repo/proptest/PropertyBase.hpp:57-62. -/
structure TCfg (σ : Type) (A : Fin n → Type) (K V : Type) where
  cfg : Cfg σ A
  tags : Trace A → Event A → List (K × V)

/-- The variables of `runForAll` as in Model/Property.lean, the tags of its `PropertyContext`
(/repo/proptest/Property.hpp:198), and what was printed so far. -/
structure XSt (σ : Type) (A : Fin n → Type) (K V : Type) where
  st : St σ A
  tags : Tags K V
  out : List (Line A K V)

/-- A statement of the engine that may print. Models C++ statements; no particular code of /repo. -/
def XEng (σ : Type) (A : Fin n → Type) (K V α : Type) := XSt σ A K V → Outcome α × XSt σ A K V

namespace XEng

/-- Sequencing of statements. No particular code of /repo. -/
def bind (m : XEng σ A K V α) (f : α → XEng σ A K V β) : XEng σ A K V β := fun x =>
  match m x with
  | (.ok a, x') => f a x'
  | (.throws e, x') => (.throws e, x')
  | (.ub, x') => (.ub, x')
  | (.diverges, x') => (.diverges, x')

/-- Notation for sequencing. No particular code of /repo. -/
instance : Monad (XEng σ A K V) where
  pure a := fun x => (.ok a, x)
  bind := bind

/-- A statement given by its effect. No particular code of /repo. -/
def mk (f : XSt σ A K V → Outcome α × XSt σ A K V) : XEng σ A K V α := f

/-- A statement that neither prints nor records tags. No particular code of /repo. -/
def up (m : Eng σ A α) : XEng σ A K V α := fun x => ((m x.st).1, { x with st := (m x.st).2 })

/-- `cout << ... << endl`. No particular code of /repo. -/
def print (l : Line A K V) : XEng σ A K V Unit := fun x => (.ok (), { x with out := x.out ++ [l] })

/-- Prints a line computed from the variables. No particular code of /repo. -/
def printOf (l : XSt σ A K V → Line A K V) : XEng σ A K V Unit := fun x => (.ok (), { x with out := x.out ++ [l x] })

/-- `throw e`. No particular code of /repo. -/
def throw (e : Exn) : XEng σ A K V α := fun x => (.throws e, x)

/-- `try { m } catch ...`: the handler sees every exception and may rethrow it. No particular code of /repo. -/
def tryCatch (m : XEng σ A K V α) (h : Exn → XEng σ A K V α) : XEng σ A K V α := fun x =>
  match m x with
  | (.throws e, x') => h e x'
  | r => r

end XEng

variable [LinearOrder K] [LinearOrder V]

/-- Calls a user function in the context of `runForAll`: `record` of Model/Property.lean, and its tags are added to
those of the context. /repo/proptest/Property.cpp:32-38, /repo/proptest/PropertyContext.cpp:27-46. -/
def recordTags (c : TCfg σ A K V) (ev : Ev α) (e : Event A) : XEng σ A K V α := fun x =>
  ((record ev e x.st).1,
    ⟨(record ev e x.st).2, (c.tags x.st.trace e).foldl (fun t kv => tag t kv.1 kv.2) x.tags, x.out⟩)

/-- Models `if (onStartupPtr) (*onStartupPtr)();`, /repo/proptest/Property.hpp:218-219. -/
def runStartup (c : TCfg σ A K V) : XEng σ A K V Unit := fun x =>
  match c.cfg.startup with
  | none => (.ok (), x)
  | some h => recordTags c (h x.st.trace) (.startup .run (h x.st.trace)) x

/-- Models `if (onCleanupPtr) (*onCleanupPtr)();`, /repo/proptest/Property.hpp:221-222. -/
def runCleanup (c : TCfg σ A K V) : XEng σ A K V Unit := fun x =>
  match c.cfg.cleanup with
  | none => (.ok (), x)
  | some h => recordTags c (h x.st.trace) (.cleanup .run (h x.st.trace)) x

/-- Calls the property function in a run, /repo/proptest/util/invokeWithArgs.hpp:8-12. -/
def callFunc (c : TCfg σ A K V) (args : Args A) : XEng σ A K V Bool := fun x =>
  recordTags c (c.cfg.func x.st.trace args) (.call .run args (c.cfg.func x.st.trace args)) x

/-- Models `invokeWithGenTuple` and `invokeWithGenHelper`, /repo/proptest/util/invokeWithGenTuple.hpp:9-31. -/
def invokeWithGenTuple (c : TCfg σ A K V) : XEng σ A K V Bool := do
  let ts ← XEng.up (drawRun c.cfg)
  XEng.tryCatch (callFunc c (Tup.get ts))
    (fun e => if e = .assertFailed then XEng.throw .propertyFailed else XEng.throw e)

mutual
/-- Models the outer `while` loop of `shrinkN`, /repo/proptest/Property.hpp:376-403, as `shrinkN` in
Model/Property.lean. Tags recorded while shrinking go to a context whose statistics are never printed. -/
def shrinkN (c : TCfg σ A K V) (vals : Tup A) (N : Fin n) :
    Shr (A N) → XSt σ A K V → Outcome (Tup A) × XSt σ A K V
  | .node _ shrinks => fun x => shrinkNIter c vals N x.st.fails shrinks { x with st := { x.st with fails := [] } }
/-- Models the inner `while` loop of `shrinkN`, /repo/proptest/Property.hpp:382-394, and what follows it, where a
candidate that was found is printed (395-398), as `shrinkNIter` in Model/Property.lean. -/
def shrinkNIter (c : TCfg σ A K V) (vals : Tup A) (N : Fin n) (outer : List String) :
    List (Shr (A N)) → XSt σ A K V → Outcome (Tup A) × XSt σ A K V
  | [] => fun x => (.ok vals, { x with st := { x.st with fails := outer } })
  | next :: rest => fun x =>
    match test c.cfg vals N next x.st with
    | (.ok result, s') =>
      if !result || !s'.fails.isEmpty then
        shrinkN c (Function.update vals N next) N next
          ⟨{ s' with fails := outer }, x.tags,
            x.out ++ [.simpler N (Tup.get (Function.update vals N next))] ++
              (if s'.fails.isEmpty then [] else [.byExpectations s'.fails])⟩
      else
        shrinkNIter c vals N outer rest { x with st := s' }
    | (.throws e, s') => (.throws e, { x with st := { s' with fails := outer } })
    | (.ub, s') => (.ub, { x with st := { s' with fails := outer } })
    | (.diverges, s') => (.diverges, { x with st := { s' with fails := outer } })
end

/-- Models `shrinkEach`, /repo/proptest/Property.hpp:407-412, as in Model/Property.lean. -/
def shrinkEach (c : TCfg σ A K V) : List (Fin n) → Tup A → XEng σ A K V (Tup A)
  | [], vals => pure vals
  | N :: rest, vals => do
    let vals ← XEng.mk (shrinkN c vals N (vals N))
    shrinkEach c rest vals

/-- Models `shrink`, /repo/proptest/Property.hpp:414-428. -/
def shrink (c : TCfg σ A K V) : XEng σ A K V (Report A) := do
  let i ← XEng.up (Eng.reads (fun s => s.i))
  let start ← XEng.up (drawSaved c.cfg)
  XEng.print (.withArgs (Tup.get start))
  let shrunk ← shrinkEach c c.cfg.orderEach start
  XEng.print (.simplest (Tup.get shrunk))
  pure (.falsified (i + 1) start shrunk)

/-- Models the inner `try` block of `runForAll`, /repo/proptest/Property.hpp:216-235. -/
def attempt (c : TCfg σ A K V) : XEng σ A K V (Step A) := do
  XEng.up (Eng.modify (fun s => { s with saved := s.rand }))
  runStartup c
  let result ← invokeWithGenTuple c
  runCleanup c
  let failures ← XEng.up flushFailures
  if !failures.isEmpty then
    XEng.printOf (fun x => .falsifiable (x.st.i + 1) (.expectations failures))
    let r ← shrink c
    pure (.stop r)
  else if !result then
    XEng.printOf (fun x => .falsifiable (x.st.i + 1) .nothing)
    let r ← shrink c
    pure (.stop r)
  else
    pure .pass

/-- Models the `try ... catch (Success) ... catch (Discard)` statement, /repo/proptest/Property.hpp:216-241. -/
def guarded (c : TCfg σ A K V) : XEng σ A K V (Step A) :=
  XEng.tryCatch (attempt c) (fun e =>
    if e = .success then pure .pass
    else if e = .discard then pure .again
    else XEng.throw e)

/-- Models the `do ... while (!pass)` loop, /repo/proptest/Property.hpp:214-242, as in Model/Property.lean. -/
def doWhile (c : TCfg σ A K V) : Nat → XEng σ A K V (Option (Report A))
  | 0 => XEng.up (Eng.lift .diverges)
  | fuel + 1 => do
    let v ← guarded c
    match v with
    | .pass => pure none
    | .again => doWhile c fuel
    | .stop r => pure (some r)

/-- Models the `for` loop, /repo/proptest/Property.hpp:203-243, and what follows it (263-265), as in
Model/Property.lean. -/
def forLoop (c : TCfg σ A K V) (fuel : Nat) : Nat → XEng σ A K V (Report A)
  | 0 => do
    XEng.print (.passed c.cfg.numRuns)
    XEng.printOf (fun x => .statistics (printSummary x.tags))
    pure .passed
  | left + 1 => do
    let elapsed ← XEng.up (Eng.reads (fun s => c.cfg.clock s.trace))
    if c.cfg.maxDurationMs ≠ 0 ∧ c.cfg.maxDurationMs < elapsed then do
      XEng.printOf (fun x => .timedOut x.st.i)
      XEng.printOf (fun x => .statistics (printSummary x.tags))
      XEng.up (Eng.reads (fun s => .timedOut s.i))
    else
      let v ← doWhile c fuel
      match v with
      | some r => pure r
      | none => do
        XEng.up (Eng.modify (fun s => { s with i := s.i + 1 }))
        forLoop c fuel left

/-- Models `runForAll`, /repo/proptest/Property.hpp:193-266: the context starts without failures and tags. The handlers
at lines 244-261 print the text of the exception. -/
def runForAll (c : TCfg σ A K V) (fuel : Nat) : XEng σ A K V (Report A) := fun x =>
  let r := (do
    XEng.print .seed
    XEng.tryCatch (forLoop c fuel c.cfg.numRuns) (fun e =>
      if e.isStd then do
        XEng.printOf (fun x => .falsifiable (x.st.i + 1) (.exception e))
        shrink c
      else XEng.throw e) : XEng σ A K V (Report A)) ⟨{ x.st with fails := [] }, [], x.out⟩
  (r.1, ⟨{ r.2.st with fails := x.st.fails }, x.tags, r.2.out⟩)

/-- Models `forAll`, /repo/proptest/Property.hpp:171-177, as in Model/Property.lean; yields also what was printed. -/
def forAll (c : TCfg σ A K V) (fuel : Nat) (seed : σ) (tr : Trace A) :
    Outcome (Report A) × Trace A × List (Line A K V) :=
  let r := runForAll c fuel ⟨{ rand := seed, saved := seed, i := 0, fails := [], trace := tr }, [], []⟩
  (r.1, r.2.st.trace, r.2.out)

end Output
end Verif
