import Verif.Model.PairTuple
/-
The property engine: /repo/proptest/Property.hpp, /repo/proptest/util/invokeWithGenTuple.hpp,
/repo/proptest/util/invokeWithArgs.hpp and the part of /repo/proptest/PropertyContext.cpp it uses.
-/
namespace Verif
namespace Engine
open PairTuple
variable {n : Nat} {A : Fin n → Type} {σ : Type}

/-- The argument tuple a property function is called with; models `ArgTuple`,
/repo/proptest/Property.hpp:82. -/
abbrev Args (A : Fin n → Type) := (i : Fin n) → A i

/-- The `get()` of every component. Models `transformHeteroTuple<ShrinkableGet>`,
/repo/proptest/util/tuple.hpp:31-50 with /repo/proptest/generator/util.hpp:35-39. -/
def Tup.get (ts : Tup A) : Args A := fun i => (ts i).value

/-- What the call of a user supplied function did: the expectations that failed during the call, i.e. the
`Failure`s it added to the innermost live `PropertyContext` (/repo/proptest/PropertyContext.cpp:54-58), and
how it ended. -/
structure Ev (α : Type) where
  fails : List String
  out : Outcome α
deriving DecidableEq

/-- Which part of the engine makes a call. Used to label events, no code of /repo. -/
inductive Phase where
  | run
  | shrink
  | single
deriving DecidableEq

/-- Observable events: calls of the hooks and of the property function, and exceptions of generators.
Records the calls made at /repo/proptest/Property.hpp:217-222, 274-278 and 345-349. -/
inductive Event (A : Fin n → Type) where
  | startup (ph : Phase) (e : Ev Unit)
  | cleanup (ph : Phase) (e : Ev Unit)
  | call (ph : Phase) (args : Args A) (e : Ev Bool)
  | genThrew (ph : Phase) (e : Exn)

/-- The events so far, newest first. No code of /repo. -/
abbrev Trace (A : Fin n → Type) := List (Event A)

/-- A `Property` object with its settings, /repo/proptest/Property.hpp:75-152 and
/repo/proptest/PropertyBase.hpp:70-107. User functions may have side effects: what a call does may depend on
everything that happened before (the trace). The fields `orderRun`, `orderShrink`, `orderEach` are the
evaluation orders, unspecified by C++, of the function arguments at
/repo/proptest/util/invokeWithGenTuple.hpp:14, /repo/proptest/util/tuple.hpp:66-67 and
/repo/proptest/Property.hpp:410-411. `thrown` is the engine state left behind by a draw that throws. `clock` is
the elapsed time in milliseconds. Generators have no state of their own here; see Model/PropertyState.lean. -/
structure Cfg (σ : Type) (A : Fin n → Type) where
  gens : (i : Fin n) → Gen σ (A i)
  orderRun : List (Fin n)
  orderShrink : List (Fin n)
  orderEach : List (Fin n)
  thrown : σ → σ
  func : Trace A → Args A → Ev Bool
  startup : Option (Trace A → Ev Unit)
  cleanup : Option (Trace A → Ev Unit)
  numRuns : Nat
  maxDurationMs : Nat
  clock : Trace A → Nat

/-- The variables of `runForAll` (/repo/proptest/Property.hpp:195-201): `rand`, `savedRand`, the loop counter
`i`, the failures of the innermost live `PropertyContext`, and the trace. -/
structure St (σ : Type) (A : Fin n → Type) where
  rand : σ
  saved : σ
  i : Nat
  fails : List String
  trace : Trace A

/-- A statement of the engine. Unlike in `Gen`, the state reached so far is kept when an exception is thrown.
Models C++ statements; no particular code of /repo. -/
def Eng (σ : Type) (A : Fin n → Type) (α : Type) := St σ A → Outcome α × St σ A

namespace Eng
variable {α β : Type}

/-- Sequencing of statements. No particular code of /repo. -/
def bind (m : Eng σ A α) (f : α → Eng σ A β) : Eng σ A β := fun s =>
  match m s with
  | (.ok a, s') => f a s'
  | (.throws e, s') => (.throws e, s')
  | (.ub, s') => (.ub, s')
  | (.diverges, s') => (.diverges, s')

/-- Notation for sequencing. No particular code of /repo. -/
instance : Monad (Eng σ A) where
  pure a := fun s => (.ok a, s)
  bind := bind

/-- A statement given by its effect. No particular code of /repo. -/
def mk (f : St σ A → Outcome α × St σ A) : Eng σ A α := f

/-- Reads a variable. No particular code of /repo. -/
def reads (f : St σ A → α) : Eng σ A α := fun s => (.ok (f s), s)

/-- Changes variables. No particular code of /repo. -/
def modify (f : St σ A → St σ A) : Eng σ A Unit := fun s => (.ok (), f s)

/-- An expression that may be undefined or throw, without effect on the variables. No particular code of
/repo. -/
def lift (o : Outcome α) : Eng σ A α := fun s => (o, s)

/-- `throw e`. No particular code of /repo. -/
def throw (e : Exn) : Eng σ A α := fun s => (.throws e, s)

/-- `try { m } catch ...`: the handler sees every exception and may rethrow it. No particular code of /repo. -/
def tryCatch (m : Eng σ A α) (h : Exn → Eng σ A α) : Eng σ A α := fun s =>
  match m s with
  | (.throws e, s') => h e s'
  | r => r

/-- `try { m } catch (const exception& e) { h }`: objects that are no `std::exception` pass through.
No particular code of /repo. -/
def catchStd (m : Eng σ A α) (h : Eng σ A α) : Eng σ A α :=
  tryCatch m (fun e => if e.isStd then h else throw e)

/-- A block that starts with the declaration of a `PropertyContext`: failures are recorded in it until the
block is left, normally or by an exception, and the enclosing context is in force again afterwards. Models the
constructor and destructor, /repo/proptest/PropertyContext.cpp:17-25; that contexts nest this way is C58. -/
def withContext (m : Eng σ A α) : Eng σ A α := fun s =>
  let (o, s') := m { s with fails := [] }
  (o, { s' with fails := s.fails })

end Eng

/-- Calls a user function: its failed expectations go to the innermost context
(/repo/proptest/PropertyContext.cpp:54-58), the call is recorded in the trace. -/
def record {α : Type} (ev : Ev α) (x : Event A) : Eng σ A α := fun s =>
  (ev.out, { s with fails := s.fails ++ ev.fails, trace := x :: s.trace })

/-- Models `if (onStartupPtr) (*onStartupPtr)();`, /repo/proptest/Property.hpp:218-219, 274-275, 345-346. -/
def runStartup (c : Cfg σ A) (ph : Phase) : Eng σ A Unit := fun s =>
  match c.startup with
  | none => (.ok (), s)
  | some h => record (h s.trace) (.startup ph (h s.trace)) s

/-- Models `if (onCleanupPtr) (*onCleanupPtr)();`, /repo/proptest/Property.hpp:221-222, 277-278, 348-349. -/
def runCleanup (c : Cfg σ A) (ph : Phase) : Eng σ A Unit := fun s =>
  match c.cleanup with
  | none => (.ok (), s)
  | some h => record (h s.trace) (.cleanup ph (h s.trace)) s

/-- Calls the property function, `f(get<index>(...)...)`. Models `invokeHelper`,
/repo/proptest/util/invokeWithArgs.hpp:8-12. -/
def callFunc (c : Cfg σ A) (ph : Phase) (args : Args A) : Eng σ A Bool := fun s =>
  record (c.func s.trace args) (.call ph args (c.func s.trace args)) s

/-- Models `throw PropertyFailed(e)` in `catch (const AssertFailed& e)`,
/repo/proptest/util/invokeWithGenTuple.hpp:17-22 and /repo/proptest/Property.hpp:280-282. -/
def assertToProperty {α : Type} (m : Eng σ A α) : Eng σ A α :=
  Eng.tryCatch m (fun e => if e = .assertFailed then Eng.throw .propertyFailed else Eng.throw e)

/-- Draws the tuple of arguments with `rand`. Models line 14 of
/repo/proptest/util/invokeWithGenTuple.hpp:10-14. -/
def drawRun (c : Cfg σ A) : Eng σ A (Tup A) := fun s =>
  match Gen.drawTuple c.gens c.orderRun s.rand with
  | .ok (ts, r) => (.ok ts, { s with rand := r })
  | .throws e => (.throws e, { s with rand := c.thrown s.rand, trace := .genThrew .run e :: s.trace })
  | .ub => (.ub, s)
  | .diverges => (.diverges, s)

/-- Models `invokeWithGenTuple` and `invokeWithGenHelper`,
/repo/proptest/util/invokeWithGenTuple.hpp:9-31. -/
def invokeWithGenTuple (c : Cfg σ A) : Eng σ A Bool := do
  let ts ← drawRun c
  assertToProperty (callFunc c .run (Tup.get ts))

/-- Regenerates the tuple of arguments with `savedRand`. Models
`transformHeteroTupleWithArg<Generate>(curGenTup, savedRand)`, /repo/proptest/Property.hpp:417-418. -/
def drawSaved (c : Cfg σ A) : Eng σ A (Tup A) := fun s =>
  match Gen.drawTuple c.gens c.orderShrink s.saved with
  | .ok (ts, r) => (.ok ts, { s with saved := r })
  | .throws e => (.throws e, { s with saved := c.thrown s.saved, trace := .genThrew .shrink e :: s.trace })
  | .ub => (.ub, s)
  | .diverges => (.diverges, s)

/-- Models `Property::test` for the invoker `invokeWithArgTupleWithReplace<N>`,
/repo/proptest/Property.hpp:338-358 and /repo/proptest/util/invokeWithArgs.hpp:22-51: the other arguments are
taken from `vals`, argument `N` is the candidate. -/
def test (c : Cfg σ A) (vals : Tup A) (N : Fin n) (next : Shr (A N)) : Eng σ A Bool :=
  Eng.catchStd (do
    runStartup c .shrink
    let result ← callFunc c .shrink (Function.update (Tup.get vals) N next.value)
    runCleanup c .shrink
    pure result) (pure false)

mutual
/-- Models the outer `while` loop of `shrinkN`, /repo/proptest/Property.hpp:376-403, when the current
shrinkable of argument `N` is the given one: opens a `PropertyContext` and tries the shrinks in order. Terminates
because shrink trees are finite. -/
def shrinkN (c : Cfg σ A) (vals : Tup A) (N : Fin n) :
    Shr (A N) → St σ A → Outcome (Tup A) × St σ A
  | .node _ shrinks => fun s => shrinkNIter c vals N s.fails shrinks { s with fails := [] }
/-- Models the inner `while` loop of `shrinkN`, /repo/proptest/Property.hpp:382-394, and what follows it up to
the end of the outer loop's body, where the `PropertyContext` is destroyed (`outer`: the failures of the
enclosing context). -/
def shrinkNIter (c : Cfg σ A) (vals : Tup A) (N : Fin n) (outer : List String) :
    List (Shr (A N)) → St σ A → Outcome (Tup A) × St σ A
  | [] => fun s => (.ok vals, { s with fails := outer })
  | next :: rest => fun s =>
    match test c vals N next s with
    | (.ok result, s') =>
      if !result || !s'.fails.isEmpty then
        shrinkN c (Function.update vals N next) N next { s' with fails := outer }
      else
        shrinkNIter c vals N outer rest s'
    | (.throws e, s') => (.throws e, { s' with fails := outer })
    | (.ub, s') => (.ub, { s' with fails := outer })
    | (.diverges, s') => (.diverges, { s' with fails := outer })
end

/-- Models `shrinkEach`, /repo/proptest/Property.hpp:407-412: `shrinkN` for every argument, in the given
(unspecified) order, all working on the same tuple `valueTup`. The shrinks tuple holds `shrinks()` of the
generated components (lines 423-424); as `shrinkN<N>` is the only one to change component `N`, these are the
shrinks of the current component when `shrinkN<N>` starts. -/
def shrinkEach (c : Cfg σ A) : List (Fin n) → Tup A → Eng σ A (Tup A)
  | [], vals => pure vals
  | N :: rest, vals => do
    let vals ← Eng.mk (shrinkN c vals N (vals N))
    shrinkEach c rest vals

/-- What `runForAll` prints and returns: "OK, passed", "Timed out" (both `true`), or "Falsifiable, after `after`
tests" with the arguments printed as "with args" and as "simplest args found" (`false`).
/repo/proptest/Property.hpp:204-212, 225-234, 244-265 and 420-427. -/
inductive Report (A : Fin n → Type) where
  | passed
  | timedOut (tests : Nat)
  | falsified (after : Nat) (start shrunk : Tup A)

/-- The `bool` returned by `runForAll`, /repo/proptest/Property.hpp:210, 229, 233, 249, 255, 260, 265. -/
def Report.verdict : Report A → Bool
  | .passed => true
  | .timedOut _ => true
  | .falsified .. => false

/-- Models `shrink`, /repo/proptest/Property.hpp:414-428, with the message printed before it. -/
def shrink (c : Cfg σ A) : Eng σ A (Report A) := do
  let i ← Eng.reads (fun s => s.i)
  let start ← drawSaved c
  let shrunk ← shrinkEach c c.orderEach start
  pure (.falsified (i + 1) start shrunk)

/-- Models `flushFailures`, /repo/proptest/PropertyContext.cpp:69-89; the text is empty iff there was no failure,
as the text of a failure contains at least " (:)". -/
def flushFailures : Eng σ A (List String) := fun s => (.ok s.fails, { s with fails := [] })

/-- How one execution of the body of the `do ... while` loop ends. /repo/proptest/Property.hpp:214-242. -/
inductive Step (A : Fin n → Type) where
  | pass
  | again
  | stop (r : Report A)

/-- Models the inner `try` block of `runForAll`, /repo/proptest/Property.hpp:216-235. -/
def attempt (c : Cfg σ A) : Eng σ A (Step A) := do
  Eng.modify (fun s => { s with saved := s.rand })
  runStartup c .run
  let result ← invokeWithGenTuple c
  runCleanup c .run
  let failures ← flushFailures
  if !failures.isEmpty then
    let r ← shrink c
    pure (.stop r)
  else if !result then
    let r ← shrink c
    pure (.stop r)
  else
    pure .pass

/-- Models the `try ... catch (Success) ... catch (Discard)` statement, /repo/proptest/Property.hpp:216-241. -/
def guarded (c : Cfg σ A) : Eng σ A (Step A) :=
  Eng.tryCatch (attempt c) (fun e =>
    if e = .success then pure .pass
    else if e = .discard then pure .again
    else Eng.throw e)

/-- Models the `do ... while (!pass)` loop, /repo/proptest/Property.hpp:214-242. Nothing bounds the number of
discards; the model stops with `diverges` after `fuel` of them. -/
def doWhile (c : Cfg σ A) : Nat → Eng σ A (Option (Report A))
  | 0 => Eng.lift .diverges
  | fuel + 1 => do
    let v ← guarded c
    match v with
    | .pass => pure none
    | .again => doWhile c fuel
    | .stop r => pure (some r)

/-- Models the `for` loop, /repo/proptest/Property.hpp:203-243, and what follows it (263-265); the second
argument is `numRuns - i`. -/
def forLoop (c : Cfg σ A) (fuel : Nat) : Nat → Eng σ A (Report A)
  | 0 => pure .passed
  | left + 1 => do
    let elapsed ← Eng.reads (fun s => c.clock s.trace)
    if c.maxDurationMs ≠ 0 ∧ c.maxDurationMs < elapsed then
      Eng.reads (fun s => .timedOut s.i)
    else
      let v ← doWhile c fuel
      match v with
      | some r => pure r
      | none => do
        Eng.modify (fun s => { s with i := s.i + 1 })
        forLoop c fuel left

/-- Models `runForAll`, /repo/proptest/Property.hpp:193-266. The three handlers at lines 244-261 differ only in
the message they print. -/
def runForAll (c : Cfg σ A) (fuel : Nat) : Eng σ A (Report A) :=
  Eng.withContext (Eng.catchStd (forLoop c fuel c.numRuns) (shrink c))

/-- Models `forAll`, /repo/proptest/Property.hpp:171-177, after the generators have been combined: both engines
start in the state given by the seed (lines 195-196); `tr` is the history before the call. -/
def forAll (c : Cfg σ A) (fuel : Nat) (seed : σ) (tr : Trace A) : Outcome (Report A) × Trace A :=
  let r := runForAll c fuel { rand := seed, saved := seed, i := 0, fails := [], trace := tr }
  (r.1, r.2.trace)

/-- Models `example`, /repo/proptest/Property.hpp:268-300. -/
def «example» (c : Cfg σ A) (args : Args A) : Eng σ A Bool :=
  Eng.withContext
    (Eng.catchStd
      (Eng.tryCatch
        (assertToProperty do
          runStartup c .single
          let result ← callFunc c .single args
          runCleanup c .single
          pure result)
        (fun e =>
          if e = .success then pure true
          else if e = .discard then pure false
          else Eng.throw e))
      (pure false))

/-- Models `Matrix::pickN`/`pickEach`, /repo/proptest/Property.hpp:28-40: `vec[index]`, undefined when out of
range. -/
def pickEach (lists : (i : Fin n) → List (A i)) (idx : Fin n → Nat) : Outcome (Args A) :=
  if h : ∀ i, idx i < (lists i).length then .ok (fun i => (lists i)[idx i]'(h i)) else .ub

/-- Models `Matrix::progressN<N>`, /repo/proptest/Property.hpp:42-57. Indices are `int` in the code; the model
has no bound on them. -/
def progressN (lists : (i : Fin n) → List (A i)) (N : Fin n) (st : Bool × (Fin n → Nat)) :
    Bool × (Fin n → Nat) :=
  if st.1 then st
  else if (st.2 N : Int) < ((lists N).length : Int) - 1 then
    (true, Function.update st.2 N (st.2 N + 1))
  else (false, Function.update st.2 N 0)

/-- Models `Matrix::progress`, /repo/proptest/Property.hpp:59-67: `progressN` from the last argument to the
first. -/
def progress (lists : (i : Fin n) → List (A i)) (idx : Fin n → Nat) : Bool × (Fin n → Nat) :=
  (List.finRange n).reverse.foldl (fun st N => progressN lists N st) (false, idx)

/-- Models the `do ... while` loop of `matrix`, /repo/proptest/Property.hpp:328-333; `fuel` bounds the number of
iterations of the model. -/
def matrixLoop (c : Cfg σ A) (lists : (i : Fin n) → List (A i)) : Nat → (Fin n → Nat) → Eng σ A Unit
  | 0, _ => Eng.lift .diverges
  | fuel + 1, idx => do
    let args ← Eng.lift (pickEach lists idx)
    let _ ← «example» c args
    let (more, idx') := progress lists idx
    if more then matrixLoop c lists fuel idx' else pure ()

/-- Models `matrix`, /repo/proptest/Property.hpp:320-336. -/
def matrix (c : Cfg σ A) (lists : (i : Fin n) → List (A i)) (fuel : Nat) : Eng σ A Bool := do
  matrixLoop c lists fuel (fun _ => 0)
  pure true

end Engine
end Verif
