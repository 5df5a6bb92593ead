import Verif.Model.Property
/-
Shrinking when the functions given to generators throw: /repo/proptest/Property.hpp, /repo/proptest/Stream.hpp and
/repo/proptest/Shrinkable.cpp. The model of Model/Property.lean takes shrink trees as data; here the evaluation of a
stream of shrinks may end with an exception.
-/
namespace Verif
namespace Throwing
open Engine PairTuple
variable {n : Nat} {A : Fin n → Type} {σ α β : Type}

/-- A shrinkable whose streams are evaluated on demand: each node carries its value and how the evaluation of its
stream of shrinks ends once the listed shrinks were produced, `ok` when the stream simply ends. Models
`Shrinkable` with `shrinksPtr`, /repo/proptest/Shrinkable.hpp:153-154, and `Stream` with `tailGen`,
/repo/proptest/Stream.hpp:95-96. -/
abbrev Lazy (α : Type) := Shr (α × Outcome Unit)

/-- The shrinkables drawn for all arguments. Models `generatedValueTup`, /repo/proptest/Property.hpp:417-418. -/
abbrev LTup (A : Fin n → Type) := (i : Fin n) → Lazy (A i)

/-- The shrinkable without the exceptions: the shrinks that can be produced. Not part of /repo. -/
def strip (t : Lazy α) : Shr α := t.map Prod.fst

/-- `strip` for all arguments. Not part of /repo. -/
def stripT (ts : LTup A) : Tup A := fun i => strip (ts i)

/-- What evaluating a stream up to its next element does, when `rest` are the elements still to come: `done` if there
is none. Models the evaluation of `tailGen` in `Stream::tail`, /repo/proptest/Stream.cpp:27-33, as called by
`Iterator::next`, /repo/proptest/Stream.hpp:120-128. -/
def ahead (done : Outcome Unit) (rest : List (Lazy α)) : Outcome Unit :=
  match rest with
  | [] => done
  | _ :: _ => .ok ()

/-- What `shrinks()` does: it evaluates the stream up to the first element. Models `ShrinkableAny::shrinks`,
/repo/proptest/Shrinkable.cpp:320, and `GetShrinks`, /repo/proptest/generator/util.hpp:16-25. -/
def opens (t : Lazy α) : Outcome Unit := ahead t.value.2 t.shrinks

mutual
/-- `map` with a function that may throw. Models `ShrinkableAny::map`, /repo/proptest/Shrinkable.cpp:61-85: the
function is applied to the value at once, to the shrinks when their stream is evaluated. -/
def mapE (f : α → Outcome β) : Lazy α → Outcome (Lazy β)
  | .node v ss =>
    match f v.1 with
    | .ok b => .ok (.node (b, (mapEList f v.2 ss).2) (mapEList f v.2 ss).1)
    | .throws e => .throws e
    | .ub => .ub
    | .diverges => .diverges
/-- Models `Stream::transform`, /repo/proptest/Stream.hpp:54-65: the function is applied to the head when the stream
is made, to the others when `tail()` is called; an exception ends the evaluation. -/
def mapEList (f : α → Outcome β) (done : Outcome Unit) : List (Lazy α) → List (Lazy β) × Outcome Unit
  | [] => ([], done)
  | t :: ts =>
    match mapE f t with
    | .ok u => (u :: (mapEList f done ts).1, (mapEList f done ts).2)
    | .throws e => ([], .throws e)
    | .ub => ([], .ub)
    | .diverges => ([], .diverges)
end

/-- A generator mapped with a function that may throw. Models `TransformFunctor2::operator()`,
/repo/proptest/combinator/transform.hpp:38-41. -/
def mapGen (f : α → Outcome β) (g : Gen σ (α × Outcome Unit)) : Gen σ (β × Outcome Unit) := fun s =>
  match g s with
  | .ok (t, s') =>
    match mapE f t with
    | .ok u => .ok (u, s')
    | .throws e => .throws e
    | .ub => .ub
    | .diverges => .diverges
  | .throws e => .throws e
  | .ub => .ub
  | .diverges => .diverges

/-- A generator none of whose streams throws. Not part of /repo. -/
def calmGen (g : Gen σ α) : Gen σ (α × Outcome Unit) := fun s =>
  match g s with
  | .ok (t, s') => .ok (t.map (fun v => (v, .ok ())), s')
  | .throws e => .throws e
  | .ub => .ub
  | .diverges => .diverges

/-- A generator as the run phase sees it: only values matter there. Not part of /repo. -/
def stripGen (g : Gen σ (α × Outcome Unit)) : Gen σ α := fun s =>
  match g s with
  | .ok (t, s') => .ok (strip t, s')
  | .throws e => .throws e
  | .ub => .ub
  | .diverges => .diverges

/-- A `Property` object whose generators may be mapped with functions that throw, /repo/proptest/Property.hpp:75-152.
`set` holds everything else, its generators are not used. `orderGet` is the order, unspecified by C++, in which
`shrinks()` of the arguments are evaluated, /repo/proptest/util/tuple.hpp:38. -/
structure LCfg (σ : Type) (A : Fin n → Type) where
  set : Cfg σ A
  gens : (i : Fin n) → Gen σ (A i × Outcome Unit)
  orderGet : List (Fin n)

/-- The property with the exceptions left out. Not part of /repo. -/
def LCfg.cfg (c : LCfg σ A) : Cfg σ A := { c.set with gens := fun i => stripGen (c.gens i) }

/-- Regenerates the tuple of arguments with `savedRand`. Models /repo/proptest/Property.hpp:417-418. -/
def drawSaved (c : LCfg σ A) : Eng σ A (LTup A) := fun s =>
  match Gen.drawTuple c.gens c.set.orderShrink s.saved with
  | .ok (ts, r) => (.ok ts, { s with saved := r })
  | .throws e => (.throws e, { s with saved := c.set.thrown s.saved, trace := .genThrew .shrink e :: s.trace })
  | .ub => (.ub, s)
  | .diverges => (.diverges, s)

/-- Evaluates `shrinks()` of the arguments in the given order. Models `transformHeteroTuple<GetShrinks>`,
/repo/proptest/Property.hpp:423-424 with /repo/proptest/util/tuple.hpp:35-47. -/
def getShrinks (ts : LTup A) : List (Fin n) → Outcome Unit
  | [] => .ok ()
  | i :: is => do
    opens (ts i)
    getShrinks ts is

mutual
/-- Models the outer `while` loop of `shrinkN`, /repo/proptest/Property.hpp:376-403, as `Engine.shrinkN` does, for a
shrinkable whose `shrinks()` was evaluated already. -/
def shrinkN (c : LCfg σ A) (vals : LTup A) (N : Fin n) :
    Lazy (A N) → St σ A → Outcome (LTup A) × St σ A
  | .node v shrinks => fun s => shrinkNIter c vals N s.fails v.2 shrinks { s with fails := [] }
/-- Models the inner `while` loop of `shrinkN`, /repo/proptest/Property.hpp:382-394, as `Engine.shrinkNIter` does:
`iter.next()` evaluates the stream one element further before it returns (/repo/proptest/Stream.hpp:120-128), and
`next.shrinks()` (line 389) is evaluated when the candidate is taken. -/
def shrinkNIter (c : LCfg σ A) (vals : LTup A) (N : Fin n) (outer : List String) (done : Outcome Unit) :
    List (Lazy (A N)) → St σ A → Outcome (LTup A) × St σ A
  | [] => fun s => (.ok vals, { s with fails := outer })
  | next :: rest => fun s =>
    match ahead done rest with
    | .throws e => (.throws e, { s with fails := outer })
    | .ub => (.ub, { s with fails := outer })
    | .diverges => (.diverges, { s with fails := outer })
    | .ok () =>
      match test c.cfg (stripT vals) N (strip next) s with
      | (.ok result, s') =>
        if !result || !s'.fails.isEmpty then
          match opens next with
          | .ok () => shrinkN c (Function.update vals N next) N next { s' with fails := outer }
          | .throws e => (.throws e, { s' with fails := outer })
          | .ub => (.ub, { s' with fails := outer })
          | .diverges => (.diverges, { s' with fails := outer })
        else
          shrinkNIter c vals N outer done rest s'
      | (.throws e, s') => (.throws e, { s' with fails := outer })
      | (.ub, s') => (.ub, { s' with fails := outer })
      | (.diverges, s') => (.diverges, { s' with fails := outer })
end

/-- Models `shrinkEach`, /repo/proptest/Property.hpp:407-412, as `Engine.shrinkEach` does. -/
def shrinkEach (c : LCfg σ A) : List (Fin n) → LTup A → Eng σ A (LTup A)
  | [], vals => pure vals
  | N :: rest, vals => do
    let vals ← Eng.mk (shrinkN c vals N (vals N))
    shrinkEach c rest vals

/-- Models `shrink`, /repo/proptest/Property.hpp:414-428, with the message printed before it. The messages printed
before an exception leaves `shrink` are not modelled. -/
def shrink (c : LCfg σ A) : Eng σ A (Report A) := do
  let i ← Eng.reads (fun s => s.i)
  let start ← drawSaved c
  Eng.lift (getShrinks start c.orderGet)
  let shrunk ← shrinkEach c c.set.orderEach start
  pure (.falsified (i + 1) (stripT start) (stripT shrunk))

/-- Models the inner `try` block of `runForAll`, /repo/proptest/Property.hpp:216-235. -/
def attempt (c : LCfg σ A) : Eng σ A (Step A) := do
  Eng.modify (fun s => { s with saved := s.rand })
  runStartup c.cfg .run
  let result ← invokeWithGenTuple c.cfg
  runCleanup c.cfg .run
  let failures ← flushFailures
  if !failures.isEmpty then
    let r ← shrink c
    pure (.stop r)
  else if !result then
    let r ← shrink c
    pure (.stop r)
  else
    pure .pass

/-- Models the `try ... catch (Success) ... catch (Discard)` statement, /repo/proptest/Property.hpp:216-241. -/
def guarded (c : LCfg σ A) : Eng σ A (Step A) :=
  Eng.tryCatch (attempt c) (fun e =>
    if e = .success then pure .pass
    else if e = .discard then pure .again
    else Eng.throw e)

/-- Models the `do ... while (!pass)` loop, /repo/proptest/Property.hpp:214-242, as `Engine.doWhile` does. -/
def doWhile (c : LCfg σ A) : Nat → Eng σ A (Option (Report A))
  | 0 => Eng.lift .diverges
  | fuel + 1 => do
    let v ← guarded c
    match v with
    | .pass => pure none
    | .again => doWhile c fuel
    | .stop r => pure (some r)

/-- Models the `for` loop, /repo/proptest/Property.hpp:203-243, and what follows it (263-265), as `Engine.forLoop`
does. -/
def forLoop (c : LCfg σ A) (fuel : Nat) : Nat → Eng σ A (Report A)
  | 0 => pure .passed
  | left + 1 => do
    let elapsed ← Eng.reads (fun s => c.set.clock s.trace)
    if c.set.maxDurationMs ≠ 0 ∧ c.set.maxDurationMs < elapsed then
      Eng.reads (fun s => .timedOut s.i)
    else
      let v ← doWhile c fuel
      match v with
      | some r => pure r
      | none => do
        Eng.modify (fun s => { s with i := s.i + 1 })
        forLoop c fuel left

/-- Models `runForAll`, /repo/proptest/Property.hpp:193-266: the handlers at lines 244-261 call `shrink` again, also
when the exception left a first call of `shrink`, which has advanced `savedRand` already. -/
def runForAll (c : LCfg σ A) (fuel : Nat) : Eng σ A (Report A) :=
  Eng.withContext (Eng.catchStd (forLoop c fuel c.set.numRuns) (shrink c))

/-- Models `forAll`, /repo/proptest/Property.hpp:171-177. -/
def forAll (c : LCfg σ A) (fuel : Nat) (seed : σ) (tr : Trace A) : Outcome (Report A) × Trace A :=
  let r := runForAll c fuel { rand := seed, saved := seed, i := 0, fails := [], trace := tr }
  (r.1, r.2.trace)

end Throwing
end Verif
