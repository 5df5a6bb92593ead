import Verif.Model.Concurrency
import Verif.Model.Combinator
/-
The run of a whole concurrent test, with what is generated and which hooks are called:
`go` and the beginning of `invoke` in /repo/proptest/stateful/concurrency_function.hpp and
/repo/proptest/stateful/concurrency_class.hpp.
-/
namespace Verif
namespace Concurrency
open Engine Stateful
variable {σ O L M α : Type} {N : Nat}

/-- A call of a generator that also tells in which state the random engine is left if the call throws (`Gen` does
not); models `gen(rand)`, /repo/proptest/GenBase.hpp:34-35. Only the value is looked at, since nothing is shrunk
(/repo/proptest/stateful/concurrency_function.hpp:337-339). -/
abbrev Draw (σ α : Type) := σ → Outcome α × σ

/-- The calls of a generator with engine state `thrown s` after a call that throws. No particular code of /repo;
compare `Cfg.thrown` in Model/Property.lean. -/
def ofGen (thrown : σ → σ) (g : Gen σ α) : Draw σ α := fun s =>
  match g s with
  | .ok (t, s') => (.ok t.value, s')
  | .throws e => (.throws e, thrown s)
  | .ub => (.ub, thrown s)
  | .diverges => (.diverges, thrown s)

/-- Calls one after the other; no particular code of /repo. -/
def Draw.bind {β : Type} (x : Draw σ α) (f : α → Draw σ β) : Draw σ β := fun s =>
  match x s with
  | (.ok a, s') => f a s'
  | (.throws e, s') => (.throws e, s')
  | (.ub, s') => (.ub, s')
  | (.diverges, s') => (.diverges, s')

/-- Where the initial object comes from. `invoke` works on the object inside of the generated shrinkable,
/repo/proptest/stateful/concurrency_function.hpp:234, 243: for most generators this is a new object (`fresh`), but
`just(value)` for a type that is not trivial gives out the one object it holds each time (`kept`),
/repo/proptest/combinator/just.hpp:31-37; likewise the overloads for `shared_ptr`,
/repo/proptest/combinator/just.hpp:45-62. -/
inductive Source (σ O : Type) where
  | fresh (g : Draw σ O)
  | kept

/-- A concurrent test. `prepare` is the rest of the generation (the model factory and the action lists,
/repo/proptest/stateful/concurrency_class.hpp:228-231, or just the lists,
/repo/proptest/stateful/concurrency_function.hpp:236-241), `body k` the rest of `invoke` in attempt number `k`, which also
tells how the object is left; it and the hooks may do something different each time. `timeUp k` tells whether the time
limit has passed before attempt `k`. Models the members, /repo/proptest/stateful/concurrency_function.hpp:117-126. -/
structure Test (σ O L : Type) where
  initial : Source σ O
  prepare : O → Draw σ L
  body : Nat → O → L → Invoked Unit × O
  startup : Option (Nat → Ev Unit)
  cleanup : Option (Nat → Ev Unit)
  timeUp : Nat → Bool

/-- What happens in a test: calls of hooks, of the generators and of the rest of `invoke` (with the object as it is
left). Records the calls at /repo/proptest/stateful/concurrency_function.hpp:153-156, 234-241. -/
inductive GoEvent (O L : Type) where
  | startup (e : Ev Unit)
  | obj (r : Outcome O)
  | lists (r : Outcome L)
  | body (r : Invoked Unit) (left : O)
  | cleanup (e : Ev Unit)

/-- How an attempt or a loop ends: the outcome, the engine, the object that `just` holds, and the events. The variables
of `go`, /repo/proptest/stateful/concurrency_function.hpp:132-137. -/
structure Ended (σ O L α : Type) where
  res : Invoked α
  rand : σ
  cell : O
  events : List (GoEvent O L)

/-- Puts events in front. No code of /repo. -/
def Ended.after (es : List (GoEvent O L)) (x : Ended σ O L α) : Ended σ O L α := { x with events := es ++ x.events }

/-- An outcome without a value is passed on. No code of /repo. -/
def noValue {β : Type} (r : Outcome α) (rand : σ) (cell : O) (es : List (GoEvent O L)) : Ended σ O L β :=
  ⟨.done ⟨[], match r with
    | .ok _ => .diverges -- not used
    | .throws e => .throws e
    | .ub => .ub
    | .diverges => .diverges⟩, rand, cell, es⟩

/-- Models the cleanup hook, /repo/proptest/stateful/concurrency_function.hpp:155-156 (`invoke` returns true if it
returns, lines 261 and 333). -/
def cleanUp (T : Test σ O L) (k : Nat) (rand : σ) (cell : O) : Ended σ O L Unit :=
  match T.cleanup with
  | none => ⟨.done ⟨[], .ok ()⟩, rand, cell, []⟩
  | some f => ⟨.done (f k), rand, cell, [.cleanup (f k)]⟩

/-- Models `invoke` and the cleanup hook, /repo/proptest/stateful/concurrency_function.hpp:155-156 with 230-334, class
style: /repo/proptest/stateful/concurrency_class.hpp:148-149 with 224-274. -/
def afterStartup (T : Test σ O L) (k : Nat) (rand : σ) (cell : O) : Ended σ O L Unit :=
  let d := match T.initial with
    | .fresh g => g rand
    | .kept => (.ok cell, rand)
  match d.1 with
  | .ok o =>
    let p := T.prepare o d.2
    match p.1 with
    | .ok l =>
      let b := T.body k o l
      let cell' := match T.initial with
        | .fresh _ => cell
        | .kept => b.2
      let es := [.obj d.1, .lists p.1, .body b.1 b.2]
      match b.1 with
      | .done ⟨_, .ok ()⟩ => (cleanUp T k p.2 cell').after es
      | r => ⟨r, p.2, cell', es⟩
    | r => noValue r p.2 cell [.obj d.1, .lists p.1]
  | r => noValue r d.2 cell [.obj d.1]

/-- Models the `try` block, /repo/proptest/stateful/concurrency_function.hpp:151-158; class style:
/repo/proptest/stateful/concurrency_class.hpp:144-150. -/
def tryOnce (T : Test σ O L) (k : Nat) (rand : σ) (cell : O) : Ended σ O L Unit :=
  match T.startup with
  | none => afterStartup T k rand cell
  | some f =>
    match (f k).out with
    | .ok () => (afterStartup T k rand cell).after [.startup (f k)]
    | r => noValue r rand cell [.startup (f k)]

/-- Models the `do ... while (!pass)` loop, /repo/proptest/stateful/concurrency_function.hpp:149-165, as `doWhile` in
Model/Concurrency.lean; class style: /repo/proptest/stateful/concurrency_class.hpp:142-157. -/
def tryUntil (T : Test σ O L) : Nat → Nat → σ → O → Ended σ O L Nat
  | 0, _, rand, cell => ⟨.done ⟨[], .diverges⟩, rand, cell, []⟩
  | fuel + 1, k, rand, cell =>
    let x := tryOnce T k rand cell
    match x.res with
    | .done ev =>
      match ev.out with
      | .ok () => ⟨.done ⟨[], .ok (k + 1)⟩, x.rand, x.cell, x.events⟩
      | .throws e =>
        if e = .success then ⟨.done ⟨[], .ok (k + 1)⟩, x.rand, x.cell, x.events⟩
        else if e = .discard then (tryUntil T fuel (k + 1) x.rand x.cell).after x.events
        else ⟨.done ⟨[], .throws e⟩, x.rand, x.cell, x.events⟩
      | .ub => ⟨.done ⟨[], .ub⟩, x.rand, x.cell, x.events⟩
      | .diverges => ⟨.done ⟨[], .diverges⟩, x.rand, x.cell, x.events⟩
    | .unfinished => ⟨.unfinished, x.rand, x.cell, x.events⟩
    | .terminated => ⟨.terminated, x.rand, x.cell, x.events⟩

/-- Models the `for` loop, /repo/proptest/stateful/concurrency_function.hpp:139-166, as `forLoop` in
Model/Concurrency.lean; class style: /repo/proptest/stateful/concurrency_class.hpp:132-158. -/
def runs (T : Test σ O L) (fuel : Nat) : Nat → Nat → σ → O → Ended σ O L Bool
  | 0, _, rand, cell => ⟨.done ⟨[], .ok true⟩, rand, cell, []⟩
  | left + 1, k, rand, cell =>
    if T.timeUp k then ⟨.done ⟨[], .ok true⟩, rand, cell, []⟩
    else
      let x := tryUntil T fuel k rand cell
      match x.res with
      | .done ev =>
        match ev.out with
        | .ok k' => (runs T fuel left k' x.rand x.cell).after x.events
        | .throws e => ⟨.done ⟨[], .throws e⟩, x.rand, x.cell, x.events⟩
        | .ub => ⟨.done ⟨[], .ub⟩, x.rand, x.cell, x.events⟩
        | .diverges => ⟨.done ⟨[], .diverges⟩, x.rand, x.cell, x.events⟩
      | .unfinished => ⟨.unfinished, x.rand, x.cell, x.events⟩
      | .terminated => ⟨.terminated, x.rand, x.cell, x.events⟩

/-- Models `go`, /repo/proptest/stateful/concurrency_function.hpp:130-185 and
/repo/proptest/stateful/concurrency_class.hpp:122-177, with the engine made from the seed and the object `just` was
called with. -/
def goTest (T : Test σ O L) (fuel numRuns : Nat) (seed : σ) (cell : O) : Ended σ O L Bool :=
  let x := runs T fuel numRuns 0 seed cell
  match x.res with
  | .done ev =>
    match ev.out with
    | .throws e => if e.isStd then { x with res := .done ⟨[], .ok false⟩ } else x
    | _ => x
  | _ => x

/-! ### The two styles -/

/-- What is generated for one run: the front list and the rear lists,
/repo/proptest/stateful/concurrency_function.hpp:237-241. -/
structure Lists (N : Nat) (O M : Type) where
  front : List (Act O M)
  rears : Fin N → List (Act O M)

/-- Models the loop that generates the rear lists, /repo/proptest/stateful/concurrency_function.hpp:238-241. -/
def drawRears (g : Draw σ α) : Nat → Draw σ (List α)
  | 0 => fun s => (.ok [], s)
  | n + 1 => g.bind fun x => (drawRears g n).bind fun xs s => (.ok (x :: xs), s)

/-- Models the generation of the lists, /repo/proptest/stateful/concurrency_function.hpp:236-241. -/
def drawLists (g : Draw σ (List (Act O M))) : Draw σ (Lists N O M) :=
  g.bind fun front => (drawRears g N).bind fun rears s => (.ok ⟨front, fun t => rears.getD t []⟩, s)

/-- As `invoke` in Model/Concurrency.lean, which models /repo/proptest/stateful/concurrency_function.hpp:243-334, and
also how the object is left; `broken` is the object if an exception or undefined behaviour leaves it in between. -/
def invokeLeft (factory : O → Ev (O × M)) (postCheck : Option (O → M → Ev (O × M))) (sched : List (Fin N)) (broken : O)
    (obj : O) (ls : Lists N O M) : Invoked Unit × O :=
  (invoke factory postCheck obj ls.front ls.rears sched,
    match (andThen (factory obj) (runActions ls.front)).out with
    | .ok (obj, model) =>
      if N ≤ 1 then
        match postCheck with
        | none => obj
        | some check => match (check obj model).out with
          | .ok r => r.1
          | _ => broken
      else
        match run sched (rearInit ls.front.length ls.rears obj model) with
        | .running s =>
          match postCheck with
          | none => s.obj
          | some check => match (check s.obj model).out with
            | .ok r => r.1
            | _ => broken
        | _ => broken
    | _ => broken)

/-- A concurrent test of the function style with `N` threads; `sched k` is how the threads of attempt `k` are
scheduled. Models /repo/proptest/stateful/concurrency_function.hpp:130-185 and 230-334. -/
def functionTest (initial : Source σ O) (actions : Draw σ (List (Act O M))) (factory : O → Ev (O × M))
    (postCheck : Option (O → M → Ev (O × M))) (startup cleanup : Option (Nat → Ev Unit)) (timeUp : Nat → Bool)
    (sched : Nat → List (Fin N)) (broken : O) : Test σ O (Lists N O M) where
  initial := initial
  prepare := fun _ => drawLists actions
  body := fun k => invokeLeft factory postCheck (sched k) broken
  startup := startup
  cleanup := cleanup
  timeUp := timeUp

/-- Models the generation in the class style, /repo/proptest/stateful/concurrency_class.hpp:228-234: the model factory
is called before the lists are drawn. -/
def classPrepare (factory : O → Ev (O × M)) (actions : Draw σ (List (ClassAct O M))) (obj : O) :
    Draw σ ((O × M) × List (List (ClassAct O M))) := fun s =>
  match (factory obj).out with
  | .ok om => (drawRears actions 3).bind (fun ls s => (.ok (om, ls), s)) s
  | .throws e => (.throws e, s)
  | .ub => (.ub, s)
  | .diverges => (.diverges, s)

/-- A concurrent test of the class style. Models /repo/proptest/stateful/concurrency_class.hpp:122-177 and 224-274;
`body` continues after the lists have been generated (`classInvoke` in Model/Concurrency.lean with a factory that has
been called), `left` is how it leaves the object. -/
def classTest (initial : Source σ O) (actions : Draw σ (List (ClassAct O M))) (factory : O → Ev (O × M))
    (postCheck : Option (O → M → Ev (O × M))) (startup cleanup : Option (Nat → Ev Unit)) (timeUp : Nat → Bool)
    (sched : Nat → List (Fin 2)) (left : Nat → O → (O × M) × List (List (ClassAct O M)) → O) :
    Test σ O ((O × M) × List (List (ClassAct O M))) where
  initial := initial
  prepare := classPrepare factory actions
  body := fun k obj p =>
    (classInvoke (fun _ => ⟨[], .ok p.1⟩) postCheck obj (p.2.getD 0 []) (fun t => p.2.getD (t + 1) []) (sched k),
      left k obj p)
  startup := startup
  cleanup := cleanup
  timeUp := timeUp

end Concurrency
end Verif
