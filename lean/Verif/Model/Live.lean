import Verif.Model.Combinator
/-
Shrinkables whose shrinks draw from the engine when they are looked at, to any depth: dependent generators
(/repo/proptest/combinator/dependency.hpp, chain.hpp, derive.hpp) applied to generators that are dependent themselves.
Model/Combinator.lean takes the states of the engine at which shrinks are evaluated as an argument; here they follow from
the code that evaluates them.
-/
namespace Verif
namespace Live
open Comb
variable {σ α β γ : Type}

/-- The result of evaluating a stream of shrinks up to its first element, with the state of the engine afterwards: `stop` if
the evaluation does not return, `nil` for the empty stream, `cons` for a stream with a first element, given by its value
and its own shrinks, and a tail; shrinks and tail are evaluated whenever somebody asks for them, with the state the engine
has then. Models `Stream` with `headPtr` and `tailGen`, /repo/proptest/Stream.hpp:95-96, together with `Shrinkable` with
`ptr` and `shrinksPtr`, /repo/proptest/Shrinkable.hpp:153-154. Simplified: shrinks end, however they are looked at, and
depend on nothing but the engine. -/
inductive Run (σ α : Type) where
  | stop (o : Outcome Empty)
  | nil (s : σ)
  | cons (s : σ) (v : α) (shrinks : σ → Run σ α) (tail : σ → Run σ α)

/-- A shrinkable. Models `Shrinkable`, /repo/proptest/Shrinkable.hpp:153-154. -/
structure LShr (σ α : Type) where
  value : α
  shrinks : σ → Run σ α

/-- A generator of such shrinkables. Models `GenFunction<T>`, /repo/proptest/GenBase.hpp:34-35. -/
abbrev LGen (σ α : Type) := σ → Outcome (LShr σ α × σ)

/-- Goes on with a stream after a call that may not return. Models `;` of C++ (no file of /repo). -/
def Run.after (x : Outcome (β × σ)) (k : β → σ → Run σ α) : Run σ α :=
  match x with
  | .ok (b, s) => k b s
  | .throws e => .stop (.throws e)
  | .ub => .stop .ub
  | .diverges => .stop .diverges

/-- The state of the engine after a stream was evaluated up to its first element. Models `;` of C++ (no file of /repo). -/
def Run.state (r : Run σ α) : Outcome σ :=
  match r with
  | .stop o => o.bind fun x => nomatch x
  | .nil s => .ok s
  | .cons s _ _ _ => .ok s

/-- Models `Stream::isEmpty`, /repo/proptest/Stream.cpp:23-25. -/
def Run.isEmpty (r : Run σ α) : Bool :=
  match r with
  | .nil _ => true
  | _ => false

mutual
/-- A shrinkable whose shrinks do not draw, as all generators of the library make them except those of this file. Not part of
/repo. -/
def ofList : List (Shr α) → σ → Run σ α
  | [] => fun s => .nil s
  | t :: ts => fun s => .cons s t.value (ofShrinks t) (ofList ts)
/-- The shrinks of such a shrinkable. Not part of /repo. -/
def ofShrinks : Shr α → σ → Run σ α
  | .node _ ss => ofList ss
end

/-- A shrinkable whose shrinks do not draw. Not part of /repo. -/
def ofShr (t : Shr α) : LShr σ α := ⟨t.value, ofShrinks t⟩

/-- A generator whose shrinks do not draw. Not part of /repo. -/
def ofGen (g : Gen σ α) : LGen σ α := fun s => do
  let (t, s) ← g s
  pure (ofShr t, s)

/-- Models `make_shrinkable`, /repo/proptest/Shrinkable.hpp:355-367. -/
def leaf (v : α) : LShr σ α := ⟨v, fun s => .nil s⟩

/-- Models `transform` with `shr.flatMap(transformer)`, /repo/proptest/Shrinkable.cpp:98-99 with
/repo/proptest/Stream.hpp:54-65: the function is called for the first element when the stream is made, for its shrinks and
for the tail when they are evaluated. The function may draw; of the shrinkable it returns only the value is used. -/
def Run.flatMap (f : α → σ → Outcome (β × σ)) : Run σ α → Run σ β
  | .stop o => .stop o
  | .nil s => .nil s
  | .cons s v shrinks tail =>
    .after (f v s) fun b s => .cons s b (fun s => (shrinks s).flatMap f) (fun s => (tail s).flatMap f)

/-- Models `ShrinkableAny::flatMap`, /repo/proptest/Shrinkable.cpp:93-101. -/
def LShr.flatMap (f : α → σ → Outcome (β × σ)) (t : LShr σ α) : LGen σ β := fun s => do
  let (b, s) ← f t.value s
  pure (⟨b, fun s => (t.shrinks s).flatMap f⟩, s)

/-- Models `transform` with `shr.andThen(then)`, /repo/proptest/Shrinkable.cpp:303-304, where `andThen` evaluates the stream
of shrinks up to its first element (line 299) when it is called. -/
def Run.andThen (thn : LShr σ α → σ → Run σ α) : Run σ α → Run σ α
  | .stop o => .stop o
  | .nil s => .nil s
  | .cons s v shrinks tail =>
    match (shrinks s).state with
    | .ok s' =>
      .cons s' v (if (shrinks s).isEmpty then thn ⟨v, shrinks⟩ else fun s => (shrinks s).andThen thn)
        (fun s => (tail s).andThen thn)
    | .throws e => .stop (.throws e)
    | .ub => .stop .ub
    | .diverges => .stop .diverges

/-- Models `ShrinkableAny::andThen`, /repo/proptest/Shrinkable.cpp:295-308. -/
def LShr.andThen (thn : LShr σ α → σ → Run σ α) (t : LShr σ α) : LGen σ α := fun s => do
  let s' ← (t.shrinks s).state
  pure (⟨t.value, if (t.shrinks s).isEmpty then thn t else fun s => (t.shrinks s).andThen thn⟩, s')

/-- Models `DependencyInterFunctor::operator()`, /repo/proptest/combinator/dependency.hpp:36-41 (likewise chain.hpp:42-47 and
118-123, derive.hpp:36-41). -/
def inter (f : α → LGen σ β) (v : α) (s : σ) : Outcome ((α × LShr σ β) × σ) := do
  let (u, s) ← f v s
  pure ((v, u), s)

/-- Models the lambda of "shrink strategy 2", /repo/proptest/combinator/dependency.hpp:64-74 (likewise chain.hpp:69-79 and
128-138, derive.hpp:63-73). -/
def expand (i : LShr σ (α × LShr σ β)) (s : σ) : Run σ (α × LShr σ β) :=
  (i.value.2.shrinks s).flatMap fun u s => .ok ((i.value.1, leaf u), s)

/-- Models `TransformFunctor2::operator()`, /repo/proptest/combinator/transform.hpp:39-42, and `Generator::map`,
/repo/proptest/Generator.hpp:59-64, for generators whose shrinks may draw. -/
def transform (g : LGen σ α) (f : α → β) : LGen σ β := fun s => do
  let (t, s) ← g s
  t.flatMap (fun v s => .ok (f v, s)) s

/-- Models the common part of `DependencyFunctor`, `ChainFunctor`, `chainImpl` and `DeriveFunctor`,
/repo/proptest/combinator/dependency.hpp:53-74, chain.hpp:58-79 and 110-138, derive.hpp:52-73. -/
def dependent (gen1 : LGen σ α) (f : α → LGen σ β) : LGen σ (α × LShr σ β) := fun s => do
  let (t, s) ← gen1 s
  let (i, s) ← t.flatMap (inter f) s
  i.andThen expand s

/-- Models `dependency`, /repo/proptest/combinator/dependency.hpp:47-84, and `Generator::pairWith`,
/repo/proptest/Generator.hpp:106-111. -/
def dependency (gen1 : LGen σ α) (f : α → LGen σ β) : LGen σ (α × β) := fun s => do
  let (i, s) ← dependent gen1 f s
  i.flatMap (fun p s => .ok ((p.1, p.2.value), s)) s

/-- Models `chain`, /repo/proptest/combinator/chain.hpp:53-149, and `Generator::tupleWith`,
/repo/proptest/Generator.hpp:134-139. `cat` appends a component to a tuple (lines 86 and 144). -/
def chain (cat : α → β → γ) (gen1 : LGen σ α) (f : α → LGen σ β) : LGen σ γ := fun s => do
  let (i, s) ← dependent gen1 f s
  i.flatMap (fun p s => .ok (cat p.1 p.2.value, s)) s

/-- Models `derive`, /repo/proptest/combinator/derive.hpp:47-82, and `Generator::flatMap`,
/repo/proptest/Generator.hpp:158-163: of the second component only the value is used, its shrinks are replaced. -/
def derive (gen1 : LGen σ α) (f : α → LGen σ β) : LGen σ β := fun s => do
  let (i, s) ← dependent gen1 f s
  i.flatMap (fun p s => .ok (p.2.value, s)) s

/-- `tupleWith` called again and again: `gen.tupleWith(f1).tupleWith(f2)...`, /repo/proptest/Generator.hpp:134-139, docs/Combinators.md.
Simplified: all components have the same type, tuples are lists. -/
def chains (gen1 : LGen σ (List α)) : List (List α → LGen σ α) → LGen σ (List α)
  | [] => gen1
  | f :: fs => chains (chain (fun l v => l ++ [v]) gen1 f) fs

/-- `flatMap` called in the function given to `flatMap` and so on: `g.flatMap(a -> g1(a).flatMap(b -> ... just({a, b, ...})))`,
/repo/proptest/Generator.hpp:158-163 with /repo/proptest/combinator/derive.hpp:47-82. Simplified: all numbers have one type. -/
def nested : List (List α → Gen σ α) → List α → LGen σ (List α)
  | [], l => fun s => .ok (leaf l, s)
  | f :: fs, l => derive (ofGen (f l)) fun v => nested fs (l ++ [v])

/-- Models the two loops of `shrinkN`, /repo/proptest/Property.hpp:376-403, for an argument whose shrinks have been evaluated up
to the first element, `cur` being the value to be reported so far, and a property that fails for the values `fails`:
`Iterator::next` (/repo/proptest/Stream.hpp:120-128) evaluates the following element before the property is called. -/
def search (fails : α → Bool) (cur : α) : Run σ α → Outcome (α × σ)
  | .stop o => o.bind fun x => nomatch x
  | .nil s => .ok (cur, s)
  | .cons s v shrinks tail =>
    match (tail s).state with
    | .ok s' => if fails v then search fails v (shrinks s') else search fails cur (tail s)
    | .throws e => .throws e
    | .ub => .ub
    | .diverges => .diverges

/-- Models `Property::shrink`, /repo/proptest/Property.hpp:414-428, for one argument: it is generated again from the saved engine,
which then serves the shrinks. -/
def shrink (g : LGen σ α) (fails : α → Bool) (s : σ) : Outcome (α × σ) := do
  let (t, s) ← g s
  search fails t.value (t.shrinks s)

end Live
end Verif
