import Verif.Model.Combinator
import Verif.Spec.Greedy
/-
Dependent values whose shrinks draw from the engine when they are looked at: the `Random&` that
/repo/proptest/combinator/dependency.hpp, chain.hpp and derive.hpp keep.
-/
namespace Verif
namespace Drawing
open Shr Comb
variable {σ α β : Type}

/-- A generator that is called with a reference to an engine: `none` is an engine whose lifetime has ended. Models
`GenFunction<T>`, /repo/proptest/GenBase.hpp:35, and the member `Random& rand`, /repo/proptest/combinator/dependency.hpp:43
(likewise chain.hpp:49, derive.hpp:43). -/
def onRef (g : Gen σ α) : Gen (Option σ) α
  | none => .ub
  | some s => (g s).bind fun r => .ok (r.1, some r.2)

/-- Models the evaluation of one element of the stream of shrinks of a dependent value,
/repo/proptest/Shrinkable.cpp:98-99 and 303-304: a second component is generated for a shrink `c` of the first component
(/repo/proptest/combinator/dependency.hpp:36-41), then `andThen` looks whether `c` has shrinks itself (`peek`). -/
def evalShrink (f : α → Gen σ β) (c : Shr α) (s : σ) : Outcome (Shr β × σ) := do
  let (u, s) ← f c.value s
  let s ← peek f c.shrinks s
  pure (u, s)

/-- Models `shrinks()`, /repo/proptest/Shrinkable.cpp:320, of a dependent value with first component `t`: the stream up to
its first element. Without shrinks of the first component the shrinks are those of the second one ("shrink strategy 2",
/repo/proptest/combinator/dependency.hpp:64-74), which do not draw; they are not part of the result here. -/
def look (f : α → Gen σ β) (t : Shr α) (s : σ) : Outcome (Option (α × Shr β) × σ) :=
  match t.shrinks with
  | [] => .ok (none, s)
  | c :: _ => do
    let (u, s) ← evalShrink f c s
    pure (some (c.value, u), s)

mutual
/-- Models the loop of `shrinkN`, /repo/proptest/Property.hpp:371-404, for an argument that is a dependent value with components
`t` and `u`, and a property that fails for the pairs `fails`. -/
def walk (f : α → Gen σ β) (fails : α × β → Bool) : Shr α → Shr β → σ → Outcome ((α × β) × σ)
  | node v ss, u, s =>
    if ss.isEmpty then .ok ((v, u.greedy fun b => fails (v, b)), s)
    else search f fails (v, u.value) ss none s
/-- Models the inner loop, /repo/proptest/Property.hpp:382-394: `Iterator::next` (/repo/proptest/Stream.hpp:120-128) evaluates
the following element before the property is called for the `pending` one. -/
def search (f : α → Gen σ β) (fails : α × β → Bool) (cur : α × β) :
    List (Shr α) → Option ((α × β) × (σ → Outcome ((α × β) × σ))) → σ → Outcome ((α × β) × σ)
  | [], none, s => .ok (cur, s)
  | [], some x, s => if fails x.1 then x.2 s else .ok (cur, s)
  | c :: cs, none, s => do
    let (u, s) ← evalShrink f c s
    search f fails cur cs (some ((c.value, u.value), fun s => walk f fails c u s)) s
  | c :: cs, some x, s => do
    let (u, s) ← evalShrink f c s
    if fails x.1 then x.2 s
    else search f fails cur cs (some ((c.value, u.value), fun s => walk f fails c u s)) s
end

/-- Models `Property::shrink`, /repo/proptest/Property.hpp:414-428, for one argument from `dependency(gen1, f)`: the value is
generated again from the saved engine, which then serves the shrinks. -/
def shrinkPair (gen1 : Gen σ α) (f : α → Gen σ β) (fails : α × β → Bool) (s : σ) : Outcome ((α × β) × σ) := do
  let (t, s) ← gen1 s
  let (u, s) ← f t.value s
  let s ← peek f t.shrinks s
  walk f fails t u s

end Drawing
end Verif
