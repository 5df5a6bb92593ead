import Verif.Model.Double
import Verif.Model.ListLike
import Verif.Model.Integral
/-
Generator combinators: /repo/proptest/combinator/*.hpp, /repo/proptest/Generator.hpp,
/repo/proptest/generator/unicode.cpp, nullable.hpp, shared_ptr.hpp.

Simplifications: function objects are pure; generators have no state besides the engine. `fuel` bounds the
passes of `while (true)` loops; a loop that has not returned yet is `diverges`.

Shrinks that call generators again (`dependency`, `chain`, `derive`, `accumulate`, `aggregate`) are
evaluated by the library whenever somebody asks for them, with whatever state the engine has at that time.
The functions below therefore take an argument `o`: `o p` is the state of the engine when the shrink at
position `p` (last choice first) is evaluated. The theorems hold for every `o`, hence for every time and
order of evaluation. A shrink whose evaluation does not return normally ends the stream it belongs to.
-/
namespace Verif
namespace Comb
open Shr Random ListLike Integral
variable {σ α β γ : Type}

/-- Models `transform` (`TransformFunctor2::operator()`), /repo/proptest/combinator/transform.hpp:38-41, and
`Generator::map`, /repo/proptest/Generator.hpp:59-65. -/
def transform (g : Gen σ α) (f : α → β) : Gen σ β := fun s => do
  let (t, s) ← g s
  pure (t.map f, s)

/-- Models `FilterFunctor::operator()`, /repo/proptest/combinator/filter.hpp:38-46, and `Generator::filter`,
/repo/proptest/Generator.hpp:90-94. -/
def filter (g : Gen σ α) (c : α → Bool) : Nat → Gen σ α
  | 0, _ => .diverges
  | fuel + 1, s => do
    let (t, s) ← g s
    if c t.value then do
      let t ← t.filterTol c 1
      pure (t, s)
    else filter g c fuel s

/-- Models `just`, /repo/proptest/combinator/just.hpp:19-62. -/
def just (v : α) : Gen σ α := fun s => .ok (leaf v, s)

/-- Models `lazy`, /repo/proptest/combinator/lazy.hpp:23-29; the function called is given by its result. -/
def lazy (f : Unit → Outcome α) : Gen σ α := fun s => do
  let v ← f ()
  pure (leaf v, s)

/-! ### oneOf -/

/-- Models `util::Weighted<T>`, /repo/proptest/combinator/oneof.hpp:28-38. `discarded s` is the state the
engine is left in when the generator, called in state `s`, throws `Discard` (our generators return no state
in that case). -/
structure Weighted (σ α : Type) where
  gen : Gen σ α
  weight : Dbl
  discarded : σ → σ := id

/-- Models the loop over the weights, /repo/proptest/combinator/oneof.hpp:63-72: returns the sum and the
number of unassigned weights. -/
def sumWeights : List Dbl → Dbl → Nat → Outcome (Dbl × Nat)
  | [], sum, n => .ok (sum, n)
  | w :: ws, sum, n =>
    if w.lt (.fin 0) || (Dbl.fin 1).lt w then .throws .runtimeError
    else sumWeights ws (sum.add w) (if w.eq (.fin 0) then n + 1 else n)

/-- Models the assignment of weights, /repo/proptest/combinator/oneof.hpp:62-82. -/
def assignWeights (ws : List Dbl) : Outcome (List Dbl) := do
  let (sum, n) ← sumWeights ws (.fin 0) 0
  if (Dbl.fin 1).lt sum then .throws .runtimeError
  else if 0 < n && sum.lt (.fin 1) then
    pure (ws.map fun w => if w.eq (.fin 0) then sum.oneMinus.divNat n else w)
  else pure ws

/-- The threshold `getRandomBool` compares with, /repo/proptest/Random.cpp:24-29: `UINT64_MAX` as a double is
2^64, the product is exact, the cast cuts off the fraction. A product outside of the type (a NaN or a number
that is negative or at least 2^64) makes the cast undefined. -/
def threshold : Dbl → Outcome (Option Nat)
  | .fin q =>
    if q = 1 then .ok none
    else if q ≤ -1 / 2 ^ 64 ∨ 1 < q then .ub
    else .ok (some (⌊q * 2 ^ 64⌋.toNat))
  | _ => .ub

/-- Models the inner loop, /repo/proptest/combinator/oneof.hpp:90-96. -/
def retry (w : Weighted σ α) : Nat → Gen σ α
  | 0, _ => .diverges
  | fuel + 1, s =>
    match w.gen s with
    | .throws .discard => retry w fuel (w.discarded s)
    | r => r

/-- Models the generator returned by `oneOfHelper`, /repo/proptest/combinator/oneof.hpp:84-99. Reading past
the end of the vector is `ub`. -/
def oneOfLoop (R : Rng σ) (gens : List (Weighted σ α)) : Nat → Gen σ α
  | 0, _ => .diverges
  | fuel + 1, s => do
    let (dice, s) ← getRandomSize R 0 gens.length s
    match gens[dice.toNat]? with
    | none => .ub
    | some w => do
      let thr ← threshold w.weight
      let (b, s) := getRandomBool R thr s
      if b then retry w fuel s else oneOfLoop R gens fuel s

/-- Models `oneOfHelper`, /repo/proptest/combinator/oneof.hpp:59-100, and `oneOf`, 134-146: the alternatives
with the weights assigned; calling the result is `oneOfLoop`. An alternative given without weight has weight
0, line 44. -/
def oneOf (gens : List (Weighted σ α)) : Outcome (List (Weighted σ α)) := do
  let ws ← assignWeights (gens.map (·.weight))
  pure (List.zipWith (fun g w => { g with weight := w }) gens ws)

/-- Models `elementOf`, /repo/proptest/combinator/elementof.hpp:74-88. -/
def elementOf (vals : List (α × Dbl)) : Outcome (List (Weighted σ α)) :=
  oneOf (vals.map fun v => { gen := just v.1, weight := v.2 })

/-! ### intervals -/

/-- Models `Interval::size`, /repo/proptest/combinator/intervals.hpp:18. -/
def intervalSize (i : Int × Int) : Outcome Int := do
  let d ← IntType.i64.arith (i.2 - i.1)
  IntType.i64.arith (d + 1)

/-- Models `UInterval::size`, /repo/proptest/combinator/intervals.hpp:27. -/
def uintervalSize (i : Int × Int) : Outcome Int := do
  let d ← IntType.u64.arith (i.2 - i.1)
  IntType.u64.arith (d + 1)

/-- Models the first loop of `intervals`/`uintervals`, /repo/proptest/combinator/intervals.cpp:9-15 and
32-39. -/
def sumSizes (size : Int × Int → Outcome Int) : List (Int × Int) → Int → Outcome Int
  | [], sum => .ok sum
  | i :: is, sum => do
    let n ← size i
    if n = 0 then .throws .runtimeError else sumSizes size is (IntType.u64.wrap (sum + n))

/-- Models the second loop, /repo/proptest/combinator/intervals.cpp:17-21 and 41-45. -/
def weightSizes (R : Rng σ) (T : IntType) (size : Int × Int → Outcome Int) (sum : Nat) :
    List (Int × Int) → Outcome (List (Weighted σ Int))
  | [] => .ok []
  | i :: is => do
    let n ← size i
    let ws ← weightSizes R T size sum is
    pure ({ gen := interval R T i.1 i.2, weight := (Dbl.ofInt n).divNat sum } :: ws)

/-- Models `intervals`, /repo/proptest/combinator/intervals.cpp:5-26; calling the result is `oneOfLoop`. -/
def intervals (R : Rng σ) (is : List (Int × Int)) : Outcome (List (Weighted σ Int)) := do
  let sum ← sumSizes intervalSize is 0
  let ws ← weightSizes R .i64 intervalSize sum.toNat is
  oneOf ws

/-- Models `uintervals`, /repo/proptest/combinator/intervals.cpp:28-50; calling the result is `oneOfLoop`. -/
def uintervals (R : Rng σ) (is : List (Int × Int)) : Outcome (List (Weighted σ Int)) := do
  let sum ← sumSizes uintervalSize is 0
  let ws ← weightSizes R .u64 uintervalSize sum.toNat is
  oneOf ws

/-- Models `UnicodeGen::operator()`, /repo/proptest/generator/unicode.cpp:8-17; `fuel` as in `oneOfLoop`. -/
def unicodeGen (R : Rng σ) (fuel : Nat) : Gen σ Int := fun s => do
  let frontSize : Nat := 0xD7FF - 0x1 + 1
  let rearSize : Nat := 0x10FFFF - 0xE000 + 1
  let size := frontSize + rearSize
  let gens ← oneOf [
    { gen := interval R .u32 0x1 0xD7FF, weight := (Dbl.ofInt frontSize).divNat size },
    { gen := interval R .u32 0xE000 0x10FFFF, weight := (Dbl.ofInt rearSize).divNat size }]
  oneOfLoop R gens fuel s

/-! ### dependency, chain, derive -/

mutual
/-- A shrinkable whose values are computed by calls `f v` that draw from the engine: `ShrinkableAny::flatMap`,
/repo/proptest/Shrinkable.cpp:87-101, with a transformer that calls a generator, as used in
/repo/proptest/combinator/dependency.hpp:59-60, chain.hpp:64-65, derive.hpp:58-59. `o p` is the state of the
engine when the shrink at position `p` is evaluated; `none` if that evaluation does not return. -/
def lazyMap (f : α → σ → Outcome β) (o : List Nat → σ) : List Nat → Shr α → Option (Shr β)
  | p, node v ss =>
    match f v (o p) with
    | .ok b => some (node b (lazyMapList f o p 0 ss))
    | _ => none
/-- The stream part of `lazyMap`, /repo/proptest/Shrinkable.cpp:98-99. An evaluation that does not return
ends the stream. -/
def lazyMapList (f : α → σ → Outcome β) (o : List Nat → σ) : List Nat → Nat → List (Shr α) → List (Shr β)
  | _, _, [] => []
  | p, i, s :: ss =>
    match lazyMap f o (i :: p) s with
    | some t => t :: lazyMapList f o p (i + 1) ss
    | none => []
end

/-- Models `DependencyInterFunctor::operator()`, /repo/proptest/combinator/dependency.hpp:36-41 (likewise
chain.hpp:42-47, derive.hpp:36-41): generates the second component. -/
def inter (gen2gen : α → Gen σ β) (v : α) (s : σ) : Outcome (α × Shr β) := do
  let (u, _) ← gen2gen v s
  pure (v, u)

/-- Models the lambda of "shrink strategy 2", /repo/proptest/combinator/dependency.hpp:64-74 (likewise
chain.hpp:69-79, derive.hpp:63-73). -/
def expand (i : Shr (α × Shr β)) : List (Shr (α × Shr β)) :=
  (i.value.2.flatMap fun u => leaf (i.value.1, leaf u)).shrinks

/-- Models the test `isEmpty` of `ShrinkableAny::andThen`, /repo/proptest/Shrinkable.cpp:299, on the shrinks of a
dependent value: making a stream evaluates its first element (/repo/proptest/Stream.hpp:61), here the first shrink of the
first component, for which a second component is generated and dropped. Simplified: if looking at this first shrink draws
itself (because the first component is a dependent value, too), those draws are not followed (Model/Drawing.lean has them). -/
def peek (gen2gen : α → Gen σ β) : List (Shr α) → σ → Outcome σ
  | [], s => .ok s
  | c :: _, s => do
    let (_, s) ← gen2gen c.value s
    pure s

/-- Models the common part of `DependencyFunctor`, `ChainFunctor` and `DeriveFunctor`,
/repo/proptest/combinator/dependency.hpp:53-74, chain.hpp:58-79 and 110-138, derive.hpp:52-73. The root is
evaluated at once, with the engine of the call, then its first shrink (`peek`); its shrinks later, the first one once more.
(If the evaluation of the first shrink of another node throws, the code throws where the model goes on with `expand`.) -/
def dependent (gen1 : Gen σ α) (gen2gen : α → Gen σ β) (o : List Nat → σ) (s : σ) :
    Outcome (Shr (α × Shr β) × σ) := do
  let (t, s) ← gen1 s
  let (u, s) ← gen2gen t.value s
  let s ← peek gen2gen t.shrinks s
  let intermediate := node (t.value, u) (lazyMapList (inter gen2gen) o [] 0 t.shrinks)
  pure (intermediate.andThen expand, s)

/-- Models `dependency`, /repo/proptest/combinator/dependency.hpp:47-84 (reformat: 76-79), and
`Generator::pairWith`, /repo/proptest/Generator.hpp:106-111. -/
def dependency (gen1 : Gen σ α) (gen2gen : α → Gen σ β) (o : List Nat → σ) : Gen σ (α × β) := fun s => do
  let (i, s) ← dependent gen1 gen2gen o s
  pure (i.flatMap fun p => leaf (p.1, p.2.value), s)

/-- Models `chain` for a base generator of tuples, /repo/proptest/combinator/chain.hpp:102-149 (reformat:
140-145), for tuples of one component 53-100, and `Generator::tupleWith`, /repo/proptest/Generator.hpp:134-139.
`cat` appends a component to a tuple (`tuple_cat`, lines 86 and 144). -/
def chain (cat : α → β → γ) (gen1 : Gen σ α) (gen2gen : α → Gen σ β) (o : List Nat → σ) : Gen σ γ := fun s => do
  let (i, s) ← dependent gen1 gen2gen o s
  pure (i.flatMap fun p => leaf (cat p.1 p.2.value), s)

/-- Models `derive`, /repo/proptest/combinator/derive.hpp:47-82 (reformat: 75-77), and `Generator::flatMap`,
/repo/proptest/Generator.hpp:158-163. -/
def derive (gen1 : Gen σ α) (gen2gen : α → Gen σ β) (o : List Nat → σ) : Gen σ β := fun s => do
  let (i, s) ← dependent gen1 gen2gen o s
  pure (i.flatMap fun p => p.2, s)

/-! ### aggregate, accumulate -/

/-- Models the loop of `aggregateImpl`, /repo/proptest/combinator/aggregate.hpp:29-30: `n` more steps. -/
def steps (gen2gen : α → Gen σ α) : Nat → Shr α → σ → Outcome (Shr α × σ)
  | 0, t, s => .ok (t, s)
  | n + 1, t, s => do
    let (t, s) ← gen2gen t.value s
    steps gen2gen n t s

/-- Models `aggregateImpl`, /repo/proptest/combinator/aggregate.hpp:19-35. -/
def aggregate (R : Rng σ) (gen1 : Gen σ α) (gen2gen : α → Gen σ α) (minSize maxSize : Nat)
    (o : List Nat → σ) : Gen σ α :=
  derive (interval R .u64 minSize maxSize) (fun size s => do
    let (t, s) ← gen1 s
    steps gen2gen size.toNat t s) o

/-- Models the loop of `accumulateImpl`, /repo/proptest/combinator/accumulate.hpp:37-40: the shrinkables after
`t`. -/
def steppers (gen2gen : α → Gen σ α) : Nat → Shr α → σ → Outcome (List (Shr α) × σ)
  | 0, _, s => .ok ([], s)
  | n + 1, t, s => do
    let (t, s) ← gen2gen t.value s
    let (ts, s) ← steppers gen2gen n t s
    pure (t :: ts, s)

/-- Models the lambda shrinking the last element, /repo/proptest/combinator/accumulate.hpp:42-55. -/
def shrinkLast (parent : Shr (List (Shr α))) : List (Shr (List (Shr α))) :=
  match parent.value.getLast? with
  | none => []
  | some last => last.shrinks.map fun elem => leaf (parent.value.dropLast ++ [elem])

/-- Models the generator for a given size, /repo/proptest/combinator/accumulate.hpp:29-63. -/
def accumulateSized (gen1 : Gen σ α) (gen2gen : α → Gen σ α) (minSize size : Nat) : Gen σ (List α) := fun s =>
  if size = 0 then .ok (leaf [], s)
  else do
    let (t, s) ← gen1 s
    let (ts, s) ← steppers gen2gen (size - 1) t s
    let shr ← listLikeLength (t :: ts) minSize
    pure ((shr.andThen shrinkLast).map fun v => v.map Shr.value, s)

/-- Models `accumulateImpl`, /repo/proptest/combinator/accumulate.hpp:21-65. -/
def accumulate (R : Rng σ) (gen1 : Gen σ α) (gen2gen : α → Gen σ α) (minSize maxSize : Nat)
    (o : List Nat → σ) : Gen σ (List α) :=
  derive (interval R .u64 minSize maxSize) (fun size => accumulateSized gen1 gen2gen minSize size.toNat) o

/-! ### construct, Nullable, shared_ptr -/

/-- Models `Construct::operator()`, /repo/proptest/combinator/construct.hpp:67, 113-136: arguments from the
generators, called in an order C++ leaves unspecified, then `make_shrinkable<CLASS>(args...)`. -/
def construct {n : Nat} {A : Fin n → Type} (ctor : ((i : Fin n) → A i) → Outcome γ)
    (gens : (i : Fin n) → Gen σ (A i)) (order : List (Fin n)) : Gen σ γ := fun s => do
  let (ts, s) ← Gen.drawTuple gens order s
  let v ← ctor fun i => (ts i).value
  pure (leaf v, s)

/-- Models `Arbi<Nullable<T>>::operator()`, /repo/proptest/generator/nullable.hpp:29-41: `arbi` is `Arbi<T>()`,
`elemGen` the configured generator (which is not used); the double 0.95 times 2^64 is the threshold. -/
def arbiNullable (R : Rng σ) (arbi _elemGen : Gen σ α) : Gen σ (Option α) := fun s => do
  let (b, s) := getRandomBool R (some 17524406870024073216) s
  if b then do
    let (t, s) ← arbi s
    pure (t.mapShrinkable (fun shr => leaf (some shr.value)), s)
  else pure (leaf none, s)

/-- Models `Arbi<shared_ptr<T>>::operator()`, /repo/proptest/generator/shared_ptr.hpp:28-33; a pointer is
represented by the object it points to. The configured generator `elemGen` is not used. -/
def arbiSharedPtr (arbi _elemGen : Gen σ α) : Gen σ α := fun s => do
  let (t, s) ← arbi s
  pure (t.map id, s)

end Comb
end Verif
