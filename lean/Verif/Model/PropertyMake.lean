import Verif.Model.Property
import Verif.Model.Containers
/-
Making a property: how the generators are chosen (/repo/proptest/util/createGenTuple.hpp, `overrideTuple` in
/repo/proptest/util/invokeWithGenTuple.hpp) and how the callable is stored (/repo/proptest/Property.hpp); mapping a
string generator with a function that modifies its argument (/repo/proptest/combinator/transform.hpp).
-/
namespace Verif
namespace Make
variable {G : Type}

/-- Models `addOffset`, /repo/proptest/util/createGenTuple.hpp:12-16. -/
def addOffset (o : Nat) (is : List Nat) : List Nat := is.map fun i => o + i

/-- Models `createGenHelperListed`, /repo/proptest/util/createGenTuple.hpp:25-29; `arb i` is `Arbi` of the type of
parameter `i`. Simplified: generators of different types are objects of one type `G`. -/
def createGenHelperListed (arb : Nat → G) (is : List Nat) : List G := is.map arb

/-- Models the three overloads of `createGenTuple`, /repo/proptest/util/createGenTuple.hpp:31-64, for a property
function of `n` parameters. `none`: no overload fits, the call does not compile. -/
def createGenTuple (n : Nat) (arb : Nat → G) (gens : List G) : Option (List G) :=
  if gens.length = 0 then some (createGenHelperListed arb (List.range n))
  else if gens.length = n then some gens
  else if gens.length < n then
    some (gens ++ createGenHelperListed arb (addOffset gens.length (List.range (n - gens.length))))
  else none

/-- Models `setTupleFromTuple<N>`, /repo/proptest/util/invokeWithGenTuple.hpp:33-38. -/
def setTupleFromTuple (tup args : List G) (N : Nat) : List G :=
  match args[N]? with
  | some g => tup.set N g
  | none => tup

/-- Models `overrideTuple` and `overrideTupleHelper`, /repo/proptest/util/invokeWithGenTuple.hpp:40-63: the elements
of a copy are assigned in an order `order` that C++ leaves open (arguments of `make_tuple`, line 43). `none`: the call
does not compile. -/
def overrideTuple (order : List Nat) (tup args : List G) : Option (List G) :=
  if args.length ≤ tup.length then some (order.foldl (fun copy N => setTupleFromTuple copy args N) tup) else none

/-- The generators a `Property` object holds, `genTupPtr`, /repo/proptest/PropertyBase.hpp:110 (also line 84 of
/repo/proptest/Property.hpp). -/
structure Prop' (G : Type) where
  genTup : List G

/-- Models the choice of generators in `property(callable, gens...)`, /repo/proptest/Property.hpp:503-511. -/
def property (n : Nat) (arb : Nat → G) (gens : List G) : Option (Prop' G) :=
  (createGenTuple n arb gens).map Prop'.mk

/-- Models the choice of generators in `Property::forAll(gens...)`, /repo/proptest/Property.hpp:171-177: the
generators used, and the object afterwards. -/
def forAllGens (p : Prop' G) (order : List Nat) (gens : List G) : Option (List G) × Prop' G :=
  (overrideTuple order p.genTup gens, p)

end Make

namespace Engine
variable {n : Nat} {A : Fin n → Type}

/-- A property callable as given by the user: `(ARGS...) -> bool` or `(ARGS...) -> void`,
/repo/proptest/Property.hpp:492-501. -/
inductive Callable (A : Fin n → Type) where
  | bool (f : Trace A → Args A → Ev Bool)
  | void (f : Trace A → Args A → Ev Unit)

/-- What `functionWithBoolResult` stores in the `std::function`: a copy of the callable, or a `BoolResultFunctor`,
whose member `Callable&& callable` is a reference to the callable given to `property`,
/repo/proptest/Property.hpp:439-463. -/
inductive Func (A : Fin n → Type) where
  | copied (f : Trace A → Args A → Ev Bool)
  | refers (f : Trace A → Args A → Ev Unit)

/-- Models `functionWithBoolResult` and its two helpers, /repo/proptest/Property.hpp:437-471; as `property` passes on
its parameter by name (line 508), `Callable` is deduced as an lvalue reference. -/
def functionWithBoolResult : Callable A → Func A
  | .bool f => .copied f
  | .void f => .refers f

/-- Calls the stored function. `alive`: the object given to `property` still exists. Models
`BoolResultFunctor::operator()`, /repo/proptest/Property.hpp:449-452. -/
def Func.call (alive : Bool) : Func A → Trace A → Args A → Ev Bool
  | .copied f, tr, a => f tr a
  | .refers f, tr, a =>
    if alive then ⟨(f tr a).fails, match (f tr a).out with
      | .ok _ => .ok true
      | .throws e => .throws e
      | .ub => .ub
      | .diverges => .diverges⟩
    else ⟨[], .ub⟩

end Engine

namespace Containers
open Shr BinSearch
variable {α β : Type}

/-- Models `string::substr(pos, len)` as used in /repo/proptest/shrinker/string.cpp:21: throws `out_of_range` if
`pos > size()`. -/
def substr (str : List α) (pos len : Nat) : Outcome (List α) :=
  if str.length < pos then .throws .stdOther else .ok ((str.drop pos).take len)

/-- Models the lambda passed to `concat`, /repo/proptest/shrinker/string.cpp:14-24, for any string the shrinkable
holds when the shrinks are asked for. The `size_t` subtraction of line 19 wraps around; the first candidate is made at
once (value 0), the others when the stream is iterated: these are the ones listed. -/
def frontShrinks (minSize : Nat) (str : List α) : Outcome (List (Shr (List α))) :=
  if str.length = minSize then .ok []
  else do
    let k := (2 ^ 64 + str.length - minSize) % 2 ^ 64
    let _ ← substr str (minSize + 0) (str.length - (minSize + 0))
    pure (((bsNat k).map fun value => (str.drop (minSize + value)).take (str.length - (minSize + value))).shrinks)

mutual
/-- Models `ShrinkableAny::map` (/repo/proptest/Shrinkable.cpp:77-85), called by `transform`
(/repo/proptest/combinator/transform.hpp:20-45) with a user function `m` of type `U(string&)`, for a tree made by
`shrinkRear.concat(...)` (/repo/proptest/shrinker/string.cpp:14, /repo/proptest/Shrinkable.cpp:258-266). `m s` is the
result for the argument `s`, and what is left in the argument. The argument is the value the shrinkable holds, and
`concat` reads it when the shrinks are asked for, later. Simplified: all shrinks are asked for. -/
def mapStr (m : List α → β × List α) (minSize : Nat) : Shr (List α) → Outcome (Shr β)
  | .node v ss => do
    let own ← mapStrList m minSize ss
    let front ← frontShrinks minSize (m v).2
    pure (.node (m v).1 (own ++ front.map (Shr.map fun w => (m w).1)))
/-- The part of `mapStr` for a stream, /repo/proptest/Shrinkable.cpp:82-83, 262-263. -/
def mapStrList (m : List α → β × List α) (minSize : Nat) : List (Shr (List α)) → Outcome (List (Shr β))
  | [] => pure []
  | s :: ss => do
    let s' ← mapStr m minSize s
    let ss' ← mapStrList m minSize ss
    pure (s' :: ss')
end

/-- Models `Arbi<string>().map<U>(m)` after the characters have been drawn: `shrinkString(...)` without its
`concat`, which `mapStr` includes. /repo/proptest/generator/string.cpp:37, /repo/proptest/Arbitrary.hpp:54-59. -/
def mapString (m : List α → β × List α) (str : List α) (minSize : Nat) : Outcome (Shr β) :=
  mapStr m minSize (shrinkRear str minSize)

end Containers
end Verif
