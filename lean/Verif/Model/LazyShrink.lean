import Verif.Model.Property
import Verif.Model.Stream
/-
Shrinking with shrinks that are streams and may be infinite, as they can be when a generator makes its shrinkables itself:
/repo/proptest/Property.hpp:370-412 with /repo/proptest/Stream.hpp and `shrinksPtr` of /repo/proptest/Shrinkable.hpp:153-163.

Simplification of this file: functions that yield shrinks and tails are pure and return.
-/
namespace Verif
namespace LazyShrink
open Engine PairTuple
variable {n : Nat} {A : Fin n → Type} {σ α : Type}

/-- Shrinkables whose shrinks are streams: `X` are the objects. Models `Shrinkable<T>`,
/repo/proptest/Shrinkable.hpp:87-268, with `shrinks()` returning a `Stream`, /repo/proptest/Shrinkable.cpp:320. -/
structure Source (α : Type) where
  X : Type
  value : X → α
  shrinks : X → Strm X

/-- Models `ValueTuple`, the tuple of shrinkables, /repo/proptest/Property.hpp:417-424. -/
abbrev LTup (K : (i : Fin n) → Source (A i)) := (i : Fin n) → (K i).X

/-- The tuple as the property function sees it. Models `transformHeteroTuple<ShrinkableGet>`,
/repo/proptest/Property.hpp:343. -/
def seen (K : (i : Fin n) → Source (A i)) (vals : LTup K) : Tup A := fun i => .leaf ((K i).value (vals i))

/-- Models the loops of `shrinkN`, /repo/proptest/Property.hpp:376-403, where `outer` are the failures of the enclosing context
and the stream is what is left of the shrinks of the current shrinkable. `fuel` bounds the number of candidates looked at. -/
def loop (K : (i : Fin n) → Source (A i)) (c : Cfg σ A) (N : Fin n) (outer : List String) :
    Nat → LTup K → Strm (K N).X → St σ A → Outcome (LTup K) × St σ A
  | 0, _, _, s => (.diverges, s)
  | fuel + 1, vals, str, s =>
    match str.destruct with
    | none => (.ok vals, { s with fails := outer })
    | some (next, rest) =>
      match test c (seen K vals) N (.leaf ((K N).value next)) s with
      | (.ok result, s') =>
        if !result || !s'.fails.isEmpty then
          loop K c N outer fuel (Function.update vals N next) ((K N).shrinks next) { s' with fails := [] }
        else
          loop K c N outer fuel vals rest s'
      | (.throws e, s') => (.throws e, { s' with fails := outer })
      | (.ub, s') => (.ub, { s' with fails := outer })
      | (.diverges, s') => (.diverges, { s' with fails := outer })

/-- Models `shrinkN`, /repo/proptest/Property.hpp:370-405. -/
def shrinkN (K : (i : Fin n) → Source (A i)) (c : Cfg σ A) (fuel : Nat) (vals : LTup K) (N : Fin n) (s : St σ A) :
    Outcome (LTup K) × St σ A :=
  loop K c N s.fails fuel vals ((K N).shrinks (vals N)) { s with fails := [] }

/-- Models `shrinkEach`, /repo/proptest/Property.hpp:407-412. -/
def shrinkEach (K : (i : Fin n) → Source (A i)) (c : Cfg σ A) (fuel : Nat) :
    List (Fin n) → LTup K → St σ A → Outcome (LTup K) × St σ A
  | [], vals, s => (.ok vals, s)
  | N :: rest, vals, s =>
    match shrinkN K c fuel vals N s with
    | (.ok vals, s) => shrinkEach K c fuel rest vals s
    | (.throws e, s) => (.throws e, s)
    | (.ub, s) => (.ub, s)
    | (.diverges, s) => (.diverges, s)

end LazyShrink
end Verif
