import Verif.Model.BinSearch
import Verif.Model.Gen
import Verif.Model.Random
/-
Floating point numbers: /repo/proptest/generator/floating.cpp, /repo/proptest/shrinker/floating.hpp and
/repo/proptest/shrinker/floating.cpp.
-/
namespace Verif
namespace Floating
open Shr BinSearch

/-- The two types, IEEE 754 binary32 and binary64. Models the instances of
/repo/proptest/shrinker/floating.cpp:35-36. -/
inductive Fmt where
  | single
  | double
deriving DecidableEq, Repr

namespace Fmt
/-- Number of significant bits (`numeric_limits<T>::digits`). No particular code of /repo. -/
def p : Fmt → Nat
  | single => 24
  | double => 53
/-- Number of bits of the exponent field. No particular code of /repo. -/
def ebits : Fmt → Nat
  | single => 8
  | double => 11
/-- The smallest positive number is `2^emin`. No particular code of /repo. -/
def emin : Fmt → Int
  | single => -149
  | double => -1074
/-- All finite numbers are less than `2^emax`. No particular code of /repo. -/
def emax : Fmt → Int
  | single => 128
  | double => 1024
end Fmt

/-- A floating point number. `fin neg f e` is `±(f / 2^p) * 2^e`, where `2^(p-1) ≤ f < 2^p`, which is how `frexp`
decomposes a number (see `Fmt.Finite`). Models the type parameter `FLOATTYPE`, /repo/proptest/shrinker/floating.hpp:29. -/
inductive Fl where
  | nan
  | inf (neg : Bool)
  | zero (neg : Bool)
  | fin (neg : Bool) (f : Nat) (e : Int)
deriving DecidableEq, Repr

/-- `±(f / 2^p) * 2^e` is a finite number of the format: `f / 2^p` is in `[1/2, 1)`, the number is less than `2^emax`, and it
is a multiple of `2^emin`. No particular code of /repo. -/
def Fmt.Finite (F : Fmt) (f : Nat) (e : Int) : Prop :=
  2^(F.p - 1) ≤ f ∧ f < 2^F.p ∧ e ≤ F.emax ∧ 2^(F.emin - (e - F.p)).toNat ∣ f

/-- The condition can be computed. No particular code of /repo. -/
instance (F : Fmt) (f : Nat) (e : Int) : Decidable (F.Finite f e) := inferInstanceAs (Decidable (_ ∧ _ ∧ _ ∧ _))

/-- Models `composeFloat`, i.e. `ldexpf` and `ldexp`, /repo/proptest/shrinker/floating.cpp:19-29, for a fraction as `frexp` gives it.
Simplified: exact; a result that would have to be rounded is marked as undefined, so that an `ok` of the functions below
means that it does not occur. -/
def ldexp (F : Fmt) (neg : Bool) (f : Nat) (e : Int) : Outcome Fl :=
  if F.Finite f e then .ok (.fin neg f e) else .ub

/-- The integer part of `(f / 2^p) * 2^e`. Models the conversion at /repo/proptest/shrinker/floating.hpp:79. -/
def trunc (F : Fmt) (f : Nat) (e : Int) : Nat := f * 2^(e - F.p).toNat / 2^(F.p - e).toNat

/-- Models `static_cast<int>(value)`, /repo/proptest/shrinker/floating.hpp:79: undefined if the integer part is no `int`. -/
def toInt (F : Fmt) : Fl → Outcome Int
  | .zero _ => .ok 0
  | .fin neg f e =>
    let v : Int := if neg then -(trunc F f e : Int) else trunc F f e
    if -2^31 ≤ v ∧ v < 2^31 then .ok v else .ub
  | _ => .ub

/-- Models `abs(intValue)`, /repo/proptest/shrinker/floating.hpp:80. -/
def absInt (v : Int) : Outcome Nat := if v = -2^31 then .ub else .ok v.natAbs

/-- The comparison `abs(intValue) < abs(value)`, /repo/proptest/shrinker/floating.hpp:80, for a finite `value` that is not 0. -/
def ltAbs (F : Fmt) (n f : Nat) (e : Int) : Bool := n * 2^(F.p - e).toNat < f * 2^(e - F.p).toNat

/-- The conversion of an `int` other than 0 to the floating point type, /repo/proptest/shrinker/floating.hpp:81. Simplified: exact
(the integer part of a number of the type is a number of the type). -/
def ofInt (F : Fmt) (v : Int) : Fl :=
  let n := v.natAbs
  .fin (v < 0) (n * 2^F.p / 2^(n.log2 + 1)) (n.log2 + 1)

mutual
/-- `Shrinkable::map` with a function that need not return, /repo/proptest/Shrinkable.cpp:61-85; all positions are explored. -/
def mapO {α β : Type} (f : α → Outcome β) : Shr α → Outcome (Shr β)
  | .node v ss => do
    let w ← f v
    let ws ← mapListO f ss
    pure (.node w ws)
/-- The stream part of `mapO`, /repo/proptest/Shrinkable.cpp:72-73. -/
def mapListO {α β : Type} (f : α → Outcome β) : List (Shr α) → Outcome (List (Shr β))
  | [] => .ok []
  | s :: ss => do
    let t ← mapO f s
    let ts ← mapListO f ss
    pure (t :: ts)
end

mutual
/-- `Shrinkable::andThen` with a function that need not return, /repo/proptest/Shrinkable.cpp:289-307; all positions are
explored. -/
def andThenO {α : Type} (then_ : Shr α → Outcome (List (Shr α))) : Shr α → Outcome (Shr α)
  | .node v ss =>
    if ss.isEmpty then do
      let l ← then_ (.node v ss)
      pure (.node v l)
    else do
      let l ← andThenListO then_ ss
      pure (.node v l)
/-- The stream part of `andThenO`, /repo/proptest/Shrinkable.cpp:303-304. -/
def andThenListO {α : Type} (then_ : Shr α → Outcome (List (Shr α))) : List (Shr α) → Outcome (List (Shr α))
  | [] => .ok []
  | s :: ss => do
    let t ← andThenO then_ s
    let ts ← andThenListO then_ ss
    pure (t :: ts)
end

/-- Models the first lambda given to `andThen`, /repo/proptest/shrinker/floating.hpp:63-74. It is not reached with NaN or an
infinity, for which the outcome is marked as undefined. -/
def fractionStep (F : Fmt) (t : Shr Fl) : Outcome (List (Shr Fl)) :=
  match t.value with
  | .zero _ => .ok []
  | .fin neg _ e => do
    let v ← ldexp F neg (2^(F.p - 1)) e
    pure [leaf v]
  | _ => .ub

/-- Models the second lambda given to `andThen`, /repo/proptest/shrinker/floating.hpp:77-84. -/
def integerStep (F : Fmt) (t : Shr Fl) : Outcome (List (Shr Fl)) := do
  let intValue ← toInt F t.value
  if intValue = 0 then pure []
  else do
    let n ← absInt intValue
    match t.value with
    | .fin _ f e => if ltAbs F n f e then pure [leaf (ofInt F intValue)] else pure []
    | _ => pure []

/-- Models the last branch of `shrinkFloat` after the decomposition, /repo/proptest/shrinker/floating.hpp:51-86. -/
def shrinkFinite (F : Fmt) (neg : Bool) (f : Nat) (e : Int) : Outcome (List (Shr Fl)) := do
  let expShrinkable ← binarySearchShrinkable e
  let t ← mapO (ldexp F neg f) expShrinkable
  let t := t.withShrinks (leaf (.zero false) :: t.shrinks)
  let t ← andThenO (fractionStep F) t
  let t ← andThenO (integerStep F) t
  pure t.shrinks

/-- Models `shrinkFloat`, /repo/proptest/shrinker/floating.hpp:29-88: an infinity is shrunk like the largest finite number
(`numeric_limits<FLOATTYPE>::max()`, `lowest()`). -/
def shrinkFloat (F : Fmt) : Fl → Outcome (List (Shr Fl))
  | .zero _ => .ok []
  | .nan => .ok [leaf (.zero false)]
  | .inf neg => shrinkFinite F neg (2^F.p - 1) F.emax
  | .fin neg f e => shrinkFinite F neg f e

/-- The number with the given bits: sign, exponent field, fraction field. Models the `reinterpret_cast` at
/repo/proptest/generator/floating.cpp:14 and 22 (taken to mean what it does in practice). -/
def ofBits (F : Fmt) (bits : Nat) : Fl :=
  let neg := decide (bits / 2^(F.ebits + (F.p - 1)) % 2 = 1)
  let ex := bits / 2^(F.p - 1) % 2^F.ebits
  let man := bits % 2^(F.p - 1)
  if ex = 0 then
    if man = 0 then .zero neg
    else .fin neg (man * 2^(F.p - 1 - man.log2)) (F.emin + 1 + man.log2)
  else if ex = 2^F.ebits - 1 then
    if man = 0 then .inf neg else .nan
  else .fin neg (2^(F.p - 1) + man) (F.emin + (ex - 1) + F.p)

/-- The value of the shrinkable that is generated. Models /repo/proptest/generator/floating.cpp:13-14 and 21-22 with
`getRandomUInt32` and `getRandomUInt64`. -/
def arbiValue {σ : Type} (R : Rng σ) (F : Fmt) (s : σ) : Outcome (Fl × σ) := do
  let (raw, s) ← Random.uniform R 0 (2^(F.ebits + F.p) - 1) s
  pure (ofBits F raw.toNat, s)

/-- Models `Arbi<float>::operator()` and `Arbi<double>::operator()`, /repo/proptest/generator/floating.cpp:11-25. The shrinks are
explored eagerly: undefined if there is undefined behaviour when somebody looks at all shrinks. -/
def arbi {σ : Type} (R : Rng σ) (F : Fmt) : Gen σ Fl := fun s => do
  let (value, s) ← arbiValue R F s
  let shrinks ← shrinkFloat F value
  pure ((leaf value).withShrinks shrinks, s)

end Floating
end Verif
