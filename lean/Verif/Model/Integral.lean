import Verif.Model.BinSearch
import Verif.Model.Random
/-
Integer generators: /repo/proptest/generator/integral.hpp, integral.cpp; bool:
/repo/proptest/generator/bool.cpp, /repo/proptest/shrinker/bool.cpp.
-/
namespace Verif
namespace Integral
open Shr BinSearch Random
variable {σ : Type}

/-- Models `Arbi<T>::boundaryValues`: int8_t /repo/proptest/generator/integral.hpp:74-75, int16_t 86-103,
int32_t 115-141, int64_t 153-188, uint8_t 210-211, uint16_t 222-235, uint32_t 247-266, uint64_t 278-300.
Entries are written with the macros' values. -/
def boundaryValues (T : IntType) : List Int :=
  let s8 : List Int := [-128, 127, 255, -129, -127, 126, 128, 254, 256]
  let s16 : List Int := [-32768, 32767, 65535, -32769, -32767, 32766, 32768, 65534, 65536]
  if T = .i8 then [-128, 0, 127, -1, 1, -2, 2, -127, 126, 32, 34, 39, 9, 10, 13]
  else if T = .i16 then [0, -1, 1, -2, 2, -32768, 32767, -32767, 32766] ++ s8
  else if T = .i32 then
    [0, -1, 1, -2, 2, -2147483648, 2147483647, -2147483647, 2147483646] ++ s16 ++ s8
  else if T = .i64 then
    [0, -1, 1, -2, 2, -9223372036854775808, 9223372036854775807, -9223372036854775807,
      9223372036854775806] ++
    [-2147483648, 2147483647, 4294967295, -2147483649, -2147483647, 2147483646, 2147483648,
      4294967294, 4294967296] ++ s16 ++ s8
  else if T = .u8 then [0, 1, 2, 255, 254, 127, 126, 128, 32, 34, 39, 9, 10, 13]
  else if T = .u16 then
    [0, 1, 2, 65535, 65534, 32767, 32766, 32768, 127, 255, 128, 126, 254, 256]
  else if T = .u32 then
    [0, 1, 2, 4294967295, 4294967294, 2147483647, 2147483646, 2147483648,
      32767, 65535, 32766, 32768, 65534, 65536, 127, 255, 128, 126, 254, 256]
  else
    [0, 1, 2, 18446744073709551615, 18446744073709551614,
      2147483647, 4294967295, 2147483646, 2147483648, 4294967294, 4294967296,
      32767, 65535, 32766, 32768, 65534, 65536, 127, 255, 128, 126, 254, 256]

/-- Models the two functors' `static_cast<T>(_value + min)` with `_value : uint64_t`,
/repo/proptest/generator/integral.hpp:22-33: both operands are converted to 64-bit unsigned. -/
def addU64 (T : IntType) (base v : Int) : Int :=
  T.wrap (IntType.u64.wrap (IntType.u64.wrap v + IntType.u64.wrap base))

/-- Models the part of `generateInteger` that builds the shrinkable from the drawn value,
/repo/proptest/generator/integral.hpp:46-63. -/
def shrinkableOf (T : IntType) (min max value : Int) : Outcome (Shr Int) :=
  if value < min ∨ max < value then .throws .runtimeError
  else if min ≥ 0 then do
    let d ← T.arith (value - min)
    let t ← binarySearchShrinkableU (IntType.u64.wrap (T.wrap d))
    pure (t.map (addU64 T min))
  else if max ≤ 0 then do
    let d ← T.arith (value - max)
    let t ← binarySearchShrinkable (IntType.i64.wrap (T.wrap d))
    pure (t.map (addU64 T max))
  else do
    let t ← binarySearchShrinkable (IntType.i64.wrap value)
    pure (t.map T.wrap)

/-- Models the drawing part of `generateInteger`, /repo/proptest/generator/integral.hpp:39-44, for a given
`getRandom` function and boundary table. Reading the table out of bounds would be `ub`. -/
def drawValue (R : Rng σ) (T : IntType) (table : List Int)
    (rand : Int → Int → σ → Outcome (Int × σ)) (min max : Int) (s : σ) : Outcome (Int × σ) :=
  if min = T.lo ∧ max = T.hi then
    let (b, s') := getRandomBool R half s
    if b then do
      let (i, s'') ← getRandomSize R 0 table.length s'
      match table[i.toNat]? with
      | some v => pure (v, s'')
      | none => .ub
    else rand min max s'
  else rand min max s

/-- Models `generateInteger<T>`, /repo/proptest/generator/integral.hpp:36-64. -/
def generateInteger (R : Rng σ) (T : IntType) (min max : Int) (s : σ) : Outcome (Shr Int × σ) := do
  let (v, s') ← drawValue R T (boundaryValues T) (getRandomT R T) min max s
  let t ← shrinkableOf T min max v
  pure (t, s')

/-- Models `Arbi<T>::operator()` for the eight types, /repo/proptest/generator/integral.cpp:47-85, with
the default bounds of /repo/proptest/generator/integral.hpp:37. -/
def arbiInt (R : Rng σ) (T : IntType) (s : σ) : Outcome (Shr Int × σ) := generateInteger R T T.lo T.hi s

/-- Models `Arbi<char>::operator()`, /repo/proptest/generator/integral.cpp:42-45, on platforms with signed
`char` (table {0}, /repo/proptest/generator/integral.hpp:199). -/
def arbiChar (R : Rng σ) (s : σ) : Outcome (Shr Int × σ) := do
  let (v, s') ← drawValue R .i8 [0] (getRandomChar R) (-128) 127 s
  let t ← shrinkableOf .i8 (-128) 127 v
  pure (t, s')

/-- The same on platforms where `char` is unsigned: `getRandomU<char>`, /repo/proptest/Random.cpp:147-151. -/
def arbiCharUnsigned (R : Rng σ) (s : σ) : Outcome (Shr Int × σ) := do
  let (v, s') ← drawValue R .u8 [0] (getRandomT R .u8) 0 255 s
  let t ← shrinkableOf .u8 0 255 v
  pure (t, s')

/-- Models `interval(min, max)`, /repo/proptest/generator/integral.hpp:322-327 and 371-375. -/
def interval (R : Rng σ) (T : IntType) (min max : Int) (s : σ) : Outcome (Shr Int × σ) :=
  generateInteger R T min max s

/-- Models `natural(max)`, /repo/proptest/generator/integral.hpp:307-312 and 351-355. -/
def natural (R : Rng σ) (T : IntType) (max : Int) (s : σ) : Outcome (Shr Int × σ) :=
  generateInteger R T 1 max s

/-- Models `nonNegative(max)`, /repo/proptest/generator/integral.hpp:314-319 and 361-365. -/
def nonNegative (R : Rng σ) (T : IntType) (max : Int) (s : σ) : Outcome (Shr Int × σ) :=
  generateInteger R T 0 max s

/-- Models `inRange(from, to)`, /repo/proptest/generator/integral.hpp:330-336 and 381-385: `to - 1` is
computed in the promoted type and converted to `T` by the call. -/
def inRange (R : Rng σ) (T : IntType) (frm to : Int) (s : σ) : Outcome (Shr Int × σ) := do
  let e ← T.arith (to - 1)
  generateInteger R T frm (T.wrap e) s

/-- Models `integers(start, count)`, /repo/proptest/generator/integral.hpp:338-343 and 391-395:
`static_cast<T>(start + count - 1)`, both operations in the promoted type. -/
def integers (R : Rng σ) (T : IntType) (start count : Int) (s : σ) : Outcome (Shr Int × σ) := do
  let a ← T.arith (start + count)
  let e ← T.arith (a - 1)
  generateInteger R T start (T.wrap e) s

/-- Models `shrinkBool`, /repo/proptest/shrinker/bool.cpp:5-12. -/
def shrinkBool (value : Bool) : Shr Bool :=
  if value then (leaf value).withShrinks [leaf false] else leaf value

/-- Models `Arbi<bool>::operator()`, /repo/proptest/generator/bool.cpp:7-11, for the threshold `thr` of
`getRandomBool`. -/
def arbiBool (R : Rng σ) (thr : Option Nat) (s : σ) : Outcome (Shr Bool × σ) :=
  let (b, s') := getRandomBool R thr s
  .ok (shrinkBool b, s')

end Integral
end Verif
