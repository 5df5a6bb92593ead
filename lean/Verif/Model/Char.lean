import Verif.Model.Integral
/-
The generators of integers for the type `char`: /repo/proptest/generator/integral.hpp with the functions for `char` of
/repo/proptest/Random.cpp. On platforms with signed `char`, unless stated otherwise.
-/
namespace Verif
namespace Integral
open Shr Random
variable {σ : Type}

/-- Models `generateInteger<char>`, /repo/proptest/generator/integral.hpp:36-64: the numbers are drawn with
`getRandom<char>` (line 42, /repo/proptest/Random.cpp:117-121), the table of boundary values is `{0}` (line 199). -/
def generateChar (R : Rng σ) (min max : Int) (s : σ) : Outcome (Shr Int × σ) := do
  let (v, s') ← drawValue R .i8 [0] (getRandomChar R) min max s
  let t ← shrinkableOf .i8 min max v
  pure (t, s')

/-- Models `interval<char>(min, max)`, /repo/proptest/generator/integral.hpp:322-327 and 371-375. -/
def intervalChar (R : Rng σ) (min max : Int) (s : σ) : Outcome (Shr Int × σ) := generateChar R min max s

/-- Models `natural<char>(max)`, /repo/proptest/generator/integral.hpp:307-312 and 351-355. -/
def naturalChar (R : Rng σ) (max : Int) (s : σ) : Outcome (Shr Int × σ) := generateChar R 1 max s

/-- Models `nonNegative<char>(max)`, /repo/proptest/generator/integral.hpp:314-319 and 361-365. -/
def nonNegativeChar (R : Rng σ) (max : Int) (s : σ) : Outcome (Shr Int × σ) := generateChar R 0 max s

/-- Models `inRange<char>(from, to)`, /repo/proptest/generator/integral.hpp:330-336 and 381-385: `to - 1` is an `int`. -/
def inRangeChar (R : Rng σ) (frm to : Int) (s : σ) : Outcome (Shr Int × σ) :=
  generateChar R frm (IntType.i8.wrap (to - 1)) s

/-- Models `integers<char>(start, count)`, /repo/proptest/generator/integral.hpp:338-343 and 391-395. -/
def integersChar (R : Rng σ) (start count : Int) (s : σ) : Outcome (Shr Int × σ) :=
  generateChar R start (IntType.i8.wrap (start + count - 1)) s

/-- Models `interval<char>(min, max)` on platforms where `char` is unsigned: `getRandomU<char>`,
/repo/proptest/Random.cpp:147-151. -/
def intervalCharUnsigned (R : Rng σ) (min max : Int) (s : σ) : Outcome (Shr Int × σ) := do
  let (v, s') ← drawValue R .u8 [0] (getRandomT R .u8) min max s
  let t ← shrinkableOf .u8 min max v
  pure (t, s')

end Integral
end Verif
