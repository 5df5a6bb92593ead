import Mathlib.Data.Int.Log
import Mathlib.Data.Rat.Floor
/-
The arithmetic on `double` that the combinators use: /repo/proptest/combinator/oneof.hpp,
/repo/proptest/combinator/intervals.cpp, /repo/proptest/generator/unicode.cpp.

IEEE 754 binary64 with rounding to nearest, ties to even, 53 significant bits. Simplified: the exponent is
unbounded (no overflow, no loss of precision near 0). The numbers occurring are weights in [0,1], their
sums, and 64-bit integers, for which sums of two doubles below the normal range are exact anyway.
-/
namespace Verif

/-- Rounding to the nearest integer, ties to even. IEEE 754 `roundTiesToEven`, used by every operation on
`double`, e.g. /repo/proptest/combinator/oneof.hpp:69, 81. -/
def roundEven (q : ℚ) : ℤ :=
  let f := ⌊q⌋
  if q - f < 1 / 2 then f else if 1 / 2 < q - f then f + 1 else if f % 2 = 0 then f else f + 1

/-- Rounding to 53 significant bits. IEEE 754 binary64, used by every operation on `double`, e.g.
/repo/proptest/combinator/oneof.hpp:69, 81. -/
def rne (q : ℚ) : ℚ :=
  if q = 0 then 0
  else
    let k : ℤ := 52 - Int.log 2 |q|
    roundEven (q * 2 ^ k) / 2 ^ k

/-- A `double`. Models the type `double` as used in /repo/proptest/combinator/oneof.hpp:37, 63 and
/repo/proptest/combinator/intervals.cpp:20. -/
inductive Dbl where
  | fin (q : ℚ)
  | inf (negative : Bool)
  | nan
deriving DecidableEq, Repr

namespace Dbl

/-- `a < b`; false if an operand is NaN. /repo/proptest/combinator/oneof.hpp:67, 77. -/
def lt : Dbl → Dbl → Bool
  | fin a, fin b => a < b
  | fin _, inf n => !n
  | inf n, fin _ => n
  | inf m, inf n => m && !n
  | _, _ => false

/-- `a == b`; false if an operand is NaN. /repo/proptest/combinator/oneof.hpp:70, 80. -/
def eq : Dbl → Dbl → Bool
  | fin a, fin b => a = b
  | inf m, inf n => m == n
  | _, _ => false

/-- `a + b`. /repo/proptest/combinator/oneof.hpp:69. -/
def add : Dbl → Dbl → Dbl
  | fin a, fin b => fin (rne (a + b))
  | fin _, inf n => inf n
  | inf n, fin _ => inf n
  | inf m, inf n => if m = n then inf m else nan
  | _, _ => nan

/-- `1.0 - a`. /repo/proptest/combinator/oneof.hpp:81. -/
def oneMinus : Dbl → Dbl
  | fin a => fin (rne (1 - a))
  | inf n => inf (!n)
  | nan => nan

/-- `a / b` for `b` converted from an integer that is not negative. /repo/proptest/combinator/oneof.hpp:81,
/repo/proptest/combinator/intervals.cpp:20, 44. Division by zero gives an infinity, `0/0` is NaN. -/
def divNat (a : Dbl) (b : ℕ) : Dbl :=
  match a with
  | fin a => if b = 0 then (if a = 0 then nan else inf (decide (a < 0))) else fin (rne (a / rne b))
  | inf n => inf n
  | nan => nan

/-- Conversion of an integer. /repo/proptest/combinator/intervals.cpp:20, 44,
/repo/proptest/combinator/oneof.hpp:81. -/
def ofInt (n : ℤ) : Dbl := fin (rne n)

end Dbl
end Verif
