import Verif.Model.Context
import Verif.Model.Double
import Verif.Model.Printing
/-
The percentages of the tag statistics: /repo/proptest/PropertyContext.cpp.
-/
namespace Verif
namespace Context
open Printing
variable {K V : Type}

/-- Models `static_cast<double>(tag.count) / total * 100`, /repo/proptest/PropertyContext.cpp:107: both numbers are
converted to `double`, the quotient and the product are rounded. -/
def percent (count total : Nat) : ℚ := rne (rne (rne count / rne total) * 100)

/-- The text of the percentage, /repo/proptest/PropertyContext.cpp:107, written with the six digits that `cout` uses
(`showFl` in Model/Printing.lean); the count of a tag is positive, and so is the percentage. -/
def percentText (count total : Nat) : Text :=
  let q := percent count total
  if q = 0 then [48] else formatG (sixDigits q.num.toNat q.den).1 (sixDigits q.num.toNat q.den).2

/-- Models the text after the value in a line of `PropertyContext::printSummary`,
/repo/proptest/PropertyContext.cpp:106-107: ": count/total (percentage%)". -/
def countText (count total : Nat) : Text :=
  [58, 32] ++ dec count ++ [47] ++ dec total ++ [32, 40] ++ percentText count total ++ [37, 41]

/-- Models the lines of `PropertyContext::printSummary`, /repo/proptest/PropertyContext.cpp:91-110, for each key. -/
def summaryTexts (tags : Tags K V) : List (K × List (V × Text)) :=
  (printSummary tags).map fun (key, rows) => (key, rows.map fun (value, count, total) => (value, countText count total))

end Context
end Verif
