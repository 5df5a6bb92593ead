import Verif.Model.Context
import Verif.Model.Printing
/-
The macros that compare strings given by pointers.
-/
namespace Verif
namespace CString
open Context Printing

/-- What `PROP_EXPECT_STREQ(a, b, n)` (`eq`) and `PROP_EXPECT_STRNE(a, b, n)` (not `eq`) do: nothing if the condition holds, else a
failure with the two strings shown. Models /repo/proptest/PropertyBase.hpp:30-31 and 35-36 with lines 8-19, and
`PROP_ASSERT_STREQ`, `PROP_ASSERT_STRNE`, /repo/proptest/assert.hpp:105-115 and 129-139. `a` and `b` are the bytes from the
pointers to the ends of the memory that may be read. Simplified: only the part of the message that depends on the bytes. -/
def compare (eq : Bool) (a b : List Nat) (n : Nat) : Outcome (Option (Text × Text)) := do
  let r ← memcmp a b n
  if decide (r = 0) = eq then pure none
  else do
    let x ← showChars a n
    let y ← showChars b n
    pure (some (x, y))

/-- The same for `PROP_EXPECT_STREQ2(a, b, n1, n2)` and `PROP_EXPECT_STRNE2(a, b, n1, n2)`. Models
/repo/proptest/PropertyBase.hpp:32-34 and 37-39 with lines 8-19, and `PROP_ASSERT_STREQ2`, `PROP_ASSERT_STRNE2`,
/repo/proptest/assert.hpp:117-128 and 141-152. -/
def compare2 (eq : Bool) (a b : List Nat) (n1 n2 : Nat) : Outcome (Option (Text × Text)) := do
  let r ← if eq then streq2 a b n1 n2 else strne2 a b n1 n2
  if r then pure none
  else do
    let x ← showChars a n1
    let y ← showChars b n2
    pure (some (x, y))

end CString
end Verif
