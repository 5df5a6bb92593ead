import Verif.Model.Random
import Verif.Model.Printing
/-
Where the seed of a run comes from and how it is reported: /repo/proptest/Property.cpp, /repo/proptest/Property.hpp.
-/
namespace Verif
namespace Seed
open Printing Random

/-- `isspace`, which `atoll` skips, /repo/proptest/Property.cpp:14. -/
def isSpace (c : Nat) : Bool := c == 32 || (9 ≤ c && c ≤ 13)

/-- `isdigit`, /repo/proptest/Property.cpp:14. -/
def isDigit (c : Nat) : Bool := 48 ≤ c && c ≤ 57

/-- The number that the digits at the front of a text stand for, /repo/proptest/Property.cpp:14. -/
def leading (t : Text) : Nat := (t.takeWhile isDigit).foldl (fun n c => 10 * n + (c - 48)) 0

/-- Models `atoll`, called in /repo/proptest/Property.cpp:14: blanks, an optional sign and digits; what follows is ignored.
The behaviour is undefined for numbers outside the range of `long long` (the C library of the GNU system gives the nearest
bound). -/
def atoll (t : Text) : Outcome Int :=
  let v : Int := match t.dropWhile isSpace with
    | 45 :: r => -leading r
    | 43 :: r => leading r
    | r => leading r
  if -2^63 ≤ v ∧ v < 2^63 then .ok v else .ub

/-- Models `getGlobalSeed`, /repo/proptest/Property.cpp:10-19: `env` is the value of `PROPTEST_SEED`, `time` is the result of
`getCurrentTime` in the first call. -/
def getGlobalSeed (env : Option Text) (time : Int) : Outcome Int :=
  match env with
  | some t => do
    let v ← atoll t
    .ok (IntType.u64.wrap v)
  | none => .ok (IntType.u64.wrap time)

/-- Models what follows `random seed: ` in the output of `forAll`, /repo/proptest/Property.hpp:197 (also
/repo/proptest/stateful/concurrency_class.hpp:127, /repo/proptest/stateful/concurrency_function.hpp:134). -/
def reported (seed : Nat) : Text := dec seed

end Seed
end Verif
