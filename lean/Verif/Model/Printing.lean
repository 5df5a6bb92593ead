import Mathlib.Data.Nat.Log
import Verif.Model.Unicode
import Verif.Model.Floating
/-
How values are printed in reports ("with args: ...", "simplest args found by shrinking: ..."):
/repo/proptest/util/printing.hpp, /repo/proptest/util/printing.cpp.

A text is a list of character codes: 32 is a space, 44 a comma, 40 and 41 are round, 91 and 93 square, 123 and 125 curly
brackets, 34 is a double quote. Printing a string can be undefined (C65), so a printer has an `Outcome`.

The format settings of the stream (base, fill character, field width) are those of a fresh stream here; Model/Format.lean has
them.
-/
namespace Verif
namespace Printing
open Unicode Floating
variable {α β κ : Type}

/-- The characters written. No particular code of /repo. -/
abbrev Text := List Nat

/-- What `show(os, value)` writes. Models the overloads of `show`, /repo/proptest/util/printing.hpp:12-52. -/
abbrev Printer (α : Type) := α → Outcome Text

/-- Decimal digits, as `os << n` writes them. No particular code of /repo. -/
def dec (n : Nat) : Text := if n < 10 then [48 + n] else dec (n / 10) ++ [48 + n % 10]
termination_by n

/-- Models `show` of integers of all types (the 8-bit types are converted to `int`),
/repo/proptest/util/printing.cpp:60-112. -/
def showInt : Printer Int := fun i => .ok (if i < 0 then 45 :: dec i.natAbs else dec i.natAbs)

/-- Models `show(ostream&, const bool&)`, /repo/proptest/util/printing.cpp:54-58: `true`, `false`. -/
def showBool : Printer Bool := fun b => .ok (if b then [116, 114, 117, 101] else [102, 97, 108, 115, 101])

/-- Models `charAsHex(ostream&, const string&)`, /repo/proptest/util/unicode.cpp:78-89. -/
def asHex : List Nat → Text
  | [] => []
  | [b] => hex2 b
  | b :: bs => hex2 b ++ 32 :: asHex bs

/-- Models `show` of `string`, `UTF8String`, `CESU8String`, `UTF16BEString` and `UTF16LEString`,
/repo/proptest/util/printing.cpp:24-52, which differ in how the characters are shown (`print`): the characters in quotes,
then the bytes in parentheses. -/
def showStr (print : List Nat → Outcome (List Tok)) : Printer (List Nat) := fun cs => do
  let ts ← print cs
  .ok ([34] ++ ts.flatMap Tok.text ++ [34, 32, 40] ++ asHex cs ++ [41])

/-- Models `validString`, /repo/proptest/util/unicode.cpp:25-30: every byte on its own, no decoding. -/
def printBytes (cs : List Nat) : Outcome (List Tok) := .ok (cs.map .ascii)

/-- Models `show(ostream&, const char*, size_t)`, /repo/proptest/util/printing.cpp:10-15: `mem` are the bytes from the pointer
to the end of the memory that may be read. -/
def showChars (mem : List Nat) (len : Nat) : Outcome Text :=
  if len ≤ mem.length then showStr printBytes (mem.take len) else .ub

/-- Models `show(ostream&, const char*)`, /repo/proptest/util/printing.cpp:17-22: the bytes before the first zero, in
parentheses. -/
def showCStr (mem : List Nat) : Outcome Text :=
  if 0 ∈ mem then .ok ([40] ++ asHex (mem.takeWhile (· ≠ 0)) ++ [41]) else .ub

/-- Models `for (auto itr = ++begin; itr != seq.end(); itr++) os << ", " << Show<T>(*itr)`,
/repo/proptest/util/printing.hpp:191-193, 206-208, 224-226, 243-245. -/
def showRest (p : Printer α) : List α → Outcome Text
  | [] => .ok []
  | x :: xs => do
    let t ← p x
    let r ← showRest p xs
    .ok ([44, 32] ++ t ++ r)

/-- Models the common part of `show` of `vector`, `list`, `set` and `map`, /repo/proptest/util/printing.hpp:184-250: `o` and
`c` are the brackets. -/
def showSeq (o c : Nat) (p : Printer α) : Printer (List α) := fun xs => do
  let body ← match xs with
    | [] => .ok []
    | x :: xs => do
      let t ← p x
      let r ← showRest p xs
      .ok (t ++ r)
  .ok ([o, 32] ++ body ++ [32, c])

/-- Models `show` of `vector` and `list`, /repo/proptest/util/printing.hpp:184-212. -/
def showVector (p : Printer α) : Printer (List α) := showSeq 91 93 p

/-- Models `show` of `pair`, /repo/proptest/util/printing.hpp:165-170. -/
def showPair (p : Printer α) (q : Printer β) : Printer (α × β) := fun x => do
  let t ← p x.1
  let u ← q x.2
  .ok ([40, 32] ++ t ++ [44, 32] ++ u ++ [32, 41])

/-- Models `toStreamFront`, /repo/proptest/util/printing.hpp:138-161, for the first `k` elements of a tuple. -/
def showFront {n : Nat} {A : Fin n → Type} (p : (i : Fin n) → Printer (A i)) (x : (i : Fin n) → A i) : Nat → Outcome Text
  | 0 => .ok []
  | k + 1 => do
    let r ← showFront p x k
    if h : k < n then do
      let t ← p ⟨k, h⟩ (x ⟨k, h⟩)
      .ok (r ++ t ++ [44, 32])
    else .ok r

/-- Models `show` of `tuple`, /repo/proptest/util/printing.hpp:172-182, for `n + 1` elements (a tuple without elements does
not compile). The arguments of a property are shown this way, the values of the shrinkables standing for the shrinkables
(97-102). -/
def showTuple {n : Nat} {A : Fin (n + 1) → Type} (p : (i : Fin (n + 1)) → Printer (A i)) :
    Printer ((i : Fin (n + 1)) → A i) := fun x => do
  let r ← showFront p x n
  let t ← p (Fin.last n) (x (Fin.last n))
  .ok ([123, 32] ++ r ++ t ++ [32, 125])

/-- Models `show` of `set`, /repo/proptest/util/printing.hpp:214-231: the elements are written with `<<` (`put`), not with
`show`. A set is given by its elements in increasing order. -/
def showSet (put : Printer α) : Printer (List α) := showSeq 123 125 put

/-- `os << str` for a `string`, used for the elements of sets, /repo/proptest/util/printing.hpp:219, 221, 225. -/
def putString : Printer (List Nat) := fun cs => .ok cs

/-- `os << n` for integers of at least 16 bits, used for the elements of sets, /repo/proptest/util/printing.hpp:219, 221,
225. -/
def putInt : Printer Int := showInt

/-- Models `show` of `map`, /repo/proptest/util/printing.hpp:233-250. A map is given by its entries in increasing order of
the keys. -/
def showMap (p : Printer κ) (q : Printer β) : Printer (List (κ × β)) := showSeq 123 125 (showPair p q)

/-- Models `show` of `shared_ptr` and `Nullable`, /repo/proptest/util/printing.hpp:252-270: `(null)` or what is pointed
to. -/
def showNullable (p : Printer α) : Printer (Option α)
  | none => .ok [40, 110, 117, 108, 108, 41]
  | some a => p a

/-- Models `ShowDefault`, /repo/proptest/util/printing.hpp:75-95, which `show` falls back to for types without an overload:
`<???>`. -/
def showDefault : Printer α := fun _ => .ok [60, 63, 63, 63, 62]

/-! Floating point numbers, `os << val` (/repo/proptest/util/printing.cpp:114-124): the standard library writes them as `printf`
does for `%g`, with 6 significant digits. -/

/-- The decimal exponent of `n / d`: `10^expo ≤ n / d < 10^(expo + 1)`. No particular code of /repo. -/
def expo (n d : Nat) : Int := if d ≤ n then Nat.log 10 (n / d) else -(Nat.clog 10 ((d + n - 1) / n) : Int)

/-- `n / d` rounded to the nearest integer, to the even one in the middle. No particular code of /repo. -/
def roundEven (n d : Nat) : Nat :=
  if 2 * (n % d) < d ∨ (2 * (n % d) = d ∧ n / d % 2 = 0) then n / d else n / d + 1

/-- The six digits and the exponent of `%.5e`. No particular code of /repo. -/
def sixDigits (n d : Nat) : Nat × Int :=
  let x := expo n d
  let m := roundEven (n * 10^(5 - x).toNat) (d * 10^(x - 5).toNat)
  if m = 10^6 then (10^5, x + 1) else (m, x)

/-- Removes zeros at the end. No particular code of /repo. -/
def strip (t : Text) : Text := (t.reverse.dropWhile (· == 48)).reverse

/-- Digits before and after the decimal point. No particular code of /repo. -/
def point (i f : Text) : Text := if strip f = [] then i else i ++ 46 :: strip f

/-- `%g` for six digits `m` and exponent `x`. No particular code of /repo. -/
def formatG (m : Nat) (x : Int) : Text :=
  if -4 ≤ x ∧ x < 6 then
    if 0 ≤ x then point ((dec m).take (x.toNat + 1)) ((dec m).drop (x.toNat + 1))
    else point [48] (List.replicate (-x - 1).toNat 48 ++ dec m)
  else
    point ((dec m).take 1) ((dec m).drop 1) ++ 101 :: (if x < 0 then 45 else 43) ::
      (if x.natAbs < 10 then 48 :: dec x.natAbs else dec x.natAbs)

/-- Models `show` of `float` and `double`, /repo/proptest/util/printing.cpp:114-124 (a `float` is written with the digits of the
equal `double`). Simplified: the sign of NaN, which the model does not have, is not shown. -/
def showFl (F : Fmt) : Printer Fl
  | .nan => .ok [110, 97, 110]
  | .inf neg => .ok ((if neg then [45] else []) ++ [105, 110, 102])
  | .zero neg => .ok ((if neg then [45] else []) ++ [48])
  | .fin neg f e =>
    let (m, x) := sixDigits (f * 2^(e - F.p).toNat) (2^(F.p - e).toNat)
    .ok ((if neg then [45] else []) ++ formatG m x)

end Printing
end Verif
