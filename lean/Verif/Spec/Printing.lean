import Mathlib.Algebra.Order.Field.Rat
import Verif.Model.Printing
import Verif.Spec.Unicode
/-
Vocabulary for the properties of printed values: the types whose values the printed text is meant to identify, and the reading
of decimal notation.
-/
namespace Verif
namespace Printing
open Unicode

/-- The five overloads of `show` for strings, /repo/proptest/util/printing.cpp:24-52 (`string` and `UTF8String` are shown in
the same way). -/
inductive Enc where
  | utf8 | cesu8 | utf16be | utf16le

/-- How the characters of a string are shown, by its type. -/
def Enc.print : Enc → List Nat → Outcome (List Tok)
  | .utf8 => printUTF8
  | .cesu8 => printCESU8
  | .utf16be => printUTF16BE
  | .utf16le => printUTF16LE

/-- Types of arguments of properties: integers stand for all integral types, `set` for sets of integers of at least 16 bits,
`nullable` for `Nullable` and `shared_ptr`, `vec` for `vector` and `list`. -/
inductive Ty where
  | bool
  | int
  | str (e : Enc)
  | vec (t : Ty)
  | pair (t u : Ty)
  | tuple (n : Nat) (ts : Fin (n + 1) → Ty)
  | set
  | map (k v : Ty)
  | nullable (t : Ty)

/-- The values of a type. Strings are sequences of bytes, sets and maps are given by their elements in order. -/
def Ty.Val : Ty → Type
  | .bool => Bool
  | .int => Int
  | .str _ => {cs : List Nat // Bytes cs}
  | .vec t => List t.Val
  | .pair t u => t.Val × u.Val
  | .tuple n ts => (i : Fin (n + 1)) → (ts i).Val
  | .set => List Int
  | .map k v => List (k.Val × v.Val)
  | .nullable t => Option t.Val

/-- The overload of `show` that is chosen for a type. -/
def Ty.show : (t : Ty) → Printer t.Val
  | .bool => showBool
  | .int => showInt
  | .str e => fun s => showStr e.print s.1
  | .vec t => showVector t.show
  | .pair t u => showPair t.show u.show
  | .tuple _ ts => showTuple fun i => (ts i).show
  | .set => showSet putInt
  | .map k v => showMap k.show v.show
  | .nullable t => showNullable t.show

/-- No `Nullable` of a `Nullable` anywhere in the type. -/
def Ty.NoNestedNull : Ty → Prop
  | .bool => True
  | .int => True
  | .str _ => True
  | .vec t => t.NoNestedNull
  | .pair t u => t.NoNestedNull ∧ u.NoNestedNull
  | .tuple _ ts => ∀ i, (ts i).NoNestedNull
  | .set => True
  | .map k v => k.NoNestedNull ∧ v.NoNestedNull
  | .nullable (.nullable _) => False
  | .nullable t => t.NoNestedNull

/-- The number a sequence of decimal digits stands for. -/
def natOf (t : Text) : Nat := t.foldl (fun n c => 10 * n + (c - 48)) 0

/-- The integer a text stands for: digits with or without a sign. -/
def readInt (t : Text) : Int :=
  if t.head? = some 45 then -natOf (t.drop 1) else if t.head? = some 43 then natOf (t.drop 1) else natOf t

/-- The number a text stands for: an optional sign, digits, optionally a point and digits, optionally `e` and an exponent. -/
def readDec (t : Text) : ℚ :=
  let neg := t.head? = some 45
  let body := if neg then t.drop 1 else t
  let mant := body.takeWhile (· != 101)
  let exp := (body.dropWhile (· != 101)).drop 1
  let whole := mant.takeWhile (· != 46)
  let frac := (mant.dropWhile (· != 46)).drop 1
  (if neg then -1 else 1) * natOf (whole ++ frac) * 10^(readInt exp - frac.length)

end Printing
end Verif
