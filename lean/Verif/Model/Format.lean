import Verif.Model.Printing
/-
How printing uses the format settings of a stream: /repo/proptest/util/misc.hpp, /repo/proptest/util/unicode.cpp,
/repo/proptest/util/cesu8string.cpp, /repo/proptest/util/printing.hpp, /repo/proptest/util/printing.cpp.

Model/Printing.lean has the same functions without the settings. The settings are the base of integers, the fill character
and the field width; not modelled are the other flags (showbase, uppercase, adjustment, ...), the precision and the locale.
-/
namespace Verif
namespace Printing
open Unicode Floating
variable {α β κ : Type}

/-- A `std::ostream`: the characters written to it and its format settings (`flags() & hex`, `fill()`, `width()`). Models the
parameter `os` of /repo/proptest/util/printing.hpp:12-52. -/
structure Sink where
  out : Text
  hex : Bool
  fill : Nat
  width : Nat
deriving DecidableEq, Repr

/-- Hexadecimal digits, as `os << hex << n` writes them. No particular code of /repo. -/
def hexDigits (n : Nat) : Text := if n < 16 then [hexDigit n] else hexDigits (n / 16) ++ [hexDigit (n % 16)]
termination_by n

namespace Sink

/-- `os << text` in the standard library: fills up to the width, which then is reset. Used throughout
/repo/proptest/util/printing.hpp. -/
def put (t : Text) (o : Sink) : Sink := { o with out := o.out ++ List.replicate (o.width - t.length) o.fill ++ t, width := 0 }

/-- `os << n` for integers, in the base of the stream, as in /repo/proptest/util/printing.cpp:60-112. Simplified: in base 16
negative numbers are written as if all integers had 64 bits. -/
def putInt (i : Int) (o : Sink) : Sink :=
  o.put (if o.hex then hexDigits (i % 2^64).toNat else if i < 0 then 45 :: dec i.natAbs else dec i.natAbs)

/-- `setfill('0') << setw(w) << hex << n`, as in /repo/proptest/util/unicode.cpp:13. -/
def putHex (w n : Nat) (o : Sink) : Sink := { o with fill := 48, width := w, hex := true }.putInt n

/-- Models the life of an `IosFlagSaver`, /repo/proptest/util/misc.hpp:7-19 with
/repo/proptest/util/utf8string.cpp:19-23: the flags are put back at the end; they do not contain fill and width. -/
def saved (f : Sink → Sink) (o : Sink) : Sink := { f o with hex := o.hex }

/-- Models `validChar` (`w` is 2, `x` is the letter), /repo/proptest/util/unicode.cpp:91-102, `validCESU8Char`,
/repo/proptest/util/cesu8string.cpp:19-30, and `validChar2` (4, `u`), /repo/proptest/util/unicode.cpp:104-115. -/
def putChar (x w c : Nat) (o : Sink) : Sink :=
  if c = 92 then o.put [92, 92]
  else if c < 0x20 ∨ c = 0x7f then saved (fun o => (o.put [92, x]).putHex w c) o
  else o.put [c]

/-- Models `charAsHex(ostream&, uint8_t)`, /repo/proptest/util/unicode.cpp:32-37, and `cesu8AsHex`,
/repo/proptest/util/cesu8string.cpp:55-60. -/
def byteAsHex (c : Nat) (o : Sink) : Sink := saved (fun o => (o.put [92, 120]).putHex 2 c) o

/-- Models `codepage`, /repo/proptest/util/unicode.cpp:8-23. -/
def codepage (c : Nat) (o : Sink) : Sink :=
  saved (fun o =>
    if c < 0x10000 then ((o.put [92, 117]).putHex 2 (c / 2^8 % 2^8)).putHex 2 (c % 2^8)
    else (((o.put [92, 85]).putHex 2 (c / 2^16 % 2^8)).putHex 2 (c / 2^8 % 2^8)).putHex 2 (c % 2^8)) o

/-- Models the printing of one item of a string, see `Tok` in Model/Unicode.lean: /repo/proptest/util/unicode.cpp:8-23, 32-37,
91-115, /repo/proptest/util/cesu8string.cpp:19-30, 55-60. -/
def tok : Tok → Sink → Sink
  | .ascii c => putChar 120 2 c
  | .wide c => putChar 117 4 c
  | .hex c => byteAsHex c
  | .code c => codepage c

/-- Models the loop of `charAsHex(ostream&, const string&)`, /repo/proptest/util/unicode.cpp:85-87. -/
def restAsHex : List Nat → Sink → Sink
  | [], o => o
  | c :: cs, o => restAsHex cs ((o.put [32]).putHex 2 c)

/-- Models `charAsHex(ostream&, const string&)`, /repo/proptest/util/unicode.cpp:78-89. -/
def asHex (cs : List Nat) (o : Sink) : Sink :=
  saved (fun o =>
    match cs with
    | [] => o
    | c :: cs => restAsHex cs (o.putHex 2 c)) o

end Sink

/-- A `show(os, value)`, /repo/proptest/util/printing.hpp:12-52: what becomes of the stream. -/
abbrev Writer (α : Type) := α → Sink → Outcome Sink

/-- Models `show(ostream&, const bool&)`, /repo/proptest/util/printing.cpp:54-58. -/
def writeBool : Writer Bool := fun b o => .ok (o.put (if b then [116, 114, 117, 101] else [102, 97, 108, 115, 101]))

/-- Models `show` of integers, /repo/proptest/util/printing.cpp:60-112. -/
def writeInt : Writer Int := fun i o => .ok (o.putInt i)

/-- Models `show` of `float` and `double`, /repo/proptest/util/printing.cpp:114-124; the base does not matter for them. -/
def writeFl (F : Fmt) : Writer Fl := fun x o => do
  let t ← showFl F x
  .ok (o.put t)

/-- Models `show` of strings, /repo/proptest/util/printing.cpp:24-52, see `showStr` in Model/Printing.lean. -/
def writeStr (print : List Nat → Outcome (List Tok)) : Writer (List Nat) := fun cs o => do
  let ts ← print cs
  .ok (((ts.foldl (fun o t => o.tok t) (o.put [34])).put [34, 32, 40]).asHex cs |>.put [41])

/-- Models `for (auto itr = ++begin; itr != seq.end(); itr++) os << ", " << Show<T>(*itr)`,
/repo/proptest/util/printing.hpp:191-193, 206-208, 224-226, 243-245. -/
def writeRest (w : Writer α) : Writer (List α)
  | [], o => .ok o
  | x :: xs, o => do
    let o ← w x (o.put [44, 32])
    writeRest w xs o

/-- Models the common part of `show` of `vector`, `list`, `set` and `map`, /repo/proptest/util/printing.hpp:184-250: `l` and
`r` are the brackets. -/
def writeSeq (l r : Nat) (w : Writer α) : Writer (List α) := fun xs o => do
  let o := o.put [l, 32]
  let o ← match xs with
    | [] => .ok o
    | x :: xs => do
      let o ← w x o
      writeRest w xs o
  .ok (o.put [32, r])

/-- Models `show` of `pair`, /repo/proptest/util/printing.hpp:165-170. -/
def writePair (w : Writer α) (v : Writer β) : Writer (α × β) := fun x o => do
  let o ← w x.1 (o.put [40, 32])
  let o ← v x.2 (o.put [44, 32])
  .ok (o.put [32, 41])

/-- Models `toStreamFront`, /repo/proptest/util/printing.hpp:138-161, for the first `k` elements of a tuple. -/
def writeFront {n : Nat} {A : Fin n → Type} (w : (i : Fin n) → Writer (A i)) (x : (i : Fin n) → A i) : Nat → Sink → Outcome Sink
  | 0, o => .ok o
  | k + 1, o => do
    let o ← writeFront w x k o
    if h : k < n then do
      let o ← w ⟨k, h⟩ (x ⟨k, h⟩) o
      .ok (o.put [44, 32])
    else .ok o

/-- Models `show` of `tuple`, /repo/proptest/util/printing.hpp:172-182, for `n + 1` elements. -/
def writeTuple {n : Nat} {A : Fin (n + 1) → Type} (w : (i : Fin (n + 1)) → Writer (A i)) :
    Writer ((i : Fin (n + 1)) → A i) := fun x o => do
  let o ← writeFront w x n (o.put [123, 32])
  let o ← w (Fin.last n) (x (Fin.last n)) o
  .ok (o.put [32, 125])

/-- Models `show` of `shared_ptr` and `Nullable`, /repo/proptest/util/printing.hpp:252-270. -/
def writeNullable (w : Writer α) : Writer (Option α)
  | none, o => .ok (o.put [40, 110, 117, 108, 108, 41])
  | some a, o => w a o

/-- Models `ShowDefault`, /repo/proptest/util/printing.hpp:75-95. -/
def writeDefault : Writer α := fun _ o => .ok (o.put [60, 63, 63, 63, 62])

end Printing
end Verif
