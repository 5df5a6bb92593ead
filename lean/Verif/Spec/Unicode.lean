import Verif.Model.Unicode
/-! Vocabulary for the Unicode claims, independent of the model's helpers. The Unicode scalar values are Lean's
`Nat.isValidChar`. -/
namespace Verif
namespace Unicode

/-- The bytes of a sequence of code points under an encoder; fails if the encoder rejects one of them.
A specification (no file of /repo). -/
def encodeAll (enc : Nat → Outcome (List Nat)) : List Nat → Outcome (List Nat)
  | [] => .ok []
  | c :: cs => do
    let bs ← enc c
    let rest ← encodeAll enc cs
    .ok (bs ++ rest)

/-- All entries are bytes. A specification (no file of /repo). -/
def Bytes (cs : List Nat) : Prop := ∀ x ∈ cs, x < 256

/-- The UTF-16 code units of a scalar value (RFC 2781, section 2.1). A specification (no file of /repo). -/
def units (c : Nat) : List Nat :=
  if c < 0x10000 then [c] else [0xD800 + (c - 0x10000) / 0x400, 0xDC00 + (c - 0x10000) % 0x400]

/-- Big-endian bytes of a 16-bit unit. A specification (no file of /repo). -/
def be (u : Nat) : List Nat := [u / 0x100, u % 0x100]

/-- Little-endian bytes of a 16-bit unit. A specification (no file of /repo). -/
def le (u : Nat) : List Nat := [u % 0x100, u / 0x100]

/-- The 1-3 byte form CESU-8 uses for a 16-bit unit (Unicode technical report 26). A specification (no file of
/repo). -/
def cesu (u : Nat) : List Nat :=
  if u < 0x80 then [u]
  else if u < 0x800 then [0xC0 + u / 0x40, 0x80 + u % 0x40]
  else [0xE0 + u / 0x1000, 0x80 + u / 0x40 % 0x40, 0x80 + u % 0x40]

/-- The bytes an item of the printed text stands for, given the encoding of characters. A specification (no file
of /repo). -/
def Tok.source (enc : Nat → Outcome (List Nat)) : Tok → List Nat
  | .ascii b => [b]
  | .wide b => (match enc b with | .ok bs => bs | _ => [])
  | .hex b => [b]
  | .code c => (match enc c with | .ok bs => bs | _ => [])

end Unicode
end Verif
