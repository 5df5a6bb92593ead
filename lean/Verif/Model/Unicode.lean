import Verif.Model.Containers
/-
Unicode encodings: /repo/proptest/util/utf8string.cpp, utf16string.cpp, cesu8string.cpp, unicode.cpp,
/repo/proptest/shrinker/stringlike.hpp, /repo/proptest/generator/utf8string.cpp, utf16string.cpp,
cesu8string.cpp.

Bytes and code points are natural numbers (bytes below 256, codes below 2^32). `x >> n` is written
`x / 2^n`, `x & (2^n - 1)` is `x % 2^n`, conversion to an n-bit unsigned type is `% 2^n`. A byte vector
starting at index `i` is the list of the bytes from `i` on, so `i + 2 > chars.size()` becomes
`2 > cs.length`. Reading past the end is undefined behaviour. The text of exceptions is dropped.
-/
namespace Verif
namespace Unicode
open Shr BinSearch Random ListLike Containers
variable {σ : Type}

/-- Models `chars[i]` for a `std::vector`, e.g. /repo/proptest/util/utf8string.cpp:185. -/
def rd (cs : List Nat) (i : Nat) : Outcome Nat :=
  match cs[i]? with
  | some b => .ok b
  | none => .ub

/-- Models a test `lo <= b && b <= hi`, e.g. /repo/proptest/util/utf8string.cpp:190. -/
def btw (lo hi b : Nat) : Bool := decide (lo ≤ b) && decide (b ≤ hi)

/-! ### UTF-8 -/

/-- Models `encodeUTF8`, /repo/proptest/util/utf8string.cpp:263-341: the bytes appended. -/
def encodeUTF8 (code : Nat) : Outcome (List Nat) :=
  if code ≤ 0x7f then .ok [code % 256]
  else if code ≤ 0x07FF then
    let code := code - 0x80
    .ok [(code / 2^6 + 0xc2) % 256, (code % 2^6 + 0x80) % 256]
  else if code ≤ 0x0FFF then
    let code := code - 0x800
    .ok [0xe0, (code / 2^6 + 0xa0) % 256, (code % 2^6 + 0x80) % 256]
  else if code ≤ 0xCFFF then
    let code := code - 0x1000
    .ok [(code / 2^12 + 0xe1) % 256, (code / 2^6 % 2^6 + 0x80) % 256, (code % 2^6 + 0x80) % 256]
  else if code ≤ 0xD7FF then
    let code := code - 0xD000
    .ok [0xed, (code / 2^6 % 2^6 + 0x80) % 256, (code % 2^6 + 0x80) % 256]
  else if code ≤ 0xDFFF then .throws .runtimeError
  else if code ≤ 0xFFFF then
    let code := code - 0xE000
    .ok [(code / 2^12 + 0xee) % 256, (code / 2^6 % 2^6 + 0x80) % 256, (code % 2^6 + 0x80) % 256]
  else if code ≤ 0x3FFFF then
    let code := code - 0x10000
    .ok [0xf0, (code / 2^12 + 0x90) % 256, (code / 2^6 % 2^6 + 0x80) % 256, (code % 2^6 + 0x80) % 256]
  else if code ≤ 0xFFFFF then
    let code := code - 0x40000
    .ok [(code / 2^18 + 0xf1) % 256, (code / 2^12 % 2^6 + 0x80) % 256, (code / 2^6 % 2^6 + 0x80) % 256,
      (code % 2^6 + 0x80) % 256]
  else if code ≤ 0x10FFFF then
    let code := code - 0x100000
    .ok [0xf4, (code / 2^12 + 0x80) % 256, (code / 2^6 % 2^6 + 0x80) % 256, (code % 2^6 + 0x80) % 256]
  else .throws .runtimeError

/-- Models `decodeUTF8(vector<uint8_t>&)`, /repo/proptest/util/utf8string.cpp:181-261. -/
def decodeUTF8 (cs : List Nat) : Outcome Nat :=
  if 0 < cs.length then do
    let c0 ← rd cs 0
    if c0 ≤ 0x7f then .ok c0
    else if 2 > cs.length then .throws .runtimeError
    else if btw 0xc2 0xdf c0 then do
      let c1 ← rd cs 1
      if btw 0x80 0xbf c1 then .ok (0x80 + (c0 - 0xc2) * (0xbf - 0x80 + 1) + (c1 - 0x80))
      else .throws .runtimeError
    else if 3 > cs.length then .throws .runtimeError
    else if 0xe0 = c0 then do
      let c1 ← rd cs 1
      let c2 ← rd cs 2
      if btw 0xa0 0xbf c1 && btw 0x80 0xbf c2 then
        .ok (0x0800 + (c0 - 0xe0) * (0xbf - 0xa0 + 1) * (0xbf - 0x80 + 1) +
          (c1 - 0xa0) * (0xbf - 0x80 + 1) + (c2 - 0x80))
      else .throws .runtimeError
    else if btw 0xe1 0xec c0 then do
      let c1 ← rd cs 1
      let c2 ← rd cs 2
      if btw 0x80 0xbf c1 && btw 0x80 0xbf c2 then
        .ok (0x1000 + (c0 - 0xe1) * (0xbf - 0x80 + 1) * (0xbf - 0x80 + 1) +
          (c1 - 0x80) * (0xbf - 0x80 + 1) + (c2 - 0x80))
      else .throws .runtimeError
    else if 0xed = c0 then do
      let c1 ← rd cs 1
      let c2 ← rd cs 2
      if btw 0x80 0x9f c1 && btw 0x80 0xbf c2 then
        .ok (0xD000 + (c0 - 0xed) * (0x9f - 0x80 + 1) * (0xbf - 0x80 + 1) +
          (c1 - 0x80) * (0xbf - 0x80 + 1) + (c2 - 0x80))
      else .throws .runtimeError
    else if btw 0xee 0xef c0 then do
      let c1 ← rd cs 1
      let c2 ← rd cs 2
      if btw 0x80 0xbf c1 && btw 0x80 0xbf c2 then
        .ok (0xe000 + (c0 - 0xee) * (0xbf - 0x80 + 1) * (0xbf - 0x80 + 1) +
          (c1 - 0x80) * (0xbf - 0x80 + 1) + (c2 - 0x80))
      else .throws .runtimeError
    else if 4 > cs.length then .throws .runtimeError
    else if 0xf0 = c0 then do
      let c1 ← rd cs 1
      let c2 ← rd cs 2
      let c3 ← rd cs 3
      if btw 0x90 0xbf c1 && btw 0x80 0xbf c2 && btw 0x80 0xbf c3 then
        .ok (0x10000 + (c0 - 0xf0) * (0xbf - 0x90 + 1) * (0xbf - 0x80 + 1) * (0xbf - 0x80 + 1) +
          (c1 - 0x90) * (0xbf - 0x80 + 1) * (0xbf - 0x80 + 1) + (c2 - 0x80) * (0xbf - 0x80 + 1) + (c3 - 0x80))
      else .throws .runtimeError
    else if btw 0xf1 0xf3 c0 then do
      let c1 ← rd cs 1
      let c2 ← rd cs 2
      let c3 ← rd cs 3
      if btw 0x80 0xbf c1 && btw 0x80 0xbf c2 && btw 0x80 0xbf c3 then
        .ok (0x40000 + (c0 - 0xf1) * (0xbf - 0x80 + 1) * (0xbf - 0x80 + 1) * (0xbf - 0x80 + 1) +
          (c1 - 0x80) * (0xbf - 0x80 + 1) * (0xbf - 0x80 + 1) + (c2 - 0x80) * (0xbf - 0x80 + 1) + (c3 - 0x80))
      else .throws .runtimeError
    else if 0xf4 = c0 then do
      let c1 ← rd cs 1
      let c2 ← rd cs 2
      let c3 ← rd cs 3
      if btw 0x80 0x8f c1 && btw 0x80 0xbf c2 && btw 0x80 0xbf c3 then
        .ok (0x100000 + (c0 - 0xf4) * (0x8f - 0x80 + 1) * (0xbf - 0x80 + 1) * (0xbf - 0x80 + 1) +
          (c1 - 0x80) * (0xbf - 0x80 + 1) * (0xbf - 0x80 + 1) + (c2 - 0x80) * (0xbf - 0x80 + 1) + (c3 - 0x80))
      else .throws .runtimeError
    else .throws .runtimeError
  else .throws .runtimeError

/-- Models the body of the loop of `isValidUTF8`, /repo/proptest/util/utf8string.cpp:366-420: `none` for
`return false`, otherwise the number added to `i` in the body. -/
def validUTF8Step (cs : List Nat) : Outcome (Option Nat) := do
  let c0 ← rd cs 0
  if c0 ≤ 0x7f then .ok (some 0)
  else if 2 > cs.length then .ok none
  else if btw 0xc2 0xdf c0 then do
    let c1 ← rd cs 1
    if btw 0x80 0xbf c1 then .ok (some 1) else .ok none
  else if 3 > cs.length then .ok none
  else if 0xe0 = c0 then do
    let c1 ← rd cs 1
    let c2 ← rd cs 2
    if btw 0xa0 0xbf c1 && btw 0x80 0xbf c2 then .ok (some 2) else .ok none
  else if btw 0xe1 0xec c0 then do
    let c1 ← rd cs 1
    let c2 ← rd cs 2
    if btw 0x80 0xbf c1 && btw 0x80 0xbf c2 then .ok (some 2) else .ok none
  else if 0xed = c0 then do
    let c1 ← rd cs 1
    let c2 ← rd cs 2
    if btw 0x80 0x9f c1 && btw 0x80 0xbf c2 then .ok (some 2) else .ok none
  else if btw 0xee 0xef c0 then do
    let c1 ← rd cs 1
    let c2 ← rd cs 2
    if btw 0x80 0xbf c1 && btw 0x80 0xbf c2 then .ok (some 2) else .ok none
  else if 4 > cs.length then .ok none
  else if 0xf0 = c0 then do
    let c1 ← rd cs 1
    let c2 ← rd cs 2
    let c3 ← rd cs 3
    if btw 0x90 0xbf c1 && btw 0x80 0xbf c2 && btw 0x80 0xbf c3 then .ok (some 3) else .ok none
  else if btw 0xf1 0xf3 c0 then do
    let c1 ← rd cs 1
    let c2 ← rd cs 2
    let c3 ← rd cs 3
    if btw 0x80 0xbf c1 && btw 0x80 0xbf c2 && btw 0x80 0xbf c3 then .ok (some 3) else .ok none
  else if 0xf4 = c0 then do
    let c1 ← rd cs 1
    let c2 ← rd cs 2
    let c3 ← rd cs 3
    if btw 0x80 0x8f c1 && btw 0x80 0xbf c2 && btw 0x80 0xbf c3 then .ok (some 3) else .ok none
  else .ok none

/-- Models the loops of `isValidUTF8`, `isValidUTF16BE`, `isValidUTF16LE` and `isValidCESU8`
(/repo/proptest/util/utf8string.cpp:364-422, /repo/proptest/util/utf16string.cpp:315-330, 341-356,
/repo/proptest/util/cesu8string.cpp:371-416): `some n` if they return true with `numChars = n`, `none` if
they return false. Every iteration advances `i`, so the vector size bounds the number of iterations
(`fuel`). -/
def validLoop (step : List Nat → Outcome (Option Nat)) : Nat → List Nat → Outcome (Option Nat)
  | _, [] => .ok (some 0)
  | 0, _ :: _ => .diverges
  | fuel + 1, c :: cs => do
    match ← step (c :: cs) with
    | none => .ok none
    | some extra =>
      match ← validLoop step fuel (cs.drop extra) with
      | none => .ok none
      | some n => .ok (some (n + 1))

/-- Models `isValidUTF8(chars, numChars)`, /repo/proptest/util/utf8string.cpp:362-423. -/
def isValidUTF8 (cs : List Nat) : Outcome (Option Nat) := validLoop validUTF8Step cs.length cs

/-! ### UTF-16 -/

/-- Models the surrogate computation of `encodeUTF16BE` and `encodeUTF16LE`,
/repo/proptest/util/utf16string.cpp:163-178 and 257-273. -/
def surrogates (code : Nat) : Outcome (Nat × Nat × Nat × Nat) :=
  let code := (code + (2^32 - 0x10000)) % 2^32
  let s0 := (0xD800 + code / 2^10) % 2^16
  let s1 := (0xDC00 + code % 2^10) % 2^16
  let c0 := s0 / 2^8
  let c1 := s0 % 2^8
  let c2 := s1 / 2^8
  let c3 := s1 % 2^8
  if !(btw 0xD8 0xDB c0 && btw 0xDC 0xDF c2) then .throws .runtimeError
  else .ok (c0, c1, c2, c3)

/-- Models `encodeUTF16BE`, /repo/proptest/util/utf16string.cpp:153-185: the bytes appended. -/
def encodeUTF16BE (code : Nat) : Outcome (List Nat) :=
  if code ≤ 0xd7FF ∨ (0xE000 ≤ code ∧ code ≤ 0xFFFF) then .ok [code / 2^8 % 256, code % 2^8]
  else do
    let (c0, c1, c2, c3) ← surrogates code
    .ok [c0, c1, c2, c3]

/-- Models `encodeUTF16LE`, /repo/proptest/util/utf16string.cpp:247-279: the bytes appended. -/
def encodeUTF16LE (code : Nat) : Outcome (List Nat) :=
  if code ≤ 0xd7FF ∨ (0xE000 ≤ code ∧ code ≤ 0xFFFF) then .ok [code % 2^8, code / 2^8 % 256]
  else do
    let (c0, c1, c2, c3) ← surrogates code
    .ok [c1, c0, c3, c2]

/-- Models the combination of two surrogates, /repo/proptest/util/utf16string.cpp:112-116, 144-148, 209-213
and 238-242, with 32-bit wrap-around. -/
def combine (s0 s1 : Nat) : Nat := (0x10000 + (s0 - 0xD800) * 2^10 + (s1 + (2^32 - 0xDC00))) % 2^32

/-- Models `decodeUTF16BE(vector<uint8_t>&)`, /repo/proptest/util/utf16string.cpp:126-151. -/
def decodeUTF16BE (cs : List Nat) : Outcome Nat :=
  if 2 > cs.length then .throws .runtimeError
  else do
    let c0 ← rd cs 0
    let c1 ← rd cs 1
    if c0 = 0 && c1 ≤ 0x7f then .ok c1
    else if c0 ≤ 0xD7 || 0xE0 ≤ c0 then .ok (c0 * 2^8 + c1)
    else if 4 > cs.length then .throws .runtimeError
    else do
      let c2 ← rd cs 2
      let c3 ← rd cs 3
      .ok (combine (c0 * 2^8 + c1) (c2 * 2^8 + c3))

/-- Models `decodeUTF16LE(vector<uint8_t>&)`, /repo/proptest/util/utf16string.cpp:220-245. -/
def decodeUTF16LE (cs : List Nat) : Outcome Nat :=
  if 2 > cs.length then .throws .runtimeError
  else do
    let c0 ← rd cs 0
    let c1 ← rd cs 1
    if c1 = 0 && c0 ≤ 0x7f then .ok c0
    else if c1 ≤ 0xD7 || 0xE0 ≤ c1 then .ok (c1 * 2^8 + c0)
    else if 4 > cs.length then .throws .runtimeError
    else do
      let c2 ← rd cs 2
      let c3 ← rd cs 3
      .ok (combine (c1 * 2^8 + c0) (c3 * 2^8 + c2))

/-- Models the body of the loop of `isValidUTF16BE`, /repo/proptest/util/utf16string.cpp:317-328. -/
def validUTF16BEStep (cs : List Nat) : Outcome (Option Nat) :=
  if 2 > cs.length then .ok none
  else do
    let c0 ← rd cs 0
    if c0 ≤ 0xD7 || 0xE0 ≤ c0 then .ok (some 1)
    else if 4 > cs.length then .ok none
    else do
      let c2 ← rd cs 2
      if btw 0xD8 0xDB c0 && btw 0xDC 0xDF c2 then .ok (some 3) else .ok none

/-- Models the body of the loop of `isValidUTF16LE`, /repo/proptest/util/utf16string.cpp:343-354. -/
def validUTF16LEStep (cs : List Nat) : Outcome (Option Nat) :=
  if 2 > cs.length then .ok none
  else do
    let c1 ← rd cs 1
    if c1 ≤ 0xD7 || 0xE0 ≤ c1 then .ok (some 1)
    else if 4 > cs.length then .ok none
    else do
      let c3 ← rd cs 3
      if btw 0xD8 0xDB c1 && btw 0xDC 0xDF c3 then .ok (some 3) else .ok none

/-- Models `isValidUTF16BE(chars, numChars)`, /repo/proptest/util/utf16string.cpp:313-331. -/
def isValidUTF16BE (cs : List Nat) : Outcome (Option Nat) := validLoop validUTF16BEStep cs.length cs

/-- Models `isValidUTF16LE(chars, numChars)`, /repo/proptest/util/utf16string.cpp:339-357. -/
def isValidUTF16LE (cs : List Nat) : Outcome (Option Nat) := validLoop validUTF16LEStep cs.length cs

/-! ### CESU-8 -/

/-- Models `encodeCESU8`, /repo/proptest/util/cesu8string.cpp:287-348: the bytes appended. -/
def encodeCESU8 (code : Nat) : Outcome (List Nat) :=
  if code ≤ 0x7f then .ok [code % 256]
  else if code ≤ 0x07FF then
    let code := code - 0x80
    .ok [(code / 2^6 + 0xc2) % 256, (code % 2^6 + 0x80) % 256]
  else if code ≤ 0x0FFF then
    let code := code - 0x800
    .ok [0xe0, (code / 2^6 + 0xa0) % 256, (code % 2^6 + 0x80) % 256]
  else if code ≤ 0xCFFF then
    let code := code - 0x1000
    .ok [(code / 2^12 + 0xe1) % 256, (code / 2^6 % 2^6 + 0x80) % 256, (code % 2^6 + 0x80) % 256]
  else if code ≤ 0xD7FF then
    let code := code - 0xD000
    .ok [0xed, (code / 2^6 % 2^6 + 0x80) % 256, (code % 2^6 + 0x80) % 256]
  else if code ≤ 0xDFFF then .throws .runtimeError
  else if code ≤ 0xFFFF then
    let code := code - 0xE000
    .ok [(code / 2^12 + 0xee) % 256, (code / 2^6 % 2^6 + 0x80) % 256, (code % 2^6 + 0x80) % 256]
  else if code ≤ 0x10FFFF then
    let code := code - 0x10000
    let s0 := (0xD800 + code / 2^10) % 2^16
    let s1 := (0xDC00 + code % 2^10) % 2^16
    let h := s0 - 0xd800
    let l := s1 - 0xdc00
    .ok [0xed, (h / 2^6 % 2^6 + 0xa0) % 256, (h % 2^6 + 0x80) % 256,
      0xed, (l / 2^6 % 2^6 + 0xb0) % 256, (l % 2^6 + 0x80) % 256]
  else .throws .runtimeError

/-- Models the surrogate pair computation, /repo/proptest/util/cesu8string.cpp:191-195 and 263-267. -/
def cesu8Pair (c0 c1 c2 c3 c4 c5 : Nat) : Nat :=
  let high := (0xD800 + (c0 - 0xed) * (0xaf - 0xa0 + 1) * (0xbf - 0x80 + 1) +
    (c1 - 0xa0) * (0xbf - 0x80 + 1) + (c2 - 0x80)) % 2^16
  let low := (0xDC00 + (c3 - 0xed) * (0xbf - 0xb0 + 1) * (0xbf - 0x80 + 1) +
    (c4 - 0xb0) * (0xbf - 0x80 + 1) + (c5 - 0x80)) % 2^16
  0x10000 + (high % 2^10) * 2^10 + low % 2^10

/-- Models `decodeCESU8(vector<uint8_t>&)`, /repo/proptest/util/cesu8string.cpp:219-285. -/
def decodeCESU8 (cs : List Nat) : Outcome Nat :=
  if 0 < cs.length then do
    let c0 ← rd cs 0
    if c0 ≤ 0x7f then .ok c0
    else if 2 > cs.length then .throws .runtimeError
    else if btw 0xc2 0xdf c0 then do
      let c1 ← rd cs 1
      if btw 0x80 0xbf c1 then .ok (0x80 + (c0 - 0xc2) * (0xbf - 0x80 + 1) + (c1 - 0x80))
      else .throws .runtimeError
    else if 3 > cs.length then .throws .runtimeError
    else if 0xe0 = c0 then do
      let c1 ← rd cs 1
      let c2 ← rd cs 2
      if btw 0xa0 0xbf c1 && btw 0x80 0xbf c2 then
        .ok (0x0800 + (c0 - 0xe0) * (0xbf - 0xa0 + 1) * (0xbf - 0x80 + 1) +
          (c1 - 0xa0) * (0xbf - 0x80 + 1) + (c2 - 0x80))
      else .throws .runtimeError
    else if btw 0xe1 0xec c0 then do
      let c1 ← rd cs 1
      let c2 ← rd cs 2
      if btw 0x80 0xbf c1 && btw 0x80 0xbf c2 then
        .ok (0x1000 + (c0 - 0xe1) * (0xbf - 0x80 + 1) * (0xbf - 0x80 + 1) +
          (c1 - 0x80) * (0xbf - 0x80 + 1) + (c2 - 0x80))
      else .throws .runtimeError
    else if 0xed = c0 then do
      let c1 ← rd cs 1
      let c2 ← rd cs 2
      if btw 0x80 0x9f c1 && btw 0x80 0xbf c2 then
        .ok (0xD000 + (c0 - 0xed) * (0x9f - 0x80 + 1) * (0xbf - 0x80 + 1) +
          (c1 - 0x80) * (0xbf - 0x80 + 1) + (c2 - 0x80))
      else if 6 > cs.length then .throws .runtimeError
      else do
        let c3 ← rd cs 3
        let c4 ← rd cs 4
        let c5 ← rd cs 5
        if btw 0xa0 0xaf c1 && btw 0x80 0xbf c2 && decide (0xed = c3) && btw 0xb0 0xbf c4 && btw 0x80 0xbf c5 then
          .ok (cesu8Pair c0 c1 c2 c3 c4 c5)
        else .throws .runtimeError
    else if btw 0xee 0xef c0 then do
      let c1 ← rd cs 1
      let c2 ← rd cs 2
      if btw 0x80 0xbf c1 && btw 0x80 0xbf c2 then
        .ok (0xe000 + (c0 - 0xee) * (0xbf - 0x80 + 1) * (0xbf - 0x80 + 1) +
          (c1 - 0x80) * (0xbf - 0x80 + 1) + (c2 - 0x80))
      else .throws .runtimeError
    else .throws .runtimeError
  else .throws .runtimeError

/-- Models the body of the loop of `isValidCESU8`, /repo/proptest/util/cesu8string.cpp:373-414. -/
def validCESU8Step (cs : List Nat) : Outcome (Option Nat) := do
  let c0 ← rd cs 0
  if c0 ≤ 0x7f then .ok (some 0)
  else if 2 > cs.length then .ok none
  else if btw 0xc2 0xdf c0 then do
    let c1 ← rd cs 1
    if btw 0x80 0xbf c1 then .ok (some 1) else .ok none
  else if 3 > cs.length then .ok none
  else if 0xe0 = c0 then do
    let c1 ← rd cs 1
    let c2 ← rd cs 2
    if btw 0xa0 0xbf c1 && btw 0x80 0xbf c2 then .ok (some 2) else .ok none
  else if btw 0xe1 0xec c0 then do
    let c1 ← rd cs 1
    let c2 ← rd cs 2
    if btw 0x80 0xbf c1 && btw 0x80 0xbf c2 then .ok (some 2) else .ok none
  else if 0xed = c0 then do
    let c1 ← rd cs 1
    let c2 ← rd cs 2
    if btw 0x80 0x9f c1 && btw 0x80 0xbf c2 then .ok (some 2)
    else if 6 > cs.length then .ok none
    else do
      let c3 ← rd cs 3
      let c4 ← rd cs 4
      let c5 ← rd cs 5
      if btw 0xa0 0xaf c1 && btw 0x80 0xbf c2 && decide (0xed = c3) && btw 0xb0 0xbf c4 && btw 0x80 0xbf c5 then
        .ok (some 5)
      else .ok none
  else if btw 0xee 0xef c0 then do
    let c1 ← rd cs 1
    let c2 ← rd cs 2
    if btw 0x80 0xbf c1 && btw 0x80 0xbf c2 then .ok (some 2) else .ok none
  else .ok none

/-- Models `isValidCESU8(chars, numChars)`, /repo/proptest/util/cesu8string.cpp:369-417. -/
def isValidCESU8 (cs : List Nat) : Outcome (Option Nat) := validLoop validCESU8Step cs.length cs

/-! ### Printing -/

/-- What the printing functions write to the stream, one item per call of `validChar`/`validCESU8Char`
(`ascii`), `validChar2` (`wide`), `charAsHex`/`cesu8AsHex` with one byte (`hex`) and `codepage` (`code`):
/repo/proptest/util/unicode.cpp:8-23, 32-37, 91-115, /repo/proptest/util/cesu8string.cpp:19-30, 55-60. -/
inductive Tok where
  | ascii (b : Nat)
  | wide (b : Nat)
  | hex (b : Nat)
  | code (c : Nat)
deriving DecidableEq, Repr

/-- Models one hexadecimal digit printed by `std::hex` (lower case), as an ASCII code. Used by
/repo/proptest/util/unicode.cpp:13-19. -/
def hexDigit (d : Nat) : Nat := if d < 10 then 48 + d else 87 + d

/-- Models `setfill('0') << setw(2) << hex << n` for `n < 256`, /repo/proptest/util/unicode.cpp:13. -/
def hex2 (n : Nat) : List Nat := [hexDigit (n / 16), hexDigit (n % 16)]

/-- Models the characters written by `validChar`, /repo/proptest/util/unicode.cpp:91-102, `validChar2`,
104-115 (`setw(4)` on a value below 256), `charAsHex`, 32-37, and `codepage`, 8-23. The characters are given
by their ASCII codes: 92 is a backslash, 117 `u`, 85 `U`, 120 `x`. -/
def Tok.text : Tok → List Nat
  | .ascii c =>
    if c = 92 then [92, 92]
    else if c < 0x20 ∨ c = 0x7f then [92, 120] ++ hex2 c
    else [c]
  | .wide c =>
    if c = 92 then [92, 92]
    else if c < 0x20 ∨ c = 0x7f then [92, 117, 48, 48] ++ hex2 c
    else [c]
  | .hex c => [92, 120] ++ hex2 c
  | .code c =>
    if c < 0x10000 then [92, 117] ++ hex2 (c / 2^8 % 2^8) ++ hex2 (c % 2^8)
    else [92, 85] ++ hex2 (c / 2^16 % 2^8) ++ hex2 (c / 2^8 % 2^8) ++ hex2 (c % 2^8)

/-- Models the body of the loop of `decodeUTF8(ostream&, vector<uint8_t>&)`,
/repo/proptest/util/utf8string.cpp:76-177: what is printed and the number added to `i` in the body. -/
def printUTF8Step (cs : List Nat) : Outcome (Tok × Nat) := do
  let c0 ← rd cs 0
  if c0 ≤ 0x7f then .ok (.ascii c0, 0)
  else if 2 > cs.length then .ok (.hex c0, 0)
  else if btw 0xc2 0xdf c0 then do
    let c1 ← rd cs 1
    if btw 0x80 0xbf c1 then .ok (.code (0x80 + (c0 - 0xc2) * (0xbf - 0x80 + 1) + (c1 - 0x80)), 1)
    else .ok (.hex c0, 0)
  else if 3 > cs.length then .ok (.hex c0, 0)
  else if 0xe0 = c0 then do
    let c1 ← rd cs 1
    let c2 ← rd cs 2
    if btw 0xa0 0xbf c1 && btw 0x80 0xbf c2 then
      .ok (.code (0x0800 + (c0 - 0xe0) * (0xbf - 0xa0 + 1) * (0xbf - 0x80 + 1) +
        (c1 - 0xa0) * (0xbf - 0x80 + 1) + (c2 - 0x80)), 2)
    else .ok (.hex c0, 0)
  else if btw 0xe1 0xec c0 then do
    let c1 ← rd cs 1
    let c2 ← rd cs 2
    if btw 0x80 0xbf c1 && btw 0x80 0xbf c2 then
      .ok (.code (0x1000 + (c0 - 0xe1) * (0xbf - 0x80 + 1) * (0xbf - 0x80 + 1) +
        (c1 - 0x80) * (0xbf - 0x80 + 1) + (c2 - 0x80)), 2)
    else .ok (.hex c0, 0)
  else if 0xed = c0 then do
    let c1 ← rd cs 1
    let c2 ← rd cs 2
    if btw 0x80 0x9f c1 && btw 0x80 0xbf c2 then
      .ok (.code (0xD000 + (c0 - 0xed) * (0x9f - 0x80 + 1) * (0xbf - 0x80 + 1) +
        (c1 - 0x80) * (0xbf - 0x80 + 1) + (c2 - 0x80)), 2)
    else .ok (.hex c0, 0)
  else if btw 0xee 0xef c0 then do
    let c1 ← rd cs 1
    let c2 ← rd cs 2
    if btw 0x80 0xbf c1 && btw 0x80 0xbf c2 then
      .ok (.code (0xe000 + (c0 - 0xee) * (0xbf - 0x80 + 1) * (0xbf - 0x80 + 1) +
        (c1 - 0x80) * (0xbf - 0x80 + 1) + (c2 - 0x80)), 2)
    else .ok (.hex c0, 0)
  else if 4 > cs.length then .ok (.hex c0, 0)
  else if 0xf0 = c0 then do
    let c1 ← rd cs 1
    let c2 ← rd cs 2
    let c3 ← rd cs 3
    if btw 0x90 0xbf c1 && btw 0x80 0xbf c2 && btw 0x80 0xbf c3 then
      .ok (.code (0x10000 + (c0 - 0xf0) * (0xbf - 0x90 + 1) * (0xbf - 0x80 + 1) * (0xbf - 0x80 + 1) +
        (c1 - 0x90) * (0xbf - 0x80 + 1) * (0xbf - 0x80 + 1) + (c2 - 0x80) * (0xbf - 0x80 + 1) + (c3 - 0x80)), 3)
    else .ok (.hex c0, 0)
  else if btw 0xf1 0xf3 c0 then do
    let c1 ← rd cs 1
    let c2 ← rd cs 2
    let c3 ← rd cs 3
    if btw 0x80 0xbf c1 && btw 0x80 0xbf c2 && btw 0x80 0xbf c3 then
      .ok (.code (0x40000 + (c0 - 0xf1) * (0xbf - 0x80 + 1) * (0xbf - 0x80 + 1) * (0xbf - 0x80 + 1) +
        (c1 - 0x80) * (0xbf - 0x80 + 1) * (0xbf - 0x80 + 1) + (c2 - 0x80) * (0xbf - 0x80 + 1) + (c3 - 0x80)), 3)
    else .ok (.hex c0, 0)
  else if 0xf4 = c0 then do
    let c1 ← rd cs 1
    let c2 ← rd cs 2
    let c3 ← rd cs 3
    if btw 0x80 0x8f c1 && btw 0x80 0xbf c2 && btw 0x80 0xbf c3 then
      .ok (.code (0x100000 + (c0 - 0xf4) * (0x8f - 0x80 + 1) * (0xbf - 0x80 + 1) * (0xbf - 0x80 + 1) +
        (c1 - 0x80) * (0xbf - 0x80 + 1) * (0xbf - 0x80 + 1) + (c2 - 0x80) * (0xbf - 0x80 + 1) + (c3 - 0x80)), 3)
    else .ok (.hex c0, 0)
  else .ok (.hex c0, 0)

/-- Models the body of the loop of `decodeCESU8(ostream&, vector<uint8_t>&)`,
/repo/proptest/util/cesu8string.cpp:138-215: what is printed and the number added to `i` in the body. -/
def printCESU8Step (cs : List Nat) : Outcome (Tok × Nat) := do
  let c0 ← rd cs 0
  if c0 ≤ 0x7f then .ok (.ascii c0, 0)
  else if 2 > cs.length then .ok (.hex c0, 0)
  else if btw 0xc2 0xdf c0 then do
    let c1 ← rd cs 1
    if btw 0x80 0xbf c1 then .ok (.code (0x80 + (c0 - 0xc2) * (0xbf - 0x80 + 1) + (c1 - 0x80)), 1)
    else .ok (.hex c0, 0)
  else if 3 > cs.length then .ok (.hex c0, 0)
  else if 0xe0 = c0 then do
    let c1 ← rd cs 1
    let c2 ← rd cs 2
    if btw 0xa0 0xbf c1 && btw 0x80 0xbf c2 then
      .ok (.code (0x0800 + (c0 - 0xe0) * (0xbf - 0xa0 + 1) * (0xbf - 0x80 + 1) +
        (c1 - 0xa0) * (0xbf - 0x80 + 1) + (c2 - 0x80)), 2)
    else .ok (.hex c0, 0)
  else if btw 0xe1 0xec c0 then do
    let c1 ← rd cs 1
    let c2 ← rd cs 2
    if btw 0x80 0xbf c1 && btw 0x80 0xbf c2 then
      .ok (.code (0x1000 + (c0 - 0xe1) * (0xbf - 0x80 + 1) * (0xbf - 0x80 + 1) +
        (c1 - 0x80) * (0xbf - 0x80 + 1) + (c2 - 0x80)), 2)
    else .ok (.hex c0, 0)
  else if 0xed = c0 then do
    let c1 ← rd cs 1
    let c2 ← rd cs 2
    if btw 0x80 0x9f c1 && btw 0x80 0xbf c2 then
      .ok (.code (0xD000 + (c0 - 0xed) * (0x9f - 0x80 + 1) * (0xbf - 0x80 + 1) +
        (c1 - 0x80) * (0xbf - 0x80 + 1) + (c2 - 0x80)), 2)
    else if 6 > cs.length then .ok (.hex c0, 0)
    else do
      let c3 ← rd cs 3
      let c4 ← rd cs 4
      let c5 ← rd cs 5
      if btw 0xa0 0xaf c1 && btw 0x80 0xbf c2 && decide (0xed = c3) && btw 0xb0 0xbf c4 && btw 0x80 0xbf c5 then
        .ok (.code (cesu8Pair c0 c1 c2 c3 c4 c5), 5)
      else .ok (.hex c0, 0)
  else if btw 0xee 0xef c0 then do
    let c1 ← rd cs 1
    let c2 ← rd cs 2
    if btw 0x80 0xbf c1 && btw 0x80 0xbf c2 then
      .ok (.code (0xe000 + (c0 - 0xee) * (0xbf - 0x80 + 1) * (0xbf - 0x80 + 1) +
        (c1 - 0x80) * (0xbf - 0x80 + 1) + (c2 - 0x80)), 2)
    else .ok (.hex c0, 0)
  else .ok (.hex c0, 0)

/-- Models the loops of `decodeUTF8(ostream&, ..)` and `decodeCESU8(ostream&, ..)`,
/repo/proptest/util/utf8string.cpp:76-178 and /repo/proptest/util/cesu8string.cpp:138-216: everything
printed, in order. Every iteration advances `i`, so the vector size bounds the number of iterations. -/
def printLoop (step : List Nat → Outcome (Tok × Nat)) : Nat → List Nat → Outcome (List Tok)
  | _, [] => .ok []
  | 0, _ :: _ => .diverges
  | fuel + 1, c :: cs => do
    let (t, extra) ← step (c :: cs)
    let ts ← printLoop step fuel (cs.drop extra)
    .ok (t :: ts)

/-- Models `decodeUTF8(ostream&, vector<uint8_t>&)`, /repo/proptest/util/utf8string.cpp:74-179. -/
def printUTF8 (cs : List Nat) : Outcome (List Tok) := printLoop printUTF8Step cs.length cs

/-- Models `decodeCESU8(ostream&, vector<uint8_t>&)`, /repo/proptest/util/cesu8string.cpp:136-217. -/
def printCESU8 (cs : List Nat) : Outcome (List Tok) := printLoop printCESU8Step cs.length cs

/-- Models the body of the loop of `decodeUTF16BE(ostream&, vector<uint8_t>&)`,
/repo/proptest/util/utf16string.cpp:92-122: what is printed and the number added to `i`, or `none` for
`break`. -/
def printUTF16BEStep (cs : List Nat) : Outcome (List Tok × Option Nat) := do
  let c0 ← rd cs 0
  let pre := if 2 > cs.length then [Tok.hex c0] else []
  let isAscii ← if c0 = 0 then do let c1 ← rd cs 1; .ok (decide (c1 ≤ 0x7f)) else .ok false
  if isAscii then do
    let c1 ← rd cs 1
    .ok (pre ++ [.wide c1], some 1)
  else if c0 ≤ 0xD7 || 0xE0 ≤ c0 then do
    let c1 ← rd cs 1
    .ok (pre ++ [.code (c0 * 2^8 + c1)], some 1)
  else if 4 > cs.length then do
    let c1 ← rd cs 1
    let c2 ← rd cs 2
    let c3 ← rd cs 3
    .ok (pre ++ [.hex c0, .hex c1, .hex c2, .hex c3], none)
  else do
    let c1 ← rd cs 1
    let c2 ← rd cs 2
    let c3 ← rd cs 3
    .ok (pre ++ [.code (combine (c0 * 2^8 + c1) (c2 * 2^8 + c3))], some 3)

/-- Models the body of the loop of `decodeUTF16LE(ostream&, vector<uint8_t>&)`,
/repo/proptest/util/utf16string.cpp:189-216. -/
def printUTF16LEStep (cs : List Nat) : Outcome (List Tok × Option Nat) := do
  let c0 ← rd cs 0
  let pre := if 2 > cs.length then [Tok.hex c0] else []
  let c1 ← rd cs 1
  if c1 = 0 && c0 ≤ 0x7f then .ok (pre ++ [.wide c0], some 1)
  else if c1 ≤ 0xD7 || 0xE0 ≤ c1 then .ok (pre ++ [.code (c1 * 2^8 + c0)], some 1)
  else if 4 > cs.length then do
    let c2 ← rd cs 2
    let c3 ← rd cs 3
    .ok (pre ++ [.hex c0, .hex c1, .hex c2, .hex c3], none)
  else do
    let c2 ← rd cs 2
    let c3 ← rd cs 3
    .ok (pre ++ [.code (combine (c1 * 2^8 + c0) (c3 * 2^8 + c2))], some 3)

/-- Models the loops of `decodeUTF16BE(ostream&, ..)` and `decodeUTF16LE(ostream&, ..)`,
/repo/proptest/util/utf16string.cpp:92-123 and 189-217. -/
def printLoop16 (step : List Nat → Outcome (List Tok × Option Nat)) : Nat → List Nat → Outcome (List Tok)
  | _, [] => .ok []
  | 0, _ :: _ => .diverges
  | fuel + 1, c :: cs => do
    match ← step (c :: cs) with
    | (ts, none) => .ok ts
    | (ts, some extra) => do
      let rest ← printLoop16 step fuel (cs.drop extra)
      .ok (ts ++ rest)

/-- Models `decodeUTF16BE(ostream&, vector<uint8_t>&)`, /repo/proptest/util/utf16string.cpp:90-124. -/
def printUTF16BE (cs : List Nat) : Outcome (List Tok) := printLoop16 printUTF16BEStep cs.length cs

/-- Models `decodeUTF16LE(ostream&, vector<uint8_t>&)`, /repo/proptest/util/utf16string.cpp:187-218. -/
def printUTF16LE (cs : List Nat) : Outcome (List Tok) := printLoop16 printUTF16LEStep cs.length cs

/-! ### Generation and shrinking -/

/-- Models `charsize` of the string classes: `UTF8String` /repo/proptest/util/utf8string.cpp:8-15,
`UTF16BEString`, `UTF16LEString` /repo/proptest/util/utf16string.cpp:8-36, `CESU8String`
/repo/proptest/util/cesu8string.cpp:8-15, and `UTF8CharSize` etc. which they call
(/repo/proptest/util/utf8string.cpp:343-354). -/
def charsize (valid : List Nat → Outcome (Option Nat)) (cs : List Nat) : Outcome Nat := do
  match ← valid cs with
  | none => .throws .runtimeError
  | some n => .ok n

mutual
/-- Models `ShrinkableAny::concat`, /repo/proptest/Shrinkable.cpp:252-266, for a function that can throw or read
out of bounds. Simplification: the outcome is computed for the whole tree at once, so an exception that
would be thrown when some node's shrinks are computed is reported for the tree. -/
def concatM {α : Type} (f : Shr α → Outcome (List (Shr α))) : Shr α → Outcome (Shr α)
  | .node a ts => do
    let ts' ← concatMList f ts
    let more ← f (.node a ts)
    .ok (.node a (ts' ++ more))
/-- The part of `concatM` that treats a stream of shrinks, /repo/proptest/Shrinkable.cpp:262-263. -/
def concatMList {α : Type} (f : Shr α → Outcome (List (Shr α))) : List (Shr α) → Outcome (List (Shr α))
  | [] => .ok []
  | t :: ts => do
    let t' ← concatM f t
    let ts' ← concatMList f ts
    .ok (t' :: ts')
end

/-- Models `vector<int>::operator[]` on the byte positions, /repo/proptest/shrinker/stringlike.hpp:15, 29, for
all entries up to index `size`: they exist, or reading the last one is undefined. All indices the code uses
are at most the one used first (`size` at the root, `maxSizeCopy` in the second phase), so reading that one
decides. -/
def posUpTo (positions : List Nat) (size : Nat) : Outcome (Nat → Nat) :=
  if size < positions.length then .ok fun i => positions.getD i 0 else .ub

/-- Models the lambda passed to `concat` in `shrinkStringLike`, /repo/proptest/shrinker/stringlike.hpp:19-33.
`size_t` subtraction that would wrap is undefined here. -/
def shrinkStringLikeFront (valid : List Nat → Outcome (Option Nat)) (minSize : Nat) (positions : List Nat)
    (str : List Nat) : Outcome (List (Shr (List Nat))) := do
  let maxSizeCopy ← charsize valid str
  if maxSizeCopy = minSize then .ok []
  else if maxSizeCopy < minSize then .ub
  else if positions.isEmpty then
    .ok ((bsNat (maxSizeCopy - minSize)).map fun _ => ([] : List Nat)).shrinks
  else do
    let pos ← posUpTo positions maxSizeCopy
    .ok ((bsNat (maxSizeCopy - minSize)).map fun value =>
      (str.drop (pos (minSize + value))).take (pos maxSizeCopy - pos (minSize + value))).shrinks

/-- Models `shrinkStringLike`, /repo/proptest/shrinker/stringlike.hpp:7-34. `size_t` subtraction that would
wrap is undefined here. -/
def shrinkStringLike (valid : List Nat → Outcome (Option Nat)) (str : List Nat) (minSize size : Nat)
    (positions : List Nat) : Outcome (Shr (List Nat)) := do
  if size < minSize then .ub
  else do
    let rear ← if positions.isEmpty then .ok ((bsNat (size - minSize)).map fun _ => ([] : List Nat))
      else do
        let pos ← posUpTo positions size
        .ok ((bsNat (size - minSize)).map fun n => str.take (pos (n + minSize)))
    concatM (fun shr => shrinkStringLikeFront valid minSize positions shr.value) rear

/-- Models the loop of `Arbi<UTF8String>::operator()`, /repo/proptest/generator/utf8string.cpp:56-66, which the
other generators repeat (/repo/proptest/generator/utf16string.cpp:51-59, 119-127,
/repo/proptest/generator/cesu8string.cpp:55-65): the bytes and the byte positions. `chars` are the bytes so
far. -/
def fillChars (enc : Nat → Outcome (List Nat)) (g : Gen σ Nat) :
    Nat → List Nat → σ → Outcome (List Nat × List Nat × σ)
  | 0, chars, s => .ok (chars, [chars.length], s)
  | n + 1, chars, s => do
    let (codeShr, s) ← g s
    let bs ← enc codeShr.value
    let (chars', positions, s) ← fillChars enc g n (chars ++ bs) s
    .ok (chars', chars.length :: positions, s)

/-- Models `Arbi<UTF8String>::operator()`, /repo/proptest/generator/utf8string.cpp:43-93,
`Arbi<CESU8String>::operator()`, /repo/proptest/generator/cesu8string.cpp:42-92 (both with `trailer = []`),
`Arbi<UTF16BEString>::operator()` and `Arbi<UTF16LEString>::operator()`,
/repo/proptest/generator/utf16string.cpp:38-78 and 106-156 (`trailer = [0, 0]`, lines 60-61). -/
def arbiStringLike (R : Rng σ) (enc : Nat → Outcome (List Nat)) (valid : List Nat → Outcome (Option Nat))
    (trailer : List Nat) (g : Gen σ Nat) (minSize maxSize : Nat) : Gen σ (List Nat) := fun s => do
  let (len, s) ← getRandomSize R minSize (maxSize + 1) s
  let (chars, positions, s) ← fillChars enc g len.toNat [] s
  let chars := chars ++ trailer
  match ← valid chars with
  | none => .throws .runtimeError
  | some _ => do
    let t ← shrinkStringLike valid chars minSize len.toNat positions
    .ok (t, s)

/-- Models `Arbi<UTF8String>::operator()`, /repo/proptest/generator/utf8string.cpp:43-93. -/
def arbiUTF8String (R : Rng σ) : Gen σ Nat → Nat → Nat → Gen σ (List Nat) :=
  arbiStringLike R encodeUTF8 isValidUTF8 []

/-- Models `Arbi<CESU8String>::operator()`, /repo/proptest/generator/cesu8string.cpp:42-92. -/
def arbiCESU8String (R : Rng σ) : Gen σ Nat → Nat → Nat → Gen σ (List Nat) :=
  arbiStringLike R encodeCESU8 isValidCESU8 []

/-- Models `Arbi<UTF16BEString>::operator()`, /repo/proptest/generator/utf16string.cpp:38-78. -/
def arbiUTF16BEString (R : Rng σ) : Gen σ Nat → Nat → Nat → Gen σ (List Nat) :=
  arbiStringLike R encodeUTF16BE isValidUTF16BE [0, 0]

/-- Models `Arbi<UTF16LEString>::operator()`, /repo/proptest/generator/utf16string.cpp:106-156. -/
def arbiUTF16LEString (R : Rng σ) : Gen σ Nat → Nat → Nat → Gen σ (List Nat) :=
  arbiStringLike R encodeUTF16LE isValidUTF16LE [0, 0]

end Unicode
end Verif
