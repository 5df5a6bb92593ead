import Verif.Lemmas.Codec
import Verif.Spec.Greedy
import Verif.Props.Containers
/-! C32 (shrinking of encoded strings), C60-C65, C82, C83 (Unicode encodings and their display). -/
namespace Verif
namespace Unicode
open Shr BinSearch Random ListLike Containers
variable {σ : Type}

/-! ### C60 -/

/-- C60. Every Unicode scalar value is encoded by 1 to 4 bytes, which are one valid character and decode to it,
whatever follows. -/
theorem C60_scalar (c : Nat) (hc : c.isValidChar) : ∃ bs, encodeUTF8 c = .ok bs ∧ 1 ≤ bs.length ∧ bs.length ≤ 4 ∧
    Bytes bs ∧ isValidUTF8 bs = .ok (some 1) ∧ ∀ rest, decodeUTF8 (bs ++ rest) = .ok c := by
  obtain ⟨bs, h⟩ := form8_of_valid hc
  refine ⟨bs, h.encode, List.length_pos_of_ne_nil h.bytes.1, by cases h <;> simp, h.bytes.2, ?_, h.decode⟩
  exact (codec8.valid_some h.bytes.2).2 ⟨[c], rfl, by simpa using hc, by simp [encodeAll, h.encode]⟩

example : encodeUTF8 0x1F600 = .ok [0xf0, 0x9f, 0x98, 0x80] ∧ Nat.isValidChar 0x1F600 := by decide

/-- C60. Every other number is rejected. -/
theorem C60_reject (c : Nat) (hc : ¬ c.isValidChar) : encodeUTF8 c = .throws .runtimeError := encodeUTF8_throws hc

example : ¬ Nat.isValidChar 0xD800 ∧ ¬ Nat.isValidChar 0x110000 := by decide

/-- C60. The bytes are the standard ones: those of Lean's own UTF-8 encoder. -/
theorem C60_standard (c : Char) : encodeUTF8 c.toNat = .ok ((String.utf8EncodeChar c).map UInt8.toNat) := by
  have hc : c.toNat.isValidChar := c.valid
  unfold Nat.isValidChar at hc
  have hv : c.val.toNat = c.toNat := rfl
  unfold String.utf8EncodeChar encodeUTF8
  rw [hv]
  generalize c.toNat = n at *
  dsimp only
  by_cases h1 : n ≤ 0x7f
  · rw [if_pos h1, if_pos h1]; simp
  rw [if_neg h1, if_neg h1]
  by_cases h2 : n ≤ 0x7ff
  · rw [if_pos h2, if_pos h2]
    refine congrArg Outcome.ok ?_
    simp only [List.map_cons, List.map_nil, UInt8.toNat_ofNat', List.cons.injEq, and_true]
    omega
  rw [if_neg h2, if_neg h2]
  by_cases h3 : n ≤ 0xffff
  · rw [if_pos h3]
    split_ifs <;> first
      | omega
      | (refine congrArg Outcome.ok ?_
         simp only [List.map_cons, List.map_nil, UInt8.toNat_ofNat', List.cons.injEq, and_true]
         omega)
  rw [if_neg h3]
  split_ifs <;> first
    | omega
    | (refine congrArg Outcome.ok ?_
       simp only [List.map_cons, List.map_nil, UInt8.toNat_ofNat', List.cons.injEq, and_true]
       omega)

/-- C60. On any byte string the decoder returns the first character or throws; it never reads out of bounds. -/
theorem C60_decode (cs : List Nat) :
    (∃ c bs rest, c.isValidChar ∧ cs = bs ++ rest ∧ encodeUTF8 c = .ok bs ∧ decodeUTF8 cs = .ok c) ∨
      decodeUTF8 cs = .throws .runtimeError := by
  rcases cs with _ | ⟨a, cs⟩
  · exact .inr rfl
  rcases utf8_cases a cs with ⟨bs, rest, c, e, h⟩ | h
  · exact .inl ⟨c, bs, rest, h.valid, e, h.encode, by rw [e]; exact h.decode rest⟩
  · exact .inr h.2.1

example : decodeUTF8 [0xc0, 0x80] = .throws .runtimeError ∧ decodeUTF8 [0xe2, 0x82, 0xac, 7] = .ok 0x20ac := by decide

/-! ### C61 -/

/-- C61. The validator accepts a byte string with `n` characters exactly if it is the encoding of `n` scalar
values. -/
theorem C61_valid (cs : List Nat) (hb : Bytes cs) (n : Nat) : isValidUTF8 cs = .ok (some n) ↔
    ∃ codes : List Nat, codes.length = n ∧ (∀ c ∈ codes, c.isValidChar) ∧ encodeAll encodeUTF8 codes = .ok cs :=
  codec8.valid_some hb

/-- C61. The validator always returns, without reading out of bounds. -/
theorem C61_total (cs : List Nat) (hb : Bytes cs) : ∃ r, isValidUTF8 cs = .ok r := codec8.valid_total hb

/-- C61. The sequence of scalar values is unique. -/
theorem C61_unique (codes codes' cs : List Nat) (hv : ∀ c ∈ codes, c.isValidChar) (hv' : ∀ c ∈ codes', c.isValidChar)
    (h : encodeAll encodeUTF8 codes = .ok cs) (h' : encodeAll encodeUTF8 codes' = .ok cs) : codes = codes' :=
  codec8.enc_unique ((codec8.enc_iff hv).2 h) ((codec8.enc_iff hv').2 h')

example : isValidUTF8 [0x41, 0xc3, 0xa9] = .ok (some 2) ∧ Bytes [0x41, 0xc3, 0xa9] ∧
    encodeAll encodeUTF8 [0x41, 0xe9] = .ok [0x41, 0xc3, 0xa9] ∧ isValidUTF8 [0xed, 0xa0, 0x80] = .ok none := by
  refine ⟨by decide, ?_, by decide, by decide⟩
  unfold Bytes; decide

/-- C61 against Lean's own strings: the validator accepts a byte string with `n` characters exactly if it is the
UTF-8 form of `n` Lean characters. -/
theorem C61_string (b : List UInt8) (n : Nat) : isValidUTF8 (b.map UInt8.toNat) = .ok (some n) ↔
    ∃ l : List Char, l.length = n ∧ l.flatMap String.utf8EncodeChar = b := by
  have hb : Bytes (b.map UInt8.toNat) := by
    intro x hx
    obtain ⟨u, _, rfl⟩ := List.mem_map.1 hx
    exact u.toNat_lt
  have enc : ∀ l : List Char, encodeAll encodeUTF8 (l.map Char.toNat) =
      .ok ((l.flatMap String.utf8EncodeChar).map UInt8.toNat) := by
    intro l
    induction l with
    | nil => rfl
    | cons c l ih => simp [encodeAll, C60_standard, ih]
  rw [C61_valid _ hb]
  constructor
  · rintro ⟨codes, hl, hv, he⟩
    refine ⟨codes.pmap (fun c h => Char.ofNatAux c h) hv, by simpa using hl, ?_⟩
    have hm : (codes.pmap (fun c h => Char.ofNatAux c h) hv).map Char.toNat = codes := by
      rw [List.map_pmap]
      have : ∀ (c : Nat) (h : c.isValidChar), (Char.ofNatAux c h).toNat = c := fun c h => rfl
      simp [this]
    have := enc (codes.pmap (fun c h => Char.ofNatAux c h) hv)
    rw [hm, he] at this
    simp only [Outcome.ok.injEq] at this
    exact (List.map_injective_iff.2 (fun _ _ h => UInt8.toNat_inj.1 h) this).symm
  · rintro ⟨l, hl, rfl⟩
    refine ⟨l.map Char.toNat, by simpa using hl, ?_, enc l⟩
    intro c hc
    obtain ⟨u, _, rfl⟩ := List.mem_map.1 hc
    exact u.valid

example : ["é".toList].flatMap id = ['é'] ∧ (['é'].flatMap String.utf8EncodeChar).map UInt8.toNat = [0xc3, 0xa9] := by
  decide

/-! ### C62, C63 -/

theorem be_of_valid {c : Nat} (hc : c.isValidChar) : FormBE ((units c).flatMap be) c := by
  unfold Nat.isValidChar at hc
  unfold units be
  by_cases h : c < 0x10000
  · rw [if_pos h]
    have := FormBE.one (c / 256) (c % 256) (by omega) (by omega) (by omega)
    simp only [List.flatMap_cons, List.flatMap_nil, List.append_nil]
    convert this using 1; omega
  · rw [if_neg h]
    have := FormBE.pair ((c - 0x10000) / 1024 / 256 + 0xD8) ((c - 0x10000) / 1024 % 256)
      (c % 1024 / 256 + 0xDC) (c % 256) (by omega) (by omega) (by omega) (by omega) (by omega) (by omega)
    simp only [List.flatMap_cons, List.flatMap_nil, List.append_nil, List.cons_append, List.nil_append]
    convert this using 1
    · simp only [List.cons.injEq, and_true]; omega
    · omega

theorem le_of_valid {c : Nat} (hc : c.isValidChar) : FormLE ((units c).flatMap le) c := by
  unfold Nat.isValidChar at hc
  unfold units le
  by_cases h : c < 0x10000
  · rw [if_pos h]
    have := FormLE.one (c % 256) (c / 256) (by omega) (by omega) (by omega)
    simp only [List.flatMap_cons, List.flatMap_nil, List.append_nil]
    convert this using 1; omega
  · rw [if_neg h]
    have := FormLE.pair ((c - 0x10000) / 1024 % 256) ((c - 0x10000) / 1024 / 256 + 0xD8)
      (c % 256) (c % 1024 / 256 + 0xDC) (by omega) (by omega) (by omega) (by omega) (by omega) (by omega)
    simp only [List.flatMap_cons, List.flatMap_nil, List.append_nil, List.cons_append, List.nil_append]
    convert this using 1
    · simp only [List.cons.injEq, and_true]; omega
    · omega

/-- C62. Every scalar value is encoded by its UTF-16 units in big-endian order, which are one valid character and
decode to it, whatever follows. -/
theorem C62_be (c : Nat) (hc : c.isValidChar) : ∃ bs, encodeUTF16BE c = .ok bs ∧ bs = (units c).flatMap be ∧
    Bytes bs ∧ isValidUTF16BE bs = .ok (some 1) ∧ ∀ rest, decodeUTF16BE (bs ++ rest) = .ok c := by
  have h := be_of_valid hc
  refine ⟨_, h.encode, rfl, h.bytes.2, ?_, h.decode⟩
  exact (codecBE.valid_some h.bytes.2).2 ⟨[c], rfl, by simpa using hc, by simp [encodeAll, h.encode]⟩

/-- C62, little-endian. -/
theorem C62_le (c : Nat) (hc : c.isValidChar) : ∃ bs, encodeUTF16LE c = .ok bs ∧ bs = (units c).flatMap le ∧
    Bytes bs ∧ isValidUTF16LE bs = .ok (some 1) ∧ ∀ rest, decodeUTF16LE (bs ++ rest) = .ok c := by
  have h := le_of_valid hc
  refine ⟨_, h.encode, rfl, h.bytes.2, ?_, h.decode⟩
  exact (codecLE.valid_some h.bytes.2).2 ⟨[c], rfl, by simpa using hc, by simp [encodeAll, h.encode]⟩

example : encodeUTF16BE 0x1F600 = .ok [0xD8, 0x3D, 0xDE, 0x00] ∧ encodeUTF16LE 0x20ac = .ok [0xac, 0x20] := by decide

/-- Which codes the surrogate computation accepts. -/
theorem surrogates_iff {c : Nat} (hc : c < 2 ^ 32) (hn : ¬ (c ≤ 0xd7FF ∨ (0xE000 ≤ c ∧ c ≤ 0xFFFF))) :
    (surrogates c ≠ .throws .runtimeError ↔ 0x10000 ≤ c ∧ (c - 0x10000) % 2 ^ 26 < 2 ^ 20) ∧
    (surrogates c ≠ .throws .runtimeError → surrogates c = surrogates (0x10000 + (c - 0x10000) % 2 ^ 26)) := by
  have key : ∀ c, c < 2 ^ 32 → 0x10000 ≤ c → surrogates c = surrogates (0x10000 + (c - 0x10000) % 2 ^ 26) := by
    intro c hc h
    unfold surrogates
    have e1 : (0xD800 + (c + (2 ^ 32 - 0x10000)) % 2 ^ 32 / 2 ^ 10) % 2 ^ 16 =
        (0xD800 + (0x10000 + (c - 0x10000) % 2 ^ 26 + (2 ^ 32 - 0x10000)) % 2 ^ 32 / 2 ^ 10) % 2 ^ 16 := by omega
    have e2 : (c + (2 ^ 32 - 0x10000)) % 2 ^ 32 % 2 ^ 10 =
        (0x10000 + (c - 0x10000) % 2 ^ 26 + (2 ^ 32 - 0x10000)) % 2 ^ 32 % 2 ^ 10 := by omega
    simp only [e1, e2]
  have low : ∀ c, c < 2 ^ 32 → ¬ (c ≤ 0xd7FF ∨ (0xE000 ≤ c ∧ c ≤ 0xFFFF)) → c < 0x10000 →
      surrogates c = .throws .runtimeError := by
    intro c hc hn h
    unfold surrogates
    have e : btw 0xD8 0xDB ((0xD800 + (c + (2 ^ 32 - 0x10000)) % 2 ^ 32 / 2 ^ 10) % 2 ^ 16 / 2 ^ 8) = false := by
      rw [Bool.eq_false_iff, Ne, btw_iff]; omega
    simp [e]
  have mid : ∀ d, d < 2 ^ 26 → (surrogates (0x10000 + d) ≠ .throws .runtimeError ↔ d < 2 ^ 20) := by
    intro d hd
    unfold surrogates
    have e0 : (0x10000 + d + (2 ^ 32 - 0x10000)) % 2 ^ 32 = d := by omega
    simp only [e0]
    have e2 : btw 0xDC 0xDF ((0xDC00 + d % 2 ^ 10) % 2 ^ 16 / 2 ^ 8) = true := by rw [btw_iff]; omega
    by_cases h : d < 2 ^ 20
    · have e1 : btw 0xD8 0xDB ((0xD800 + d / 2 ^ 10) % 2 ^ 16 / 2 ^ 8) = true := by rw [btw_iff]; omega
      simp [e1, e2, h]
    · have e1 : btw 0xD8 0xDB ((0xD800 + d / 2 ^ 10) % 2 ^ 16 / 2 ^ 8) = false := by
        rw [Bool.eq_false_iff, Ne, btw_iff]; omega
      simp [e1, h]
  by_cases h : c < 0x10000
  · have := low c hc hn h
    exact ⟨⟨fun h => absurd this h, fun h' => by omega⟩, fun h => absurd this h⟩
  · have k := key c hc (by omega)
    refine ⟨?_, fun _ => k⟩
    rw [k, mid _ (Nat.mod_lt _ (by omega))]
    omega

/-- C62, rejection, as far as it holds: codes up to 0x10FFFF that are not scalar values are rejected, and of the
larger ones exactly those are accepted whose distance from 0x10000 is below 2^20 modulo 2^26. Missing: the
rejection of those (see `C62_violated`). -/
theorem C62_reject_partial (c : Nat) (hc : c < 2 ^ 32) (hn : ¬ c.isValidChar) :
    (encodeUTF16BE c = .throws .runtimeError ↔ c ≤ 0x10FFFF ∨ 2 ^ 20 ≤ (c - 0x10000) % 2 ^ 26) ∧
    (encodeUTF16LE c = .throws .runtimeError ↔ c ≤ 0x10FFFF ∨ 2 ^ 20 ≤ (c - 0x10000) % 2 ^ 26) := by
  have hv := hn
  unfold Nat.isValidChar at hn
  have hn' : ¬ (c ≤ 0xd7FF ∨ (0xE000 ≤ c ∧ c ≤ 0xFFFF)) := by omega
  have h := (surrogates_iff hc hn').1
  have key : surrogates c = .throws .runtimeError ↔ c ≤ 0x10FFFF ∨ 2 ^ 20 ≤ (c - 0x10000) % 2 ^ 26 := by
    rw [← not_iff_not, ← Ne, h]
    omega
  have b : ∀ f : Nat × Nat × Nat × Nat → List Nat,
      (surrogates c >>= fun p => Outcome.ok (f p)) = .throws .runtimeError ↔ surrogates c = .throws .runtimeError := by
    intro f
    cases surrogates c <;> simp
  constructor
  · rw [← key]
    unfold encodeUTF16BE
    rw [if_neg hn']
    exact b fun p => [p.1, p.2.1, p.2.2.1, p.2.2.2]
  · rw [← key]
    unfold encodeUTF16LE
    rw [if_neg hn']
    exact b fun p => [p.2.1, p.1, p.2.2.2, p.2.2.1]

example : encodeUTF16BE 0xDABC = .throws .runtimeError ∧ encodeUTF16LE 0x110000 = .throws .runtimeError := by decide

/-- C62 is violated: the code 0x401F600 is not a Unicode code point but both encoders accept it and produce the
encoding of U+1F600. -/
theorem C62_violated : ¬ Nat.isValidChar 0x401F600 ∧ encodeUTF16BE 0x401F600 = encodeUTF16BE 0x1F600 ∧
    encodeUTF16LE 0x401F600 = encodeUTF16LE 0x1F600 ∧ encodeUTF16BE 0x401F600 = .ok [0xD8, 0x3D, 0xDE, 0x00] := by
  decide

/-! ### C115 -/

/-- The byte string does not begin with the encoding of a scalar value. -/
def Malformed (enc : Nat → Outcome (List Nat)) (cs : List Nat) : Prop :=
  ¬ ∃ c bs rest, c.isValidChar ∧ enc c = .ok bs ∧ cs = bs ++ rest

/-- C115 is violated: every string that begins with a surrogate which is not a high one followed by a low one, and
goes on for at least two more bytes, is malformed, but the decoder returns a number. -/
theorem C115_utf16be_violated (a b c d : Nat) (rest : List Nat) (h1 : 0xD8 ≤ a) (h2 : a ≤ 0xDF)
    (h3 : ¬ (a ≤ 0xDB ∧ 0xDC ≤ c ∧ c ≤ 0xDF)) :
    Malformed encodeUTF16BE (a :: b :: c :: d :: rest) ∧
      ∃ code, decodeUTF16BE (a :: b :: c :: d :: rest) = .ok code := by
  constructor
  · rintro ⟨code, bs, rest', hv, he, hcs⟩
    have hf := be_of_valid hv
    rw [hf.encode] at he
    cases he
    generalize (units code).flatMap be = bs at hf hcs
    cases hf with
    | one a' b' =>
      simp at hcs
      omega
    | pair a' b' c' d' =>
      simp at hcs
      omega
  · unfold decodeUTF16BE
    simp only [rd, List.length_cons, List.getElem?_cons_zero, List.getElem?_cons_succ, Outcome.ok_bind]
    rw [if_neg (by omega), if_neg (by simp; omega), if_neg (by simp; omega), if_neg (by omega)]
    exact ⟨_, rfl⟩

/-- C115 is violated, little-endian. -/
theorem C115_utf16le_violated (a b c d : Nat) (rest : List Nat) (h1 : 0xD8 ≤ b) (h2 : b ≤ 0xDF)
    (h3 : ¬ (b ≤ 0xDB ∧ 0xDC ≤ d ∧ d ≤ 0xDF)) :
    Malformed encodeUTF16LE (a :: b :: c :: d :: rest) ∧
      ∃ code, decodeUTF16LE (a :: b :: c :: d :: rest) = .ok code := by
  constructor
  · rintro ⟨code, bs, rest', hv, he, hcs⟩
    have hf := le_of_valid hv
    rw [hf.encode] at he
    cases he
    generalize (units code).flatMap le = bs at hf hcs
    cases hf with
    | one a' b' =>
      simp at hcs
      omega
    | pair a' b' c' d' =>
      simp at hcs
      omega
  · unfold decodeUTF16LE
    simp only [rd, List.length_cons, List.getElem?_cons_zero, List.getElem?_cons_succ, Outcome.ok_bind]
    rw [if_neg (by omega), if_neg (by simp; omega), if_neg (by simp; omega), if_neg (by omega)]
    exact ⟨_, rfl⟩

/-- A high surrogate followed by the letter A decodes to a number that is no scalar value. -/
example : decodeUTF16BE [0xD8, 0, 0, 0x41] = .ok 0x2441 ∧ decodeUTF16BE [0xDF, 0xFF, 0xDF, 0xFF] = .ok 0x20FFFF := by
  decide

/-- C115, the part that holds: the decoders never read out of bounds, and they reject every malformed string, except
for those of `C115_utf16be_violated` and `C115_utf16le_violated`. Missing: the rejection of these. -/
theorem C115_reject_partial (cs : List Nat) (hb : Bytes cs) :
    ((∃ c, decodeUTF16BE cs = .ok c) ∨ decodeUTF16BE cs = .throws .runtimeError) ∧
    ((∃ c, decodeUTF16LE cs = .ok c) ∨ decodeUTF16LE cs = .throws .runtimeError) ∧
    (Malformed encodeUTF16BE cs → decodeUTF16BE cs = .throws .runtimeError ∨
      ∃ a b c d rest, cs = a :: b :: c :: d :: rest ∧ 0xD8 ≤ a ∧ a ≤ 0xDF ∧ ¬ (a ≤ 0xDB ∧ 0xDC ≤ c ∧ c ≤ 0xDF)) ∧
    (Malformed encodeUTF16LE cs → decodeUTF16LE cs = .throws .runtimeError ∨
      ∃ a b c d rest, cs = a :: b :: c :: d :: rest ∧ 0xD8 ≤ b ∧ b ≤ 0xDF ∧ ¬ (b ≤ 0xDB ∧ 0xDC ≤ d ∧ d ≤ 0xDF)) := by
  have hbe : ∀ {bs c rest}, FormBE bs c → ¬ Malformed encodeUTF16BE (bs ++ rest) := fun hf hm =>
    hm ⟨_, _, _, hf.valid, hf.encode, rfl⟩
  have hle : ∀ {bs c rest}, FormLE bs c → ¬ Malformed encodeUTF16LE (bs ++ rest) := fun hf hm =>
    hm ⟨_, _, _, hf.valid, hf.encode, rfl⟩
  match cs, hb with
  | [], _ => exact ⟨.inr rfl, .inr rfl, fun _ => .inl rfl, fun _ => .inl rfl⟩
  | [a], _ => exact ⟨.inr rfl, .inr rfl, fun _ => .inl rfl, fun _ => .inl rfl⟩
  | a :: b :: rest, hb =>
    have ha : a < 256 := hb a (by simp)
    have hb' : b < 256 := hb b (by simp)
    have key : ∀ hi : Nat, (hi ≤ 0xD7 ∨ 0xE0 ≤ hi) ∨ (0xD8 ≤ hi ∧ hi ≤ 0xDF) := fun hi => by omega
    refine ⟨?_, ?_, ?_, ?_⟩
    · unfold decodeUTF16BE
      simp only [rd, List.length_cons, List.getElem?_cons_zero, List.getElem?_cons_succ, Outcome.ok_bind]
      rw [if_neg (by omega)]
      split_ifs
      · exact .inl ⟨_, rfl⟩
      · exact .inl ⟨_, rfl⟩
      · exact .inr rfl
      · match rest with
        | c :: d :: rest => exact .inl ⟨_, rfl⟩
        | [] => simp at *
        | [c] => simp at *
    · unfold decodeUTF16LE
      simp only [rd, List.length_cons, List.getElem?_cons_zero, List.getElem?_cons_succ, Outcome.ok_bind]
      rw [if_neg (by omega)]
      split_ifs
      · exact .inl ⟨_, rfl⟩
      · exact .inl ⟨_, rfl⟩
      · exact .inr rfl
      · match rest with
        | c :: d :: rest => exact .inl ⟨_, rfl⟩
        | [] => simp at *
        | [c] => simp at *
    · intro hm
      rcases key a with h | h
      · exact absurd hm (hbe (.one a b ha hb' h))
      · by_cases hl : rest.length < 2
        · left
          unfold decodeUTF16BE
          simp only [rd, List.length_cons, List.getElem?_cons_zero, List.getElem?_cons_succ, Outcome.ok_bind]
          rw [if_neg (by omega), if_neg (by simp; omega), if_neg (by simp; omega), if_pos (by omega)]
        · match rest, hl with
          | c :: d :: rest, _ =>
            refine .inr ⟨a, b, c, d, rest, rfl, h.1, h.2, fun hp => ?_⟩
            exact hbe (.pair a b c d h.1 hp.1 hb' hp.2.1 hp.2.2 (hb d (by simp))) hm
          | [], hl => simp at hl
          | [c], hl => simp at hl
    · intro hm
      rcases key b with h | h
      · exact absurd hm (hle (.one a b ha hb' h))
      · by_cases hl : rest.length < 2
        · left
          unfold decodeUTF16LE
          simp only [rd, List.length_cons, List.getElem?_cons_zero, List.getElem?_cons_succ, Outcome.ok_bind]
          rw [if_neg (by omega), if_neg (by simp; omega), if_neg (by simp; omega), if_pos (by omega)]
        · match rest, hl with
          | c :: d :: rest, _ =>
            refine .inr ⟨a, b, c, d, rest, rfl, h.1, h.2, fun hp => ?_⟩
            exact hle (.pair a b c d h.1 hp.1 ha hp.2.1 hp.2.2 (hb c (by simp))) hm
          | [], hl => simp at hl
          | [c], hl => simp at hl

example : Malformed encodeUTF16BE [0xDC, 0] ∧ decodeUTF16BE [0xDC, 0] = .throws .runtimeError := by
  refine ⟨?_, by decide⟩
  rintro ⟨code, bs, rest, hv, he, hcs⟩
  have hf := be_of_valid hv
  rw [hf.encode] at he
  cases he
  generalize (units code).flatMap be = bs at hf hcs
  cases hf <;> simp at hcs
  omega

/-- C63. The UTF-16 BE validator accepts a byte string with `n` characters exactly if it is the encoding of `n`
scalar values. -/
theorem C63_be (cs : List Nat) (hb : Bytes cs) (n : Nat) : isValidUTF16BE cs = .ok (some n) ↔
    ∃ codes : List Nat, codes.length = n ∧ (∀ c ∈ codes, c.isValidChar) ∧ encodeAll encodeUTF16BE codes = .ok cs :=
  codecBE.valid_some hb

/-- C63, little-endian. -/
theorem C63_le (cs : List Nat) (hb : Bytes cs) (n : Nat) : isValidUTF16LE cs = .ok (some n) ↔
    ∃ codes : List Nat, codes.length = n ∧ (∀ c ∈ codes, c.isValidChar) ∧ encodeAll encodeUTF16LE codes = .ok cs :=
  codecLE.valid_some hb

/-- C63. The validators always return, without reading out of bounds. -/
theorem C63_total (cs : List Nat) (hb : Bytes cs) :
    (∃ r, isValidUTF16BE cs = .ok r) ∧ ∃ r, isValidUTF16LE cs = .ok r :=
  ⟨codecBE.valid_total hb, codecLE.valid_total hb⟩

/-- C63. The sequence of scalar values is unique. -/
theorem C63_unique (codes codes' cs : List Nat) (hv : ∀ c ∈ codes, c.isValidChar) (hv' : ∀ c ∈ codes', c.isValidChar) :
    (encodeAll encodeUTF16BE codes = .ok cs → encodeAll encodeUTF16BE codes' = .ok cs → codes = codes') ∧
    (encodeAll encodeUTF16LE codes = .ok cs → encodeAll encodeUTF16LE codes' = .ok cs → codes = codes') :=
  ⟨fun h h' => codecBE.enc_unique ((codecBE.enc_iff hv).2 h) ((codecBE.enc_iff hv').2 h'),
    fun h h' => codecLE.enc_unique ((codecLE.enc_iff hv).2 h) ((codecLE.enc_iff hv').2 h')⟩

example : isValidUTF16BE [0xD8, 0x3D, 0xDE, 0x00, 0, 0x41] = .ok (some 2) ∧ isValidUTF16BE [0xDE, 0, 0xD8, 0] = .ok none ∧
    encodeAll encodeUTF16BE [0x1F600, 0x41] = .ok [0xD8, 0x3D, 0xDE, 0x00, 0, 0x41] := by decide

/-! ### C64 -/

theorem cesu_of_valid {c : Nat} (hc : c.isValidChar) : FormC ((units c).flatMap cesu) c := by
  unfold Nat.isValidChar at hc
  unfold units cesu
  by_cases h : c < 0x10000
  · rw [if_pos h]
    simp only [List.flatMap_cons, List.flatMap_nil, List.append_nil]
    by_cases h1 : c < 0x80
    · rw [if_pos h1]; exact .one c (by omega)
    rw [if_neg h1]
    by_cases h2 : c < 0x800
    · rw [if_pos h2]
      have := FormC.two (0xC0 + c / 0x40) (0x80 + c % 0x40) (by omega) (by omega) (by omega) (by omega)
      convert this using 1; omega
    rw [if_neg h2]
    by_cases h3 : c ≤ 0xfff
    · have := FormC.e0 (0xE0 + c / 0x1000) (0x80 + c / 0x40 % 0x40) (0x80 + c % 0x40) (by omega) (by omega) (by omega)
        (by omega) (by omega)
      convert this using 1; omega
    by_cases h4 : c ≤ 0xcfff
    · have := FormC.e1 (0xE0 + c / 0x1000) (0x80 + c / 0x40 % 0x40) (0x80 + c % 0x40) (by omega) (by omega) (by omega)
        (by omega) (by omega) (by omega)
      convert this using 1; omega
    by_cases h5 : c ≤ 0xd7ff
    · have := FormC.ed (0xE0 + c / 0x1000) (0x80 + c / 0x40 % 0x40) (0x80 + c % 0x40) (by omega) (by omega) (by omega)
        (by omega) (by omega)
      convert this using 1; omega
    · have := FormC.ee (0xE0 + c / 0x1000) (0x80 + c / 0x40 % 0x40) (0x80 + c % 0x40) (by omega) (by omega) (by omega)
        (by omega) (by omega) (by omega)
      convert this using 1; omega
  · rw [if_neg h]
    generalize hu : 0xD800 + (c - 0x10000) / 0x400 = u
    generalize hw : 0xDC00 + (c - 0x10000) % 0x400 = w
    simp only [List.flatMap_cons, List.flatMap_nil, List.append_nil]
    rw [if_neg (by omega), if_neg (by omega), if_neg (by omega), if_neg (by omega)]
    have := FormC.pair (0xE0 + u / 0x1000) (0x80 + u / 0x40 % 0x40) (0x80 + u % 0x40) (0xE0 + w / 0x1000)
      (0x80 + w / 0x40 % 0x40) (0x80 + w % 0x40) (by omega) (by omega) (by omega) (by omega) (by omega) (by omega)
      (by omega) (by omega) (by omega) (by omega)
    simp only [List.cons_append, List.nil_append]
    convert this using 1
    omega

/-- C64. Every scalar value is encoded by its CESU-8 bytes, which are one valid character and decode to it, whatever
follows. -/
theorem C64_scalar (c : Nat) (hc : c.isValidChar) : ∃ bs, encodeCESU8 c = .ok bs ∧ bs = (units c).flatMap cesu ∧
    Bytes bs ∧ isValidCESU8 bs = .ok (some 1) ∧ ∀ rest, decodeCESU8 (bs ++ rest) = .ok c := by
  have h := cesu_of_valid hc
  refine ⟨_, h.encode, rfl, h.bytes.2, ?_, h.decode⟩
  exact (codecC.valid_some h.bytes.2).2 ⟨[c], rfl, by simpa using hc, by simp [encodeAll, h.encode]⟩

example : encodeCESU8 0x1F600 = .ok [0xed, 0xa0, 0xbd, 0xed, 0xb8, 0x80] := by decide

/-- C64. Every other number is rejected. -/
theorem C64_reject (c : Nat) (hc : ¬ c.isValidChar) : encodeCESU8 c = .throws .runtimeError := encodeCESU8_throws hc

/-- C64. On any byte string the decoder returns the first character or throws; it never reads out of bounds. -/
theorem C64_decode (cs : List Nat) :
    (∃ c bs rest, c.isValidChar ∧ cs = bs ++ rest ∧ encodeCESU8 c = .ok bs ∧ decodeCESU8 cs = .ok c) ∨
      decodeCESU8 cs = .throws .runtimeError := by
  rcases cs with _ | ⟨a, cs⟩
  · exact .inr rfl
  rcases cesu8_cases a cs with ⟨bs, rest, c, e, h⟩ | h
  · exact .inl ⟨c, bs, rest, h.valid, e, h.encode, by rw [e]; exact h.decode rest⟩
  · exact .inr h.2.1

/-- C64. The validator accepts a byte string with `n` characters exactly if it is the encoding of `n` scalar
values. -/
theorem C64_valid (cs : List Nat) (hb : Bytes cs) (n : Nat) : isValidCESU8 cs = .ok (some n) ↔
    ∃ codes : List Nat, codes.length = n ∧ (∀ c ∈ codes, c.isValidChar) ∧ encodeAll encodeCESU8 codes = .ok cs :=
  codecC.valid_some hb

/-- C64. The validator always returns, without reading out of bounds. -/
theorem C64_total (cs : List Nat) (hb : Bytes cs) : ∃ r, isValidCESU8 cs = .ok r := codecC.valid_total hb

/-- C64. The sequence of scalar values is unique. -/
theorem C64_unique (codes codes' cs : List Nat) (hv : ∀ c ∈ codes, c.isValidChar) (hv' : ∀ c ∈ codes', c.isValidChar)
    (h : encodeAll encodeCESU8 codes = .ok cs) (h' : encodeAll encodeCESU8 codes' = .ok cs) : codes = codes' :=
  codecC.enc_unique ((codecC.enc_iff hv).2 h) ((codecC.enc_iff hv').2 h')

example : isValidCESU8 [0xed, 0xa0, 0xbd, 0xed, 0xb8, 0x80, 0x41] = .ok (some 2) ∧
    isValidCESU8 [0xf0, 0x9f, 0x98, 0x80] = .ok none := by decide

end Unicode
end Verif
