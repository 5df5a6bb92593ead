import Verif.Model.Unicode
import Mathlib.Tactic.SplitIfs
import Mathlib.Tactic.Convert
/-! Helper lemmas for Unicode encodings. -/
namespace Verif
namespace Unicode

@[simp] theorem rd_zero (a : Nat) (l : List Nat) : rd (a :: l) 0 = .ok a := rfl
@[simp] theorem rd_one (a b : Nat) (l : List Nat) : rd (a :: b :: l) 1 = .ok b := rfl
@[simp] theorem rd_two (a b c : Nat) (l : List Nat) : rd (a :: b :: c :: l) 2 = .ok c := rfl
@[simp] theorem rd_three (a b c d : Nat) (l : List Nat) : rd (a :: b :: c :: d :: l) 3 = .ok d := rfl
@[simp] theorem rd_four (a b c d e : Nat) (l : List Nat) : rd (a :: b :: c :: d :: e :: l) 4 = .ok e := rfl
@[simp] theorem rd_five (a b c d e f : Nat) (l : List Nat) :
    rd (a :: b :: c :: d :: e :: f :: l) 5 = .ok f := rfl
theorem btw_iff {lo hi b : Nat} : btw lo hi b = true ↔ lo ≤ b ∧ b ≤ hi := by simp [btw]

/-- Proves a condition of the encoders and decoders or its negation. -/
macro "cond" : tactic =>
  `(tactic| ((try simp only [Bool.and_eq_true, Bool.or_eq_true, Bool.not_eq_true', Bool.and_eq_false_iff, btw_iff, decide_eq_true_eq,
      List.length_cons]); omega))
/-- Resolves all `if`s whose conditions follow from the context. -/
macro "ifs" : tactic =>
  `(tactic| repeat' (first
    | rw [if_neg (by cond)]
    | rw [if_pos (by cond)]
    | simp only [rd_zero, rd_one, rd_two, rd_three, rd_four, rd_five, Outcome.ok_bind]))

/-- The table of legal UTF-8 sequences, /repo/proptest/util/utf8string.cpp:43-57: bytes and code. -/
inductive Form8 : List Nat → Nat → Prop
  | one (a) : a ≤ 0x7f → Form8 [a] a
  | two (a b) : 0xc2 ≤ a → a ≤ 0xdf → 0x80 ≤ b → b ≤ 0xbf → Form8 [a, b] (0x80 + (a - 0xc2) * 64 + (b - 0x80))
  | e0 (a b c) : a = 0xe0 → 0xa0 ≤ b → b ≤ 0xbf → 0x80 ≤ c → c ≤ 0xbf →
      Form8 [a, b, c] (0x800 + (b - 0xa0) * 64 + (c - 0x80))
  | e1 (a b c) : 0xe1 ≤ a → a ≤ 0xec → 0x80 ≤ b → b ≤ 0xbf → 0x80 ≤ c → c ≤ 0xbf →
      Form8 [a, b, c] (0x1000 + (a - 0xe1) * 4096 + (b - 0x80) * 64 + (c - 0x80))
  | ed (a b c) : a = 0xed → 0x80 ≤ b → b ≤ 0x9f → 0x80 ≤ c → c ≤ 0xbf →
      Form8 [a, b, c] (0xD000 + (b - 0x80) * 64 + (c - 0x80))
  | ee (a b c) : 0xee ≤ a → a ≤ 0xef → 0x80 ≤ b → b ≤ 0xbf → 0x80 ≤ c → c ≤ 0xbf →
      Form8 [a, b, c] (0xE000 + (a - 0xee) * 4096 + (b - 0x80) * 64 + (c - 0x80))
  | f0 (a b c d) : a = 0xf0 → 0x90 ≤ b → b ≤ 0xbf → 0x80 ≤ c → c ≤ 0xbf → 0x80 ≤ d → d ≤ 0xbf →
      Form8 [a, b, c, d] (0x10000 + (b - 0x90) * 4096 + (c - 0x80) * 64 + (d - 0x80))
  | f1 (a b c d) : 0xf1 ≤ a → a ≤ 0xf3 → 0x80 ≤ b → b ≤ 0xbf → 0x80 ≤ c → c ≤ 0xbf → 0x80 ≤ d → d ≤ 0xbf →
      Form8 [a, b, c, d] (0x40000 + (a - 0xf1) * 262144 + (b - 0x80) * 4096 + (c - 0x80) * 64 + (d - 0x80))
  | f4 (a b c d) : a = 0xf4 → 0x80 ≤ b → b ≤ 0x8f → 0x80 ≤ c → c ≤ 0xbf → 0x80 ≤ d → d ≤ 0xbf →
      Form8 [a, b, c, d] (0x100000 + (b - 0x80) * 4096 + (c - 0x80) * 64 + (d - 0x80))

theorem Form8.valid {bs : List Nat} {c : Nat} (h : Form8 bs c) : c.isValidChar := by
  unfold Nat.isValidChar
  cases h <;> omega

theorem Form8.bytes {bs : List Nat} {c : Nat} (h : Form8 bs c) : bs ≠ [] ∧ ∀ x ∈ bs, x < 256 := by
  cases h <;> refine ⟨by simp, ?_⟩ <;> intro x hx <;>
    simp only [List.mem_cons, List.not_mem_nil, or_false] at hx <;> omega

theorem Form8.encode {bs : List Nat} {c : Nat} (h : Form8 bs c) : encodeUTF8 c = .ok bs := by
  unfold encodeUTF8
  cases h <;> ifs <;> refine congrArg Outcome.ok ?_ <;> simp only [List.cons.injEq, and_true] <;> omega

theorem Form8.decode {bs : List Nat} {c : Nat} (h : Form8 bs c) (rest : List Nat) :
    decodeUTF8 (bs ++ rest) = .ok c := by
  unfold decodeUTF8
  cases h <;> simp only [List.cons_append, List.nil_append] <;> ifs <;> exact congrArg Outcome.ok (by omega)

theorem Form8.step {bs : List Nat} {c : Nat} (h : Form8 bs c) (rest : List Nat) :
    validUTF8Step (bs ++ rest) = .ok (some (bs.length - 1)) := by
  unfold validUTF8Step
  cases h <;> simp only [List.cons_append, List.nil_append] <;> ifs <;> rfl

theorem code_eq {x y k j : Nat} (h : x = y) (hk : k = j) :
    (Outcome.ok (Tok.code x, k) : Outcome (Tok × Nat)) = .ok (.code y, j) := by rw [h, hk]

theorem Form8.print {bs : List Nat} {c : Nat} (h : Form8 bs c) (rest : List Nat) :
    printUTF8Step (bs ++ rest) = .ok (if c ≤ 0x7f then .ascii c else .code c, bs.length - 1) := by
  unfold printUTF8Step
  cases h
  case one h => simp [h]
  all_goals
    simp only [List.cons_append, List.nil_append, List.length_cons, List.length_nil]
    ifs
    all_goals first | (refine code_eq ?_ ?_ <;> omega) | rfl

theorem form8_of_valid {c : Nat} (hc : c.isValidChar) : ∃ bs, Form8 bs c := by
  unfold Nat.isValidChar at hc
  by_cases h1 : c ≤ 0x7f
  · exact ⟨_, .one c h1⟩
  by_cases h2 : c ≤ 0x7ff
  · refine ⟨[(c - 0x80) / 64 + 0xc2, c % 64 + 0x80], ?_⟩
    have := Form8.two ((c - 0x80) / 64 + 0xc2) (c % 64 + 0x80) (by omega) (by omega) (by omega) (by omega)
    convert this using 1; omega
  by_cases h3 : c ≤ 0xfff
  · have := Form8.e0 0xe0 ((c - 0x800) / 64 + 0xa0) (c % 64 + 0x80) rfl (by omega) (by omega) (by omega) (by omega)
    exact ⟨_, by convert this using 1; omega⟩
  by_cases h4 : c ≤ 0xcfff
  · have := Form8.e1 ((c - 0x1000) / 4096 + 0xe1) ((c - 0x1000) / 64 % 64 + 0x80) (c % 64 + 0x80)
      (by omega) (by omega) (by omega) (by omega) (by omega) (by omega)
    exact ⟨_, by convert this using 1; omega⟩
  by_cases h5 : c ≤ 0xd7ff
  · have := Form8.ed 0xed ((c - 0xd000) / 64 + 0x80) (c % 64 + 0x80) rfl (by omega) (by omega) (by omega) (by omega)
    exact ⟨_, by convert this using 1; omega⟩
  by_cases h6 : c ≤ 0xffff
  · have := Form8.ee ((c - 0xe000) / 4096 + 0xee) ((c - 0xe000) / 64 % 64 + 0x80) (c % 64 + 0x80)
      (by omega) (by omega) (by omega) (by omega) (by omega) (by omega)
    exact ⟨_, by convert this using 1; omega⟩
  by_cases h7 : c ≤ 0x3ffff
  · have := Form8.f0 0xf0 ((c - 0x10000) / 4096 + 0x90) ((c - 0x10000) / 64 % 64 + 0x80) (c % 64 + 0x80) rfl
      (by omega) (by omega) (by omega) (by omega) (by omega) (by omega)
    exact ⟨_, by convert this using 1; omega⟩
  by_cases h8 : c ≤ 0xfffff
  · have := Form8.f1 ((c - 0x40000) / 262144 + 0xf1) ((c - 0x40000) / 4096 % 64 + 0x80)
      ((c - 0x40000) / 64 % 64 + 0x80) (c % 64 + 0x80)
      (by omega) (by omega) (by omega) (by omega) (by omega) (by omega) (by omega) (by omega)
    exact ⟨_, by convert this using 1; omega⟩
  · have := Form8.f4 0xf4 ((c - 0x100000) / 4096 + 0x80) ((c - 0x100000) / 64 % 64 + 0x80) (c % 64 + 0x80) rfl
      (by omega) (by omega) (by omega) (by omega) (by omega) (by omega)
    exact ⟨_, by convert this using 1; omega⟩

theorem encodeUTF8_throws {c : Nat} (hc : ¬ c.isValidChar) : encodeUTF8 c = .throws .runtimeError := by
  unfold Nat.isValidChar at hc
  unfold encodeUTF8
  by_cases h : c ≤ 0xDFFF
  · ifs
  · ifs

/-- A non-empty byte string starts with a legal UTF-8 sequence or is rejected by all three functions. -/
theorem utf8_cases (a : Nat) (cs : List Nat) : (∃ bs rest c, a :: cs = bs ++ rest ∧ Form8 bs c) ∨
    (validUTF8Step (a :: cs) = .ok none ∧ decodeUTF8 (a :: cs) = .throws .runtimeError ∧
      printUTF8Step (a :: cs) = .ok (.hex a, 0) ∧ 0x80 ≤ a) := by
  by_cases h1 : a ≤ 0x7f
  · exact .inl ⟨[a], cs, a, rfl, .one a h1⟩
  rcases cs with _ | ⟨b, cs⟩
  · refine .inr ?_
    unfold validUTF8Step decodeUTF8 printUTF8Step
    simp only [rd_zero, Outcome.ok_bind, List.length_cons, List.length_nil]
    refine ⟨?_, ?_, ?_, by omega⟩ <;> ifs
  by_cases h2 : 0xc2 ≤ a ∧ a ≤ 0xdf
  · by_cases hb : 0x80 ≤ b ∧ b ≤ 0xbf
    · exact .inl ⟨[a, b], cs, _, rfl, .two a b h2.1 h2.2 hb.1 hb.2⟩
    · refine .inr ?_
      unfold validUTF8Step decodeUTF8 printUTF8Step
      refine ⟨?_, ?_, ?_, by omega⟩ <;> ifs
  rcases cs with _ | ⟨c, cs⟩
  · refine .inr ?_
    unfold validUTF8Step decodeUTF8 printUTF8Step
    simp only [rd_zero, Outcome.ok_bind, List.length_cons, List.length_nil]
    refine ⟨?_, ?_, ?_, by omega⟩ <;> ifs
  by_cases h3 : a = 0xe0
  · by_cases hb : 0xa0 ≤ b ∧ b ≤ 0xbf ∧ 0x80 ≤ c ∧ c ≤ 0xbf
    · exact .inl ⟨[a, b, c], cs, _, rfl, .e0 a b c h3 hb.1 hb.2.1 hb.2.2.1 hb.2.2.2⟩
    · refine .inr ?_
      unfold validUTF8Step decodeUTF8 printUTF8Step
      refine ⟨?_, ?_, ?_, by omega⟩ <;> ifs
  by_cases h4 : 0xe1 ≤ a ∧ a ≤ 0xec
  · by_cases hb : 0x80 ≤ b ∧ b ≤ 0xbf ∧ 0x80 ≤ c ∧ c ≤ 0xbf
    · exact .inl ⟨[a, b, c], cs, _, rfl, .e1 a b c h4.1 h4.2 hb.1 hb.2.1 hb.2.2.1 hb.2.2.2⟩
    · refine .inr ?_
      unfold validUTF8Step decodeUTF8 printUTF8Step
      refine ⟨?_, ?_, ?_, by omega⟩ <;> ifs
  by_cases h5 : a = 0xed
  · by_cases hb : 0x80 ≤ b ∧ b ≤ 0x9f ∧ 0x80 ≤ c ∧ c ≤ 0xbf
    · exact .inl ⟨[a, b, c], cs, _, rfl, .ed a b c h5 hb.1 hb.2.1 hb.2.2.1 hb.2.2.2⟩
    · refine .inr ?_
      unfold validUTF8Step decodeUTF8 printUTF8Step
      refine ⟨?_, ?_, ?_, by omega⟩ <;> ifs
  by_cases h6 : 0xee ≤ a ∧ a ≤ 0xef
  · by_cases hb : 0x80 ≤ b ∧ b ≤ 0xbf ∧ 0x80 ≤ c ∧ c ≤ 0xbf
    · exact .inl ⟨[a, b, c], cs, _, rfl, .ee a b c h6.1 h6.2 hb.1 hb.2.1 hb.2.2.1 hb.2.2.2⟩
    · refine .inr ?_
      unfold validUTF8Step decodeUTF8 printUTF8Step
      refine ⟨?_, ?_, ?_, by omega⟩ <;> ifs
  rcases cs with _ | ⟨d, cs⟩
  · refine .inr ?_
    unfold validUTF8Step decodeUTF8 printUTF8Step
    simp only [rd_zero, Outcome.ok_bind, List.length_cons, List.length_nil]
    refine ⟨?_, ?_, ?_, by omega⟩ <;> ifs
  by_cases h7 : a = 0xf0
  · by_cases hb : 0x90 ≤ b ∧ b ≤ 0xbf ∧ 0x80 ≤ c ∧ c ≤ 0xbf ∧ 0x80 ≤ d ∧ d ≤ 0xbf
    · exact .inl ⟨[a, b, c, d], cs, _, rfl, .f0 a b c d h7 hb.1 hb.2.1 hb.2.2.1 hb.2.2.2.1 hb.2.2.2.2.1 hb.2.2.2.2.2⟩
    · refine .inr ?_
      unfold validUTF8Step decodeUTF8 printUTF8Step
      refine ⟨?_, ?_, ?_, by omega⟩ <;> ifs
  by_cases h8 : 0xf1 ≤ a ∧ a ≤ 0xf3
  · by_cases hb : 0x80 ≤ b ∧ b ≤ 0xbf ∧ 0x80 ≤ c ∧ c ≤ 0xbf ∧ 0x80 ≤ d ∧ d ≤ 0xbf
    · exact .inl ⟨[a, b, c, d], cs, _, rfl,
        .f1 a b c d h8.1 h8.2 hb.1 hb.2.1 hb.2.2.1 hb.2.2.2.1 hb.2.2.2.2.1 hb.2.2.2.2.2⟩
    · refine .inr ?_
      unfold validUTF8Step decodeUTF8 printUTF8Step
      refine ⟨?_, ?_, ?_, by omega⟩ <;> ifs
  by_cases h9 : a = 0xf4
  · by_cases hb : 0x80 ≤ b ∧ b ≤ 0x8f ∧ 0x80 ≤ c ∧ c ≤ 0xbf ∧ 0x80 ≤ d ∧ d ≤ 0xbf
    · exact .inl ⟨[a, b, c, d], cs, _, rfl, .f4 a b c d h9 hb.1 hb.2.1 hb.2.2.1 hb.2.2.2.1 hb.2.2.2.2.1 hb.2.2.2.2.2⟩
    · refine .inr ?_
      unfold validUTF8Step decodeUTF8 printUTF8Step
      refine ⟨?_, ?_, ?_, by omega⟩ <;> ifs
  · refine .inr ?_
    unfold validUTF8Step decodeUTF8 printUTF8Step
    refine ⟨?_, ?_, ?_, by omega⟩ <;> ifs

/-! ### UTF-16 -/

/-- The table of legal UTF-16 BE sequences: bytes and code. -/
inductive FormBE : List Nat → Nat → Prop
  | one (a b) : a < 256 → b < 256 → (a ≤ 0xD7 ∨ 0xE0 ≤ a) → FormBE [a, b] (a * 256 + b)
  | pair (a b c d) : 0xD8 ≤ a → a ≤ 0xDB → b < 256 → 0xDC ≤ c → c ≤ 0xDF → d < 256 →
      FormBE [a, b, c, d] (0x10000 + ((a - 0xD8) * 256 + b) * 1024 + (c - 0xDC) * 256 + d)

/-- The table of legal UTF-16 LE sequences: bytes and code. -/
inductive FormLE : List Nat → Nat → Prop
  | one (a b) : a < 256 → b < 256 → (b ≤ 0xD7 ∨ 0xE0 ≤ b) → FormLE [a, b] (b * 256 + a)
  | pair (a b c d) : 0xD8 ≤ b → b ≤ 0xDB → a < 256 → 0xDC ≤ d → d ≤ 0xDF → c < 256 →
      FormLE [a, b, c, d] (0x10000 + ((b - 0xD8) * 256 + a) * 1024 + (d - 0xDC) * 256 + c)

theorem FormBE.valid {bs : List Nat} {c : Nat} (h : FormBE bs c) : c.isValidChar := by
  unfold Nat.isValidChar
  cases h <;> omega

theorem FormLE.valid {bs : List Nat} {c : Nat} (h : FormLE bs c) : c.isValidChar := by
  unfold Nat.isValidChar
  cases h <;> omega

theorem FormBE.bytes {bs : List Nat} {c : Nat} (h : FormBE bs c) : bs ≠ [] ∧ ∀ x ∈ bs, x < 256 := by
  cases h <;> refine ⟨by simp, ?_⟩ <;> intro x hx <;>
    simp only [List.mem_cons, List.not_mem_nil, or_false] at hx <;> omega

theorem FormLE.bytes {bs : List Nat} {c : Nat} (h : FormLE bs c) : bs ≠ [] ∧ ∀ x ∈ bs, x < 256 := by
  cases h <;> refine ⟨by simp, ?_⟩ <;> intro x hx <;>
    simp only [List.mem_cons, List.not_mem_nil, or_false] at hx <;> omega

theorem split8 (a : Nat) {b : Nat} (hb : b < 256) : (a * 256 + b) / 2 ^ 8 = a ∧ (a * 256 + b) % 2 ^ 8 = b := by
  omega

theorem surrogates_ok {a b c d code : Nat} (ha : 0xD8 ≤ a) (ha' : a ≤ 0xDB) (hb : b < 256) (hc : 0xDC ≤ c)
    (hc' : c ≤ 0xDF) (hd : d < 256) (h : code = 0x10000 + ((a - 0xD8) * 256 + b) * 1024 + (c - 0xDC) * 256 + d) :
    surrogates code = .ok (a, b, c, d) := by
  unfold surrogates
  have h1 : (code + (2 ^ 32 - 0x10000)) % 2 ^ 32 = ((a - 0xD8) * 256 + b) * 1024 + (c - 0xDC) * 256 + d := by omega
  simp only [h1]
  have h2 : (0xD800 + (((a - 0xD8) * 256 + b) * 1024 + (c - 0xDC) * 256 + d) / 2 ^ 10) % 2 ^ 16 = a * 256 + b := by
    omega
  have h3 : (0xDC00 + (((a - 0xD8) * 256 + b) * 1024 + (c - 0xDC) * 256 + d) % 2 ^ 10) % 2 ^ 16 = c * 256 + d := by
    omega
  simp only [h2, h3]
  clear h1 h2 h3 h
  simp only [(split8 a hb).1, (split8 a hb).2, (split8 c hd).1, (split8 c hd).2]
  have : btw 0xD8 0xDB a = true := btw_iff.2 ⟨ha, ha'⟩
  have : btw 0xDC 0xDF c = true := btw_iff.2 ⟨hc, hc'⟩
  simp [*]

theorem combine_eq {a b c d : Nat} (ha : 0xD8 ≤ a) (ha' : a ≤ 0xDB) (hb : b < 256) (hc : 0xDC ≤ c)
    (hc' : c ≤ 0xDF) (hd : d < 256) : combine (a * 2 ^ 8 + b) (c * 2 ^ 8 + d) =
      0x10000 + ((a - 0xD8) * 256 + b) * 1024 + (c - 0xDC) * 256 + d := by
  unfold combine
  omega

theorem FormBE.encode {bs : List Nat} {c : Nat} (h : FormBE bs c) : encodeUTF16BE c = .ok bs := by
  unfold encodeUTF16BE
  cases h
  case one ha hb h =>
    rw [if_pos (by omega)]
    refine congrArg Outcome.ok ?_
    simp only [List.cons.injEq, and_true]
    omega
  case pair h1 h2 h3 h4 h5 h6 =>
    rw [if_neg (by omega), surrogates_ok h1 h2 h3 h4 h5 h6 rfl]
    rfl

theorem FormLE.encode {bs : List Nat} {c : Nat} (h : FormLE bs c) : encodeUTF16LE c = .ok bs := by
  unfold encodeUTF16LE
  cases h
  case one ha hb h =>
    rw [if_pos (by omega)]
    refine congrArg Outcome.ok ?_
    simp only [List.cons.injEq, and_true]
    omega
  case pair h1 h2 h3 h4 h5 h6 =>
    rw [if_neg (by omega), surrogates_ok h1 h2 h3 h4 h5 h6 rfl]
    rfl

theorem FormBE.decode {bs : List Nat} {c : Nat} (h : FormBE bs c) (rest : List Nat) :
    decodeUTF16BE (bs ++ rest) = .ok c := by
  unfold decodeUTF16BE
  cases h
  case one a b ha hb h =>
    simp only [List.cons_append, List.nil_append]
    by_cases h0 : a = 0 ∧ b ≤ 0x7f
    · ifs
      all_goals exact congrArg Outcome.ok (by omega)
    · ifs
      all_goals exact congrArg Outcome.ok (by omega)
  case pair h1 h2 h3 h4 h5 h6 =>
    simp only [List.cons_append, List.nil_append]
    ifs
    exact congrArg Outcome.ok (combine_eq h1 h2 h3 h4 h5 h6)

theorem FormLE.decode {bs : List Nat} {c : Nat} (h : FormLE bs c) (rest : List Nat) :
    decodeUTF16LE (bs ++ rest) = .ok c := by
  unfold decodeUTF16LE
  cases h
  case one a b ha hb h =>
    simp only [List.cons_append, List.nil_append]
    by_cases h0 : b = 0 ∧ a ≤ 0x7f
    · ifs
      all_goals exact congrArg Outcome.ok (by omega)
    · ifs
      all_goals exact congrArg Outcome.ok (by omega)
  case pair h1 h2 h3 h4 h5 h6 =>
    simp only [List.cons_append, List.nil_append]
    ifs
    exact congrArg Outcome.ok (combine_eq h1 h2 h3 h4 h5 h6)

theorem FormBE.step {bs : List Nat} {c : Nat} (h : FormBE bs c) (rest : List Nat) :
    validUTF16BEStep (bs ++ rest) = .ok (some (bs.length - 1)) := by
  unfold validUTF16BEStep
  cases h <;> simp only [List.cons_append, List.nil_append] <;> ifs <;> rfl

theorem FormLE.step {bs : List Nat} {c : Nat} (h : FormLE bs c) (rest : List Nat) :
    validUTF16LEStep (bs ++ rest) = .ok (some (bs.length - 1)) := by
  unfold validUTF16LEStep
  cases h <;> simp only [List.cons_append, List.nil_append] <;> ifs <;> rfl

theorem FormBE.print {bs : List Nat} {c : Nat} (h : FormBE bs c) (rest : List Nat) :
    printUTF16BEStep (bs ++ rest) = .ok ([if c ≤ 0x7f then .wide c else .code c], some (bs.length - 1)) := by
  unfold printUTF16BEStep
  cases h
  case one a b ha hb h =>
    simp only [List.cons_append, List.nil_append, List.length_cons, List.length_nil, rd_zero, rd_one,
      Outcome.ok_bind]
    by_cases h0 : a = 0 ∧ b ≤ 0x7f
    · obtain ⟨rfl, hb'⟩ := h0
      simp [hb']
    · by_cases h1 : a = 0
      · subst h1
        have : ¬ b ≤ 0x7f := by omega
        simp [this]
      · have : ¬ (a * 256 + b ≤ 0x7f) := by omega
        simp [h1, h, this]
  case pair a b c d h1 h2 h3 h4 h5 h6 =>
    simp only [List.cons_append, List.nil_append, List.length_cons, List.length_nil, rd_zero, rd_one, rd_two, rd_three,
      Outcome.ok_bind, combine_eq h1 h2 h3 h4 h5 h6]
    have e0 : ¬ a = 0 := by omega
    have e1 : ¬ (a ≤ 0xD7 ∨ 0xE0 ≤ a) := by omega
    simp [e0, e1, show ¬ (rest.length + 1 + 1 + 1 + 1 < 4) by omega, show ¬ (rest.length + 1 + 1 + 1 + 1 < 2) by omega,
      show ¬ (65536 + ((a - 216) * 256 + b) * 1024 + (c - 220) * 256 + d ≤ 127) by omega]

theorem FormLE.print {bs : List Nat} {c : Nat} (h : FormLE bs c) (rest : List Nat) :
    printUTF16LEStep (bs ++ rest) = .ok ([if c ≤ 0x7f then .wide c else .code c], some (bs.length - 1)) := by
  unfold printUTF16LEStep
  cases h
  case one b a hb ha h =>
    simp only [List.cons_append, List.nil_append, List.length_cons, List.length_nil, rd_zero, rd_one,
      Outcome.ok_bind]
    by_cases h0 : a = 0 ∧ b ≤ 0x7f
    · obtain ⟨rfl, hb'⟩ := h0
      simp [hb']
    · by_cases h1 : a = 0
      · subst h1
        have : ¬ b ≤ 0x7f := by omega
        simp [this]
      · have : ¬ (a * 256 + b ≤ 0x7f) := by omega
        simp [h1, h, this]
  case pair b a d c h1 h2 h3 h4 h5 h6 =>
    simp only [List.cons_append, List.nil_append, List.length_cons, List.length_nil, rd_zero, rd_one, rd_two, rd_three,
      Outcome.ok_bind, combine_eq h1 h2 h3 h4 h5 h6]
    have e0 : ¬ a = 0 := by omega
    have e1 : ¬ (a ≤ 0xD7 ∨ 0xE0 ≤ a) := by omega
    simp [e0, e1, show ¬ (rest.length + 1 + 1 + 1 + 1 < 4) by omega, show ¬ (rest.length + 1 + 1 + 1 + 1 < 2) by omega,
      show ¬ (65536 + ((a - 216) * 256 + b) * 1024 + (c - 220) * 256 + d ≤ 127) by omega]

theorem formBE_of_valid {c : Nat} (hc : c.isValidChar) : ∃ bs, FormBE bs c := by
  unfold Nat.isValidChar at hc
  by_cases h : c ≤ 0xffff
  · have := FormBE.one (c / 256) (c % 256) (by omega) (by omega) (by omega)
    exact ⟨_, by convert this using 1; omega⟩
  · have := FormBE.pair ((c - 0x10000) / 1024 / 256 + 0xD8) ((c - 0x10000) / 1024 % 256)
      (c % 1024 / 256 + 0xDC) (c % 256) (by omega) (by omega) (by omega) (by omega) (by omega) (by omega)
    exact ⟨_, by convert this using 1; omega⟩

theorem formLE_of_valid {c : Nat} (hc : c.isValidChar) : ∃ bs, FormLE bs c := by
  unfold Nat.isValidChar at hc
  by_cases h : c ≤ 0xffff
  · have := FormLE.one (c % 256) (c / 256) (by omega) (by omega) (by omega)
    exact ⟨_, by convert this using 1; omega⟩
  · have := FormLE.pair ((c - 0x10000) / 1024 % 256) ((c - 0x10000) / 1024 / 256 + 0xD8)
      (c % 256) (c % 1024 / 256 + 0xDC) (by omega) (by omega) (by omega) (by omega) (by omega) (by omega)
    exact ⟨_, by convert this using 1; omega⟩

theorem utf16BE_cases (a : Nat) (cs : List Nat) (hb : ∀ x ∈ a :: cs, x < 256) :
    (∃ bs rest c, a :: cs = bs ++ rest ∧ FormBE bs c) ∨ validUTF16BEStep (a :: cs) = .ok none := by
  unfold validUTF16BEStep
  rcases cs with _ | ⟨b, cs⟩
  · exact .inr (by simp)
  have ha : a < 256 := hb a (by simp)
  have hb' : b < 256 := hb b (by simp)
  by_cases h1 : a ≤ 0xD7 ∨ 0xE0 ≤ a
  · exact .inl ⟨[a, b], cs, _, rfl, .one a b ha hb' h1⟩
  rcases cs with _ | ⟨c, _ | ⟨d, cs⟩⟩
  · refine .inr ?_
    simp only [List.length_cons, List.length_nil]
    ifs
  · refine .inr ?_
    simp only [List.length_cons, List.length_nil]
    ifs
  by_cases h2 : a ≤ 0xDB ∧ 0xDC ≤ c ∧ c ≤ 0xDF
  · exact .inl ⟨[a, b, c, d], cs, _, rfl,
      .pair a b c d (by omega) h2.1 hb' h2.2.1 h2.2.2 (hb d (by simp))⟩
  · refine .inr ?_
    ifs

theorem utf16LE_cases (a : Nat) (cs : List Nat) (hb : ∀ x ∈ a :: cs, x < 256) :
    (∃ bs rest c, a :: cs = bs ++ rest ∧ FormLE bs c) ∨ validUTF16LEStep (a :: cs) = .ok none := by
  unfold validUTF16LEStep
  rcases cs with _ | ⟨b, cs⟩
  · exact .inr (by simp)
  have ha : a < 256 := hb a (by simp)
  have hb' : b < 256 := hb b (by simp)
  by_cases h1 : b ≤ 0xD7 ∨ 0xE0 ≤ b
  · exact .inl ⟨[a, b], cs, _, rfl, .one a b ha hb' h1⟩
  rcases cs with _ | ⟨c, _ | ⟨d, cs⟩⟩
  · refine .inr ?_
    simp only [List.length_cons, List.length_nil]
    ifs
  · refine .inr ?_
    simp only [List.length_cons, List.length_nil]
    ifs
  by_cases h2 : b ≤ 0xDB ∧ 0xDC ≤ d ∧ d ≤ 0xDF
  · exact .inl ⟨[a, b, c, d], cs, _, rfl,
      .pair a b c d (by omega) h2.1 ha h2.2.1 h2.2.2 (hb c (by simp))⟩
  · refine .inr ?_
    ifs

/-! ### CESU-8 -/

/-- The table of legal CESU-8 sequences, /repo/proptest/util/cesu8string.cpp:122-135: bytes and code. -/
inductive FormC : List Nat → Nat → Prop
  | one (a) : a ≤ 0x7f → FormC [a] a
  | two (a b) : 0xc2 ≤ a → a ≤ 0xdf → 0x80 ≤ b → b ≤ 0xbf → FormC [a, b] (0x80 + (a - 0xc2) * 64 + (b - 0x80))
  | e0 (a b c) : a = 0xe0 → 0xa0 ≤ b → b ≤ 0xbf → 0x80 ≤ c → c ≤ 0xbf →
      FormC [a, b, c] (0x800 + (b - 0xa0) * 64 + (c - 0x80))
  | e1 (a b c) : 0xe1 ≤ a → a ≤ 0xec → 0x80 ≤ b → b ≤ 0xbf → 0x80 ≤ c → c ≤ 0xbf →
      FormC [a, b, c] (0x1000 + (a - 0xe1) * 4096 + (b - 0x80) * 64 + (c - 0x80))
  | ed (a b c) : a = 0xed → 0x80 ≤ b → b ≤ 0x9f → 0x80 ≤ c → c ≤ 0xbf →
      FormC [a, b, c] (0xD000 + (b - 0x80) * 64 + (c - 0x80))
  | ee (a b c) : 0xee ≤ a → a ≤ 0xef → 0x80 ≤ b → b ≤ 0xbf → 0x80 ≤ c → c ≤ 0xbf →
      FormC [a, b, c] (0xE000 + (a - 0xee) * 4096 + (b - 0x80) * 64 + (c - 0x80))
  | pair (a b c d e f) : a = 0xed → 0xa0 ≤ b → b ≤ 0xaf → 0x80 ≤ c → c ≤ 0xbf → d = 0xed →
      0xb0 ≤ e → e ≤ 0xbf → 0x80 ≤ f → f ≤ 0xbf →
      FormC [a, b, c, d, e, f]
        (0x10000 + ((b - 0xa0) * 64 + (c - 0x80)) * 1024 + (e - 0xb0) * 64 + (f - 0x80))

theorem FormC.valid {bs : List Nat} {c : Nat} (h : FormC bs c) : c.isValidChar := by
  unfold Nat.isValidChar
  cases h <;> omega

theorem FormC.bytes {bs : List Nat} {c : Nat} (h : FormC bs c) : bs ≠ [] ∧ ∀ x ∈ bs, x < 256 := by
  cases h <;> refine ⟨by simp, ?_⟩ <;> intro x hx <;>
    simp only [List.mem_cons, List.not_mem_nil, or_false] at hx <;> omega

theorem FormC.encode {bs : List Nat} {c : Nat} (h : FormC bs c) : encodeCESU8 c = .ok bs := by
  unfold encodeCESU8
  cases h <;> ifs <;> refine congrArg Outcome.ok ?_ <;> simp only [List.cons.injEq, and_true] <;> omega

theorem cesu8Pair_eq {a b c d e f : Nat} (h1 : a = 0xed) (h2 : 0xa0 ≤ b) (h3 : b ≤ 0xaf) (h4 : 0x80 ≤ c)
    (h5 : c ≤ 0xbf) (h6 : d = 0xed) (h7 : 0xb0 ≤ e) (h8 : e ≤ 0xbf) (h9 : 0x80 ≤ f) (h10 : f ≤ 0xbf) :
    cesu8Pair a b c d e f = 0x10000 + ((b - 0xa0) * 64 + (c - 0x80)) * 1024 + (e - 0xb0) * 64 + (f - 0x80) := by
  unfold cesu8Pair
  dsimp only
  omega

theorem FormC.decode {bs : List Nat} {c : Nat} (h : FormC bs c) (rest : List Nat) :
    decodeCESU8 (bs ++ rest) = .ok c := by
  unfold decodeCESU8
  cases h
  case pair h1 h2 h3 h4 h5 h6 h7 h8 h9 h10 =>
    simp only [List.cons_append, List.nil_append]
    ifs
    exact congrArg Outcome.ok (cesu8Pair_eq h1 h2 h3 h4 h5 h6 h7 h8 h9 h10)
  all_goals
    simp only [List.cons_append, List.nil_append]
    ifs
    all_goals exact congrArg Outcome.ok (by omega)

theorem FormC.step {bs : List Nat} {c : Nat} (h : FormC bs c) (rest : List Nat) :
    validCESU8Step (bs ++ rest) = .ok (some (bs.length - 1)) := by
  unfold validCESU8Step
  cases h <;> simp only [List.cons_append, List.nil_append] <;> ifs <;> rfl

theorem FormC.print {bs : List Nat} {c : Nat} (h : FormC bs c) (rest : List Nat) :
    printCESU8Step (bs ++ rest) = .ok (if c ≤ 0x7f then .ascii c else .code c, bs.length - 1) := by
  unfold printCESU8Step
  cases h
  case one h => simp [h]
  case pair h1 h2 h3 h4 h5 h6 h7 h8 h9 h10 =>
    simp only [List.cons_append, List.nil_append, List.length_cons, List.length_nil]
    ifs
    exact code_eq (cesu8Pair_eq h1 h2 h3 h4 h5 h6 h7 h8 h9 h10) rfl
  all_goals
    simp only [List.cons_append, List.nil_append, List.length_cons, List.length_nil]
    ifs
    all_goals first | (refine code_eq ?_ ?_ <;> omega) | rfl

theorem formC_of_valid {c : Nat} (hc : c.isValidChar) : ∃ bs, FormC bs c := by
  unfold Nat.isValidChar at hc
  by_cases h1 : c ≤ 0x7f
  · exact ⟨_, .one c h1⟩
  by_cases h2 : c ≤ 0x7ff
  · have := FormC.two ((c - 0x80) / 64 + 0xc2) (c % 64 + 0x80) (by omega) (by omega) (by omega) (by omega)
    exact ⟨_, by convert this using 1; omega⟩
  by_cases h3 : c ≤ 0xfff
  · have := FormC.e0 0xe0 ((c - 0x800) / 64 + 0xa0) (c % 64 + 0x80) rfl (by omega) (by omega) (by omega) (by omega)
    exact ⟨_, by convert this using 1; omega⟩
  by_cases h4 : c ≤ 0xcfff
  · have := FormC.e1 ((c - 0x1000) / 4096 + 0xe1) ((c - 0x1000) / 64 % 64 + 0x80) (c % 64 + 0x80)
      (by omega) (by omega) (by omega) (by omega) (by omega) (by omega)
    exact ⟨_, by convert this using 1; omega⟩
  by_cases h5 : c ≤ 0xd7ff
  · have := FormC.ed 0xed ((c - 0xd000) / 64 + 0x80) (c % 64 + 0x80) rfl (by omega) (by omega) (by omega) (by omega)
    exact ⟨_, by convert this using 1; omega⟩
  by_cases h6 : c ≤ 0xffff
  · have := FormC.ee ((c - 0xe000) / 4096 + 0xee) ((c - 0xe000) / 64 % 64 + 0x80) (c % 64 + 0x80)
      (by omega) (by omega) (by omega) (by omega) (by omega) (by omega)
    exact ⟨_, by convert this using 1; omega⟩
  · have := FormC.pair 0xed ((c - 0x10000) / 65536 + 0xa0) ((c - 0x10000) / 1024 % 64 + 0x80) 0xed
      (c / 64 % 16 + 0xb0) (c % 64 + 0x80) rfl (by omega) (by omega) (by omega) (by omega) rfl
      (by omega) (by omega) (by omega) (by omega)
    exact ⟨_, by convert this using 1; omega⟩

theorem encodeCESU8_throws {c : Nat} (hc : ¬ c.isValidChar) : encodeCESU8 c = .throws .runtimeError := by
  unfold Nat.isValidChar at hc
  unfold encodeCESU8
  by_cases h : c ≤ 0xDFFF
  · ifs
  · ifs

/-- A non-empty byte string starts with a legal CESU-8 sequence or is rejected by all three functions. -/
theorem cesu8_cases (a : Nat) (cs : List Nat) : (∃ bs rest c, a :: cs = bs ++ rest ∧ FormC bs c) ∨
    (validCESU8Step (a :: cs) = .ok none ∧ decodeCESU8 (a :: cs) = .throws .runtimeError ∧
      printCESU8Step (a :: cs) = .ok (.hex a, 0) ∧ 0x80 ≤ a) := by
  by_cases h1 : a ≤ 0x7f
  · exact .inl ⟨[a], cs, a, rfl, .one a h1⟩
  rcases cs with _ | ⟨b, cs⟩
  · refine .inr ?_
    unfold validCESU8Step decodeCESU8 printCESU8Step
    simp only [rd_zero, Outcome.ok_bind, List.length_cons, List.length_nil]
    refine ⟨?_, ?_, ?_, by omega⟩ <;> ifs
  by_cases h2 : 0xc2 ≤ a ∧ a ≤ 0xdf
  · by_cases hb : 0x80 ≤ b ∧ b ≤ 0xbf
    · exact .inl ⟨[a, b], cs, _, rfl, .two a b h2.1 h2.2 hb.1 hb.2⟩
    · refine .inr ?_
      unfold validCESU8Step decodeCESU8 printCESU8Step
      refine ⟨?_, ?_, ?_, by omega⟩ <;> ifs
  rcases cs with _ | ⟨c, cs⟩
  · refine .inr ?_
    unfold validCESU8Step decodeCESU8 printCESU8Step
    simp only [rd_zero, Outcome.ok_bind, List.length_cons, List.length_nil]
    refine ⟨?_, ?_, ?_, by omega⟩ <;> ifs
  by_cases h3 : a = 0xe0
  · by_cases hb : 0xa0 ≤ b ∧ b ≤ 0xbf ∧ 0x80 ≤ c ∧ c ≤ 0xbf
    · exact .inl ⟨[a, b, c], cs, _, rfl, .e0 a b c h3 hb.1 hb.2.1 hb.2.2.1 hb.2.2.2⟩
    · refine .inr ?_
      unfold validCESU8Step decodeCESU8 printCESU8Step
      refine ⟨?_, ?_, ?_, by omega⟩ <;> ifs
  by_cases h4 : 0xe1 ≤ a ∧ a ≤ 0xec
  · by_cases hb : 0x80 ≤ b ∧ b ≤ 0xbf ∧ 0x80 ≤ c ∧ c ≤ 0xbf
    · exact .inl ⟨[a, b, c], cs, _, rfl, .e1 a b c h4.1 h4.2 hb.1 hb.2.1 hb.2.2.1 hb.2.2.2⟩
    · refine .inr ?_
      unfold validCESU8Step decodeCESU8 printCESU8Step
      refine ⟨?_, ?_, ?_, by omega⟩ <;> ifs
  by_cases h5 : a = 0xed
  · by_cases hb : 0x80 ≤ b ∧ b ≤ 0x9f ∧ 0x80 ≤ c ∧ c ≤ 0xbf
    · exact .inl ⟨[a, b, c], cs, _, rfl, .ed a b c h5 hb.1 hb.2.1 hb.2.2.1 hb.2.2.2⟩
    rcases cs with _ | ⟨d, _ | ⟨e, _ | ⟨f, cs⟩⟩⟩
    · refine .inr ?_
      unfold validCESU8Step decodeCESU8 printCESU8Step
      simp only [rd_zero, Outcome.ok_bind, List.length_cons, List.length_nil]
      refine ⟨?_, ?_, ?_, by omega⟩ <;> ifs
    · refine .inr ?_
      unfold validCESU8Step decodeCESU8 printCESU8Step
      simp only [rd_zero, Outcome.ok_bind, List.length_cons, List.length_nil]
      refine ⟨?_, ?_, ?_, by omega⟩ <;> ifs
    · refine .inr ?_
      unfold validCESU8Step decodeCESU8 printCESU8Step
      simp only [rd_zero, Outcome.ok_bind, List.length_cons, List.length_nil]
      refine ⟨?_, ?_, ?_, by omega⟩ <;> ifs
    by_cases hp : (0xa0 ≤ b ∧ b ≤ 0xaf ∧ 0x80 ≤ c ∧ c ≤ 0xbf) ∧ d = 0xed ∧ 0xb0 ≤ e ∧ e ≤ 0xbf ∧ 0x80 ≤ f ∧ f ≤ 0xbf
    · exact .inl ⟨[a, b, c, d, e, f], cs, _, rfl, .pair a b c d e f h5 hp.1.1 hp.1.2.1 hp.1.2.2.1 hp.1.2.2.2
        hp.2.1 hp.2.2.1 hp.2.2.2.1 hp.2.2.2.2.1 hp.2.2.2.2.2⟩
    · refine .inr ?_
      unfold validCESU8Step decodeCESU8 printCESU8Step
      refine ⟨?_, ?_, ?_, by omega⟩ <;> ifs
  by_cases h6 : 0xee ≤ a ∧ a ≤ 0xef
  · by_cases hb : 0x80 ≤ b ∧ b ≤ 0xbf ∧ 0x80 ≤ c ∧ c ≤ 0xbf
    · exact .inl ⟨[a, b, c], cs, _, rfl, .ee a b c h6.1 h6.2 hb.1 hb.2.1 hb.2.2.1 hb.2.2.2⟩
    · refine .inr ?_
      unfold validCESU8Step decodeCESU8 printCESU8Step
      refine ⟨?_, ?_, ?_, by omega⟩ <;> ifs
  · refine .inr ?_
    unfold validCESU8Step decodeCESU8 printCESU8Step
    refine ⟨?_, ?_, ?_, by omega⟩ <;> ifs

end Unicode
end Verif
