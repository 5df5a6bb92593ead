import Verif.Lemmas.ChanceUnicode
import Verif.Props.ChanceComb
import Verif.Props.ChanceIntervals
/-
C169: how likely the strings of the generators of UTF-8, CESU-8 and UTF-16 strings are.
-/
namespace Verif
namespace Unicode
open Shr Random Integral IntType Comb ListLike Containers Classical
variable {σ : Type}

/-- The string is the encoding of characters of which each satisfies its condition. -/
def Shows (enc : Nat → Outcome (List Nat)) (Es : List (Nat → Bool)) (t : Shr (List Nat)) : Prop :=
  ∃ codes : List Nat, (∀ c ∈ codes, c.isValidChar) ∧ fits Es codes = true ∧ encodeAll enc codes = .ok t.value

/-- Every result of a generator of numbers is a Unicode scalar value. -/
def Scalars (g : Src (Shr Nat)) : Prop :=
  ∀ (σ : Type) (R : Rng σ) (s s' : σ) (t : Shr Nat), g σ R s = .ok (t, s') → t.value.isValidChar

section
variable {F : List Nat → Nat → Prop} {enc : Nat → Outcome (List Nat)} {dec : List Nat → Outcome Nat}
  {step : List Nat → Outcome (Option Nat)}

theorem arbiString_scalars {g : Src (Shr Nat)} (hg : Scalars g) {minSize maxSize : Nat} (h : minSize ≤ maxSize)
    (hb : maxSize < 2 ^ 32) (R : Rng σ) (s s' : σ) (t : Shr (List Nat))
    (e : arbiString R (g σ R) minSize maxSize s = .ok (t, s')) : ∀ c ∈ t.value, c.isValidChar := by
  unfold arbiString at e
  obtain ⟨v, s1, e1, h1, h2⟩ := getRandomSize_ok R (a := minSize) (b := maxSize + 1) s (by omega) (by omega)
  rw [e1] at e
  simp only [Outcome.ok_bind, Outcome.bind_eq_ok] at e
  obtain ⟨⟨xs, s2⟩, e2, e3⟩ := e
  cases e3
  have := drawMany_valid _ (fun s x s' => hg σ R s s' x) _ _ _ _ e2
  rw [shrinkString, value_concat, shrinkRear, value_map]
  intro c hc
  exact this.2 c (List.mem_of_mem_take hc)

theorem Codec.chance_string (H : Codec F enc dec step) (hE : ∀ c bs, enc c = .ok bs → ∃ c', F bs c')
    (trailer : List Nat) (htr : ∃ l, (∀ c ∈ l, c.isValidChar) ∧ encodeAll enc l = .ok trailer)
    (g : Src (Shr Nat)) (hg : Scalars g) (minSize maxSize : Nat) (hmax : maxSize < 2 ^ 32)
    (Es : List (Nat → Bool)) (ps : List ℚ) (h1 : minSize ≤ Es.length) (h2 : Es.length ≤ maxSize)
    (hf : ∃ E p, Chance g E p) (hp : List.Forall₂ (fun E p => Chance g (fun t => E t.value) p) Es ps) :
    Chance (fun σ R s => arbiStringLike R enc (fun cs => validLoop step cs.length cs) trailer (g σ R) minSize maxSize s)
      (fun t => decide (Shows enc Es t)) (ps.prod / (maxSize - minSize + 1)) := by
  have h := C141_string g minSize maxSize hmax Es ps h1 h2 hf hp
  have h' := H.chance (E := fits Es) h
    (fun σ R s s' t e => arbiString_scalars hg (by omega) hmax R s s' t e)
    (fun bs => decide (∃ codes : List Nat, (∀ c ∈ codes, c.isValidChar) ∧ fits Es codes = true ∧ encodeAll enc codes = .ok bs)) (by
      intro codes bs hv e
      rw [Bool.eq_iff_iff, decide_eq_true_iff]
      constructor
      · rintro ⟨codes', h3, h4, h5⟩
        rwa [← H.inj ((H.enc_iff h3).2 h5) ((H.enc_iff hv).2 e)]
      · exact fun h => ⟨codes, hv, h, e⟩)
  exact h'.congr fun σ R s => H.string_eq hE R trailer htr (g σ R) minSize maxSize (by omega) hmax
    (fun s x s' => hg σ R s s' x) s
end

/-- C169. Strings of encoded characters, with a generator of scalar values for the characters: all permitted numbers of
characters are equally likely, and the characters are independent of each other and of their number. -/
theorem C169_independent (g : Src (Shr Nat)) (hg : Scalars g) (minSize maxSize : Nat) (hmax : maxSize < 2 ^ 32)
    (Es : List (Nat → Bool)) (ps : List ℚ) (h1 : minSize ≤ Es.length) (h2 : Es.length ≤ maxSize)
    (hf : ∃ E p, Chance g E p) (hp : List.Forall₂ (fun E p => Chance g (fun t => E t.value) p) Es ps) :
    Chance (fun σ R s => arbiUTF8String R (g σ R) minSize maxSize s) (fun t => decide (Shows encodeUTF8 Es t))
      (ps.prod / (maxSize - minSize + 1)) ∧
    Chance (fun σ R s => arbiCESU8String R (g σ R) minSize maxSize s) (fun t => decide (Shows encodeCESU8 Es t))
      (ps.prod / (maxSize - minSize + 1)) ∧
    Chance (fun σ R s => arbiUTF16BEString R (g σ R) minSize maxSize s) (fun t => decide (Shows encodeUTF16BE Es t))
      (ps.prod / (maxSize - minSize + 1)) ∧
    Chance (fun σ R s => arbiUTF16LEString R (g σ R) minSize maxSize s) (fun t => decide (Shows encodeUTF16LE Es t))
      (ps.prod / (maxSize - minSize + 1)) :=
  ⟨codec8.chance_string (fun _ _ h => utf8_form h) [] ⟨[], by simp, rfl⟩ g hg minSize maxSize hmax Es ps h1 h2 hf hp,
    codecC.chance_string (fun _ _ h => cesu8_form h) [] ⟨[], by simp, rfl⟩ g hg minSize maxSize hmax Es ps h1 h2 hf hp,
    codecBE.chance_string (fun _ _ h => utf16BE_form h) [0, 0] ⟨[0], by decide, rfl⟩ g hg minSize maxSize hmax Es ps h1 h2 hf hp,
    codecLE.chance_string (fun _ _ h => utf16LE_form h) [0, 0] ⟨[0], by decide, rfl⟩ g hg minSize maxSize hmax Es ps h1 h2 hf hp⟩

/-- The euro sign or the letter `A`, equally likely. -/
def euro : Src (Shr Nat) := fun _ R s => do
  let (t, s) ← interval R i32 0 1 s
  .ok (leaf (if t.value = 0 then 0x20ac else 0x41), s)

theorem euro_scalars : Scalars euro := by
  intro σ R s s' t h
  simp only [euro, Outcome.bind_eq_ok] at h
  obtain ⟨⟨u, s1⟩, -, h2⟩ := h
  cases h2
  dsimp only
  change Nat.isValidChar (if u.value = 0 then 0x20ac else 0x41)
  split <;> decide

theorem euro_chance (c : Nat) (hc : c = 0x20ac ∨ c = 0x41) : Chance euro (fun t => decide (t.value = c)) (1 / 2) := by
  have h := C138_interval i32 (by decide) 0 1 (by decide) (by decide) (by decide) (by decide)
    fun v => decide ((if v = 0 then 0x20ac else 0x41) = c)
  have h' := h.map (E' := fun t : Shr Nat => decide (t.value = c)) (fun t => leaf (if t.value = 0 then 0x20ac else 0x41))
    fun σ R s s' t _ => rfl
  have e : ((Finset.Icc (0 : Int) 1).filter fun v => decide ((if v = 0 then 0x20ac else 0x41) = c) = true).card = 1 := by
    rcases hc with rfl | rfl <;> decide
  rw [e] at h'
  norm_num at h' ⊢
  exact h'

/-- One to four characters: the UTF-8 string `€A` (four bytes) has probability 1/16. -/
example : Chance (fun σ R s => arbiUTF8String R (euro σ R) 1 4 s)
    (fun t => decide (Shows encodeUTF8 [fun c => decide (c = 0x20ac), fun c => decide (c = 0x41)] t)) (1 / 16) := by
  have := (C169_independent euro euro_scalars 1 4 (by norm_num) [fun c => decide (c = 0x20ac), fun c => decide (c = 0x41)]
    [1 / 2, 1 / 2] (by simp) (by simp) ⟨_, _, euro_chance 0x41 (.inr rfl)⟩
    (.cons (euro_chance _ (.inl rfl)) (.cons (euro_chance _ (.inr rfl)) .nil))).1
  norm_num at this ⊢
  exact this

/-! ### The default generator of characters -/

/-- A call of `UnicodeGen`, which gives up after some rounds of `oneOf`; the values as natural numbers. -/
def unicodeCall (rounds : Nat) : Src (Shr Nat) := fun _ R s => do
  let (t, s) ← unicodeGen R rounds s
  .ok (t.map Int.toNat, s)

theorem unicodeCall_scalars (rounds : Nat) : Scalars (unicodeCall rounds) := by
  intro σ R s s' t h
  simp only [unicodeCall, Outcome.bind_eq_ok] at h
  obtain ⟨⟨u, s1⟩, h1, h2⟩ := h
  cases h2
  rcases C84_unicode R rounds s with h | ⟨t, s', h, hr⟩
  · rw [h] at h1; cases h1
  · rw [h] at h1
    cases h1
    have := hr _ (.self _)
    dsimp only
    rw [value_map]
    unfold Nat.isValidChar
    omega

theorem limit_map {α β : Type} {f : Nat → Src α} {E : α → Bool} {E' : β → Bool} {p : ℚ} (h : α → β) (hc : ChanceLimit f E p)
    (hE : ∀ n (σ : Type) (R : Rng σ) (s s' : σ) (a : α), f n σ R s = .ok (a, s') → E' (h a) = E a) :
    ChanceLimit (fun n σ R s => f n σ R s >>= fun q => .ok (h q.1, q.2)) E' p := by
  intro ε hε
  obtain ⟨N, hN⟩ := hc ε hε
  refine ⟨N, fun n hn => ?_⟩
  obtain ⟨q, h1, h2⟩ := hN n hn
  exact ⟨q, h1.map h (hE n), h2⟩

theorem unicode_chance (c : Nat) (hc : (0 < c ∧ c ≤ 0xD7FF) ∨ (0xE000 ≤ c ∧ c ≤ 0x10FFFF)) :
    ∃ p, ChanceLimit unicodeCall (fun t => decide (t.value = c)) p ∧ |p - 1 / 1112063| ≤ 1 / 2 ^ 61 := by
  obtain ⟨p, h1, h2⟩ := C143_unicode_partial c (by omega)
  refine ⟨p, limit_map (f := fun rounds _ R s => unicodeGen R rounds s) (E' := fun t : Shr Nat => decide (t.value = c))
    (fun t : Shr Int => t.map Int.toNat) h1 fun n σ R s s' t h => ?_, h2⟩
  rcases C84_unicode R n s with h' | ⟨u, s'', h', hr⟩
  · rw [h'] at h; cases h
  · rw [h'] at h
    cases h
    have := hr _ (.self _)
    rw [value_map, Bool.eq_iff_iff, decide_eq_true_iff, decide_eq_true_iff]
    omega

theorem unicode_returns : ChanceLimit unicodeCall (fun _ => true) 1 := by
  have hok : ∃ ws, assignWeights ((parts u32 1112063 [(1, 0xD7FF), (0xE000, 0x10FFFF)]).map (·.2)) = .ok ws :=
    ⟨[.fin (rne (rne 55295 / rne 1112063)), .fin (rne (rne 1056768 / rne 1112063))], by decide +kernel⟩
  obtain ⟨ws, hok⟩ := hok
  obtain ⟨sh, hs1, hs2, hs3⟩ := C140_weighted (parts u32 1112063 [(1, 0xD7FF), (0xE000, 0x10FFFF)])
    [rne (rne 55295 / rne 1112063), rne (rne 1056768 / rne 1112063)] (by simp [parts, width]; norm_num)
    (by decide +kernel) ws hok (by simp [parts]) (by simp [parts]) (by
      intro a ha
      simp only [parts, List.map_cons, List.map_nil, List.mem_cons, List.not_mem_nil, or_false] at ha
      rcases ha with rfl | rfl
      · exact no_discard_interval u32 (by simp [all]) (1, 0xD7FF) (by decide) (by decide) (by decide)
      · exact no_discard_interval u32 (by simp [all]) (0xE000, 0x10FFFF) (by decide) (by decide) (by decide))
  have hone : ∀ i : Int × Int, u32.lo ≤ i.1 → i.1 ≤ i.2 → i.2 ≤ u32.hi → ¬ (i.1 = u32.lo ∧ i.2 = u32.hi) →
      Chance (fun _ R s => interval R u32 i.1 i.2 s) (fun _ => true) 1 := by
    intro i a1 a2 a3 a4
    have := C138_interval u32 (by simp [all]) i.1 i.2 a1 a2 a3 a4 fun _ => true
    have e : (((Finset.Icc i.1 i.2).filter fun _ => true = true).card : ℚ) = i.2 - i.1 + 1 := by
      rw [Finset.filter_true_of_mem (fun _ _ => rfl)]
      exact Exp.card_Icc a2
    rw [e, div_self (Exp.size_pos a2).ne'] at this
    exact this
  have := hs3 (fun _ => true) [1, 1] (.cons (hone (1, 0xD7FF) (by decide) (by decide) (by decide) (by decide))
    (.cons (hone (0xE000, 0x10FFFF) (by decide) (by decide) (by decide) (by decide)) .nil))
  have e2 : (List.zipWith (· * ·) sh [1, 1]).sum = 1 := by
    cases hs1 with
    | cons _ h => cases h with
      | cons _ h => cases h; simpa using hs2
  rw [e2] at this
  refine limit_map (f := fun rounds _ R s => unicodeGen R rounds s) (E' := fun _ : Shr Nat => true)
    (fun t : Shr Int => t.map Int.toNat) (E := fun _ => true) ?_ fun n σ R s s' t h => rfl
  have e : (fun rounds (_ : Type) R s => unicodeGen R rounds s : Nat → Src (Shr Int)) =
      oneOfCall (parts u32 1112063 [(1, 0xD7FF), (0xE000, 0x10FFFF)]) := by
    funext rounds σ R s
    simp only [unicodeGen, oneOfCall, parts, List.map_cons, List.map_nil, Dbl.ofInt, Dbl.divNat, width]
    norm_num
  rw [e]
  exact this

/-- C169. The same in the limit for generators of characters with a loop such as `oneOf`. -/
theorem C169_limit (g : Nat → Src (Shr Nat)) (hg : ∀ n, Scalars (g n)) (minSize maxSize : Nat) (hmax : maxSize < 2 ^ 32)
    (Es : List (Nat → Bool)) (ps : List ℚ) (h1 : minSize ≤ Es.length) (h2 : Es.length ≤ maxSize)
    (hf : ∃ E p, ChanceLimit g E p)
    (hp : List.Forall₂ (fun E p => ChanceLimit g (fun t => E t.value) p) Es ps) :
    ChanceLimit (fun n σ R s => arbiUTF8String R (g n σ R) minSize maxSize s) (fun t => decide (Shows encodeUTF8 Es t))
      (ps.prod / (maxSize - minSize + 1)) ∧
    ChanceLimit (fun n σ R s => arbiCESU8String R (g n σ R) minSize maxSize s) (fun t => decide (Shows encodeCESU8 Es t))
      (ps.prod / (maxSize - minSize + 1)) ∧
    ChanceLimit (fun n σ R s => arbiUTF16BEString R (g n σ R) minSize maxSize s) (fun t => decide (Shows encodeUTF16BE Es t))
      (ps.prod / (maxSize - minSize + 1)) ∧
    ChanceLimit (fun n σ R s => arbiUTF16LEString R (g n σ R) minSize maxSize s) (fun t => decide (Shows encodeUTF16LE Es t))
      (ps.prod / (maxSize - minSize + 1)) := by
  have hc : (1 : ℚ) ≤ maxSize - minSize + 1 := by
    have : (minSize : ℚ) ≤ maxSize := by exact_mod_cast h1.trans h2
    linarith
  have hp' : List.Forall₂ (fun (D : Shr Nat → Bool) p => ChanceLimit g D p) (Es.map fun E t => E t.value) ps :=
    List.forall₂_map_left_iff.2 hp
  obtain ⟨E₀, p₀, hf⟩ := hf
  obtain ⟨M, hM⟩ := hf 1 one_pos
  have key := fun n (hn : M ≤ n) qs
      (hq : List.Forall₂ (fun (D : Shr Nat → Bool) q => Chance (g n) D q) (Es.map fun E t => E t.value) qs) =>
    C169_independent (g n) (hg n) minSize maxSize hmax Es qs h1 h2
      (let ⟨q, hq, _⟩ := hM n hn; ⟨_, q, hq⟩) (List.forall₂_map_left_iff.1 hq)
  exact ⟨limit_prod _ hc _ _ ⟨M, fun n hn qs hq => (key n hn qs hq).1⟩ hp',
    limit_prod _ hc _ _ ⟨M, fun n hn qs hq => (key n hn qs hq).2.1⟩ hp',
    limit_prod _ hc _ _ ⟨M, fun n hn qs hq => (key n hn qs hq).2.2.1⟩ hp',
    limit_prod _ hc _ _ ⟨M, fun n hn qs hq => (key n hn qs hq).2.2.2⟩ hp'⟩

theorem fits_eq (codes codes' : List Nat) :
    fits (codes.map fun c x => decide (x = c)) codes' = decide (codes' = codes) := by
  induction codes generalizing codes' with
  | nil => cases codes' <;> simp [fits]
  | cons c codes ih => cases codes' with
    | nil => simp [fits]
    | cons x codes' => simp [fits, ih, List.cons.injEq]

theorem fits_any (n : Nat) (codes : List Nat) : fits (List.replicate n fun _ => true) codes = decide (codes.length = n) := by
  induction n generalizing codes with
  | zero => cases codes <;> simp [fits]
  | succ n ih => cases codes with
    | nil => simp [fits, List.replicate_succ]
    | cons x codes => simp [fits, List.replicate_succ, ih]

/-- The characters of the default generator: scalar values other than 0. -/
def Chosen (c : Nat) : Prop := (0 < c ∧ c ≤ 0xD7FF) ∨ (0xE000 ≤ c ∧ c ≤ 0x10FFFF)

theorem shows_codes {enc : Nat → Outcome (List Nat)} {codes : List Nat} (hv : ∀ c ∈ codes, Chosen c) (t : Shr (List Nat)) :
    Shows enc (codes.map fun c x => decide (x = c)) t ↔ encodeAll enc codes = .ok t.value := by
  constructor
  · rintro ⟨codes', -, h1, h2⟩
    rw [fits_eq, decide_eq_true_iff] at h1
    rwa [← h1]
  · refine fun h => ⟨codes, fun c hc => ?_, by rw [fits_eq, decide_eq_true_iff], h⟩
    have := hv c hc
    unfold Chosen at this
    unfold Nat.isValidChar
    omega

theorem shows_length {enc : Nat → Outcome (List Nat)} {n : Nat} (t : Shr (List Nat)) :
    Shows enc (List.replicate n fun _ => true) t ↔
      ∃ codes : List Nat, (∀ c ∈ codes, c.isValidChar) ∧ codes.length = n ∧ encodeAll enc codes = .ok t.value := by
  simp only [Shows, fits_any, decide_eq_true_iff]

/-- C169. The default generators of encoded strings: all strings of the same number of characters are nearly equally
likely. -/
theorem C169_default (codes : List Nat) (hv : ∀ c ∈ codes, Chosen c) (minSize maxSize : Nat) (hmax : maxSize < 2 ^ 32)
    (h1 : minSize ≤ codes.length) (h2 : codes.length ≤ maxSize) :
    ∃ p : ℚ, (1 / 1112063 - 1 / 2 ^ 61) ^ codes.length / (maxSize - minSize + 1) ≤ p ∧
      p ≤ (1 / 1112063 + 1 / 2 ^ 61) ^ codes.length / (maxSize - minSize + 1) ∧
      ChanceLimit (fun n σ R s => arbiUTF8String R (unicodeCall n σ R) minSize maxSize s)
        (fun t => decide (encodeAll encodeUTF8 codes = .ok t.value)) p ∧
      ChanceLimit (fun n σ R s => arbiCESU8String R (unicodeCall n σ R) minSize maxSize s)
        (fun t => decide (encodeAll encodeCESU8 codes = .ok t.value)) p ∧
      ChanceLimit (fun n σ R s => arbiUTF16BEString R (unicodeCall n σ R) minSize maxSize s)
        (fun t => decide (encodeAll encodeUTF16BE codes = .ok t.value)) p ∧
      ChanceLimit (fun n σ R s => arbiUTF16LEString R (unicodeCall n σ R) minSize maxSize s)
        (fun t => decide (encodeAll encodeUTF16LE codes = .ok t.value)) p := by
  have hc : (1 : ℚ) ≤ maxSize - minSize + 1 := by
    have : (minSize : ℚ) ≤ maxSize := by exact_mod_cast h1.trans h2
    linarith
  obtain ⟨ps, hp, hb1, hb2⟩ : ∃ ps : List ℚ,
      List.Forall₂ (fun (E : Nat → Bool) p => ChanceLimit unicodeCall (fun t => E t.value) p)
        (codes.map fun c x => decide (x = c)) ps ∧
      (1 / 1112063 - 1 / 2 ^ 61) ^ codes.length ≤ ps.prod ∧ ps.prod ≤ (1 / 1112063 + 1 / 2 ^ 61) ^ codes.length := by
    clear h1 h2
    induction codes with
    | nil => exact ⟨[], .nil, by simp, by simp⟩
    | cons c codes ih =>
      obtain ⟨ps, i1, i2, i3⟩ := ih fun c h => hv c (by simp [h])
      obtain ⟨p, j1, j2⟩ := unicode_chance c (hv c (by simp))
      rw [abs_le] at j2
      have hpos : (0 : ℚ) < (1 / 1112063 - 1 / 2 ^ 61) ^ codes.length := pow_pos (by norm_num) _
      have hp0 : (0 : ℚ) < 1 / 1112063 - 1 / 2 ^ 61 := by norm_num
      refine ⟨p :: ps, .cons j1 i1, ?_, ?_⟩
      · rw [List.length_cons, pow_succ', List.prod_cons]
        exact mul_le_mul (by linarith) i2 hpos.le (by linarith)
      · rw [List.length_cons, pow_succ', List.prod_cons]
        exact mul_le_mul (by linarith) i3 (by linarith) (by norm_num)
  have key := C169_limit unicodeCall unicodeCall_scalars minSize maxSize hmax (codes.map fun c x => decide (x = c)) ps
    (by simpa using h1) (by simpa using h2) ⟨_, _, unicode_returns⟩ hp
  simp only [shows_codes hv] at key
  exact ⟨_, div_le_div_of_nonneg_right hb1 (by linarith), div_le_div_of_nonneg_right hb2 (by linarith), key⟩

/-- C169. All permitted numbers of characters are equally likely. -/
theorem C169_lengths (minSize maxSize n : Nat) (hmax : maxSize < 2 ^ 32) (h1 : minSize ≤ n) (h2 : n ≤ maxSize) :
    ChanceLimit (fun m σ R s => arbiUTF8String R (unicodeCall m σ R) minSize maxSize s) (fun t => decide
        (∃ codes : List Nat, (∀ c ∈ codes, c.isValidChar) ∧ codes.length = n ∧ encodeAll encodeUTF8 codes = .ok t.value))
      (1 / (maxSize - minSize + 1)) ∧
    ChanceLimit (fun m σ R s => arbiCESU8String R (unicodeCall m σ R) minSize maxSize s) (fun t => decide
        (∃ codes : List Nat, (∀ c ∈ codes, c.isValidChar) ∧ codes.length = n ∧ encodeAll encodeCESU8 codes = .ok t.value))
      (1 / (maxSize - minSize + 1)) ∧
    ChanceLimit (fun m σ R s => arbiUTF16BEString R (unicodeCall m σ R) minSize maxSize s) (fun t => decide
        (∃ codes : List Nat, (∀ c ∈ codes, c.isValidChar) ∧ codes.length = n ∧ encodeAll encodeUTF16BE codes = .ok t.value))
      (1 / (maxSize - minSize + 1)) ∧
    ChanceLimit (fun m σ R s => arbiUTF16LEString R (unicodeCall m σ R) minSize maxSize s) (fun t => decide
        (∃ codes : List Nat, (∀ c ∈ codes, c.isValidChar) ∧ codes.length = n ∧ encodeAll encodeUTF16LE codes = .ok t.value))
      (1 / (maxSize - minSize + 1)) := by
  have key := C169_limit unicodeCall unicodeCall_scalars minSize maxSize hmax (List.replicate n fun _ => true)
    (List.replicate n 1) (by simpa using h1) (by simpa using h2) ⟨_, _, unicode_returns⟩ (by
      clear h1 h2
      induction n with
      | zero => exact .nil
      | succ n ih => exact .cons unicode_returns ih)
  simpa only [shows_length, List.prod_replicate, one_pow] using key

/-- The default sizes: the string of the euro sign and the grinning face, in any of the encodings, and strings of 17
characters. -/
example : (∃ p : ℚ, (1 / 1112063 - 1 / 2 ^ 61) ^ 2 / 201 ≤ p ∧ p ≤ (1 / 1112063 + 1 / 2 ^ 61) ^ 2 / 201 ∧
      ChanceLimit (fun n σ R s => arbiUTF8String R (unicodeCall n σ R) 0 200 s)
        (fun t => decide (encodeAll encodeUTF8 [0x20ac, 0x1F600] = .ok t.value)) p) ∧
    ChanceLimit (fun m σ R s => arbiUTF16LEString R (unicodeCall m σ R) 0 200 s) (fun t => decide
        (∃ codes : List Nat, (∀ c ∈ codes, c.isValidChar) ∧ codes.length = 17 ∧ encodeAll encodeUTF16LE codes = .ok t.value))
      (1 / 201) := by
  constructor
  · obtain ⟨p, h1, h2, h3, -⟩ := C169_default [0x20ac, 0x1F600] (by simp [Chosen]) 0 200 (by norm_num) (by simp) (by simp)
    norm_num at h1 h2
    exact ⟨p, by norm_num; exact h1, by norm_num; exact h2, h3⟩
  · have := (C169_lengths 0 200 17 (by norm_num) (by norm_num) (by norm_num)).2.2.2
    norm_num at this ⊢
    exact this

end Unicode
end Verif
