import Verif.Model.Char
import Verif.Props.Integral
/-!
C162: ranges of characters.
-/
namespace Verif
open Shr IntType Integral Random
variable {σ : Type}

theorem i8_mem : i8 ∈ all := by simp [all]

theorem drawChar_ok (R : Rng σ) {min max : Int} (s : σ) (h1 : -128 ≤ min) (h2 : min ≤ max) (h3 : max ≤ 127)
    (hs : 0 ≤ min ∨ max < 0) :
    ∃ v s', drawValue R .i8 [0] (getRandomChar R) min max s = .ok (v, s') ∧ min ≤ v ∧ v ≤ max ∧
      R.draw s (min % 256) (max % 256) = (v % 256, s') := by
  have hne : ¬ (min = i8.lo ∧ max = i8.hi) := by rw [i8_lo, i8_hi]; omega
  have hle : min % 256 ≤ max % 256 := by omega
  have hd := R.draw_mem s _ _ hle
  cases e : R.draw s (min % 256) (max % 256) with
  | mk v s' =>
    rw [e] at hd
    dsimp only at hd
    refine ⟨(v + 128) % 256 - 128, s', ?_, ?_, ?_, ?_⟩
    · rw [drawValue, if_neg hne, getRandomChar, uniform, u8_wrap, u8_wrap, if_pos hle, e]
      simp [pure, i8_wrap]
    · omega
    · omega
    · congr 1
      omega

/-- C162, the part that holds: bounds of the same sign. -/
theorem C162_interval_partial (R : Rng σ) (min max : Int) (s : σ) (h1 : -128 ≤ min) (h2 : min ≤ max) (h3 : max ≤ 127)
    (hs : 0 ≤ min ∨ max < 0) : ∃ t s', intervalChar R min max s = .ok (t, s') ∧ GoodInt min max t := by
  obtain ⟨v, s', e, hv1, hv2, _⟩ := drawChar_ok R s h1 h2 h3 hs
  have hs := shrinkableOf_eq i8_mem h1 hv1 hv2 h3
  have : ∃ t, shrinkableOf i8 min max v = .ok t := by
    rcases hs with ⟨_, h⟩ | ⟨_, h⟩ <;> exact ⟨_, h⟩
  obtain ⟨t, ht⟩ := this
  refine ⟨t, s', ?_, (good_of_eq hv1 hv2 ?_).2⟩
  · unfold intervalChar generateChar; rw [e, Outcome.ok_bind]; simp only [ht]; rfl
  · rcases hs with ⟨hle, h⟩ | ⟨hle, h⟩
    · rw [h] at ht; cases ht; exact .inl ⟨hle, rfl⟩
    · rw [h] at ht; cases ht; exact .inr ⟨hle, rfl⟩

/-- C162, the part that holds: if no bound is negative, `char` behaves as `int8_t`, draw for draw; in particular the
default characters of strings, 1 to 127. -/
theorem C162_ascii_partial (R : Rng σ) (min max : Int) (s : σ) (h1 : 0 ≤ min) (h2 : min ≤ max) (h3 : max ≤ 127) :
    intervalChar R min max s = interval R i8 min max s := by
  have hne : ¬ (min = i8.lo ∧ max = i8.hi) := by rw [i8_lo, i8_hi]; omega
  unfold intervalChar generateChar interval generateInteger
  simp only [drawValue, if_neg hne, getRandomChar, getRandomT, u8_wrap, i8_wrap]
  rw [show min % 256 = (min + 128) % 256 - 128 by omega, show max % 256 = (max + 128) % 256 - 128 by omega]

/-- C162, the part that holds: every character of such a range can be generated. -/
theorem C162_every_value_partial (min max v : Int) (h1 : -128 ≤ min) (h2 : min ≤ v) (h3 : v ≤ max) (h4 : max ≤ 127)
    (hs : 0 ≤ min ∨ max < 0) : ∃ s t s', intervalChar script min max s = .ok (t, s') ∧ t.value = v := by
  obtain ⟨w, s', e, hw1, hw2, hd⟩ := drawChar_ok script [v % 256] h1 (by omega) h4 hs
  have hw : w = v := by
    rw [show script.draw [v % 256] (min % 256) (max % 256) = (v % 256, []) by
      show (if _ then _ else _, _) = _
      rw [if_pos ⟨by omega, by omega⟩], Prod.mk.injEq] at hd
    omega
  subst hw
  have hs := shrinkableOf_eq i8_mem h1 hw1 hw2 h4
  have : ∃ t, shrinkableOf i8 min max w = .ok t := by
    rcases hs with ⟨_, h⟩ | ⟨_, h⟩ <;> exact ⟨_, h⟩
  obtain ⟨t, ht⟩ := this
  refine ⟨[w % 256], t, s', ?_, (good_of_eq hw1 hw2 ?_).1⟩
  · unfold intervalChar generateChar; rw [e, Outcome.ok_bind]; simp only [ht]; rfl
  · rcases hs with ⟨hle, h⟩ | ⟨hle, h⟩
    · rw [h] at ht; cases ht; exact .inl ⟨hle, rfl⟩
    · rw [h] at ht; cases ht; exact .inr ⟨hle, rfl⟩

/-- C162, violated: with a negative lower bound and one that is not negative above, drawing is always undefined (for the
whole range of the type, `Arbi<char>`, see C21). -/
theorem C162_undefined_violated (R : Rng σ) (min max : Int) (s : σ) (h1 : -128 ≤ min) (h2 : min < 0) (h3 : 0 ≤ max)
    (h4 : max ≤ 127) (hf : ¬ (min = -128 ∧ max = 127)) : intervalChar R min max s = .ub := by
  unfold intervalChar generateChar
  rw [drawValue, if_neg (by rw [i8_lo, i8_hi]; exact hf), getRandomChar, uniform, u8_wrap, u8_wrap, if_neg (by omega)]
  rfl

/-- C162: empty ranges are undefined, as for the other types, if the bounds have the same sign; if not, every call
throws. -/
theorem C162_empty_partial (R : Rng σ) (min max : Int) (s : σ) (h1 : -128 ≤ max) (h2 : max < min) (h3 : min ≤ 127) :
    intervalChar R min max s = if max < 0 ∧ 0 ≤ min then .throws .runtimeError else .ub := by
  have hne : ¬ (min = i8.lo ∧ max = i8.hi) := by rw [i8_lo, i8_hi]; omega
  unfold intervalChar generateChar
  rw [drawValue, if_neg hne, getRandomChar, uniform, u8_wrap, u8_wrap]
  split
  · rename_i h
    rw [if_pos (by omega)]
    cases e : R.draw s (min % 256) (max % 256) with
    | mk v s' =>
      simp only [Outcome.ok_bind, pure, shrinkableOf]
      rw [if_pos (by rw [i8_wrap]; omega)]
      rfl
  · rw [if_neg (by omega)]
    rfl

/-- C162: the other generators. Undefined: ranges that start below zero and end above, although not empty. -/
theorem C162_others_partial (R : Rng σ) (s : σ) :
    (∀ max, 1 ≤ max → max ≤ 127 → ∃ t s', naturalChar R max s = .ok (t, s') ∧ GoodInt 1 max t) ∧
    (∀ max, 0 ≤ max → max ≤ 127 → ∃ t s', nonNegativeChar R max s = .ok (t, s') ∧ GoodInt 0 max t) ∧
    (∀ frm to, -128 ≤ frm → frm < to → to ≤ 127 → (0 ≤ frm ∨ to ≤ 0) →
      ∃ t s', inRangeChar R frm to s = .ok (t, s') ∧ GoodInt frm (to - 1) t) ∧
    (∀ start count, -128 ≤ start → 1 ≤ count → start + count ≤ 128 → (0 ≤ start ∨ start + count ≤ 0) →
      ∃ t s', integersChar R start count s = .ok (t, s') ∧ GoodInt start (start + count - 1) t) := by
  refine ⟨fun max h1 h2 => ?_, fun max h1 h2 => ?_, fun frm to h1 h2 h3 h4 => ?_, fun start count h1 h2 h3 h4 => ?_⟩
  · exact C162_interval_partial R 1 max s (by omega) h1 h2 (by omega)
  · exact C162_interval_partial R 0 max s (by omega) h1 h2 (by omega)
  · rw [inRangeChar, i8_wrap, show (to - 1 + 128) % 256 - 128 = to - 1 by omega]
    exact C162_interval_partial R frm (to - 1) s h1 (by omega) (by omega) (by omega)
  · rw [integersChar, i8_wrap, show (start + count - 1 + 128) % 256 - 128 = start + count - 1 by omega]
    exact C162_interval_partial R start (start + count - 1) s h1 (by omega) (by omega) (by omega)

/-- C162, violated: the other generators with ranges that start below zero and end above. -/
theorem C162_others_violated (R : Rng σ) (s : σ) :
    (∀ frm to, -128 ≤ frm → frm < 0 → 0 < to → to ≤ 127 → inRangeChar R frm to s = .ub) ∧
    (∀ start count, -128 ≤ start → start < 0 → 0 < start + count → count ≤ 127 → integersChar R start count s = .ub) := by
  refine ⟨fun frm to h1 h2 h3 h4 => ?_, fun start count h1 h2 h3 h4 => ?_⟩
  · rw [inRangeChar, i8_wrap, show (to - 1 + 128) % 256 - 128 = to - 1 by omega]
    exact C162_undefined_violated R frm (to - 1) s h1 h2 (by omega) (by omega) (by omega)
  · rw [integersChar, i8_wrap, show (start + count - 1 + 128) % 256 - 128 = start + count - 1 by omega]
    exact C162_undefined_violated R start (start + count - 1) s h1 h2 (by omega) (by omega) (by omega)

/-- C162: with unsigned `char` all ranges work. -/
theorem C162_unsigned (R : Rng σ) (min max : Int) (s : σ) (h1 : 0 ≤ min) (h2 : min ≤ max) (h3 : max ≤ 255) :
    ∃ t s', intervalCharUnsigned R min max s = .ok (t, s') ∧ GoodInt min max t := by
  have hT : u8 ∈ all := by simp [all]
  obtain ⟨v, s', e, hv1, hv2⟩ := drawValue_ok R hT (table := [0]) (by simp [u8_lo, u8_hi]) (by simp) s h1 h2 h3
  have hs := shrinkableOf_eq hT h1 hv1 hv2 h3
  have : ∃ t, shrinkableOf u8 min max v = .ok t := by
    rcases hs with ⟨_, h⟩ | ⟨_, h⟩ <;> exact ⟨_, h⟩
  obtain ⟨t, ht⟩ := this
  refine ⟨t, s', ?_, (good_of_eq hv1 hv2 ?_).2⟩
  · unfold intervalCharUnsigned; rw [e, Outcome.ok_bind]; simp only [ht]; rfl
  · rcases hs with ⟨hle, h⟩ | ⟨hle, h⟩
    · rw [h] at ht; cases ht; exact .inl ⟨hle, rfl⟩
    · rw [h] at ht; cases ht; exact .inr ⟨hle, rfl⟩

/-- `interval('A', 'C')`. -/
example : drawValue script .i8 [0] (getRandomChar script) 65 67 [67] = .ok (67, []) := by decide +kernel
example : ∃ t s', intervalChar script 65 67 [67] = .ok (t, s') ∧ GoodInt 65 67 t :=
  C162_interval_partial script 65 67 [67] (by decide) (by decide) (by decide) (by decide)
/-- `interval<char>(-10, 10)`. -/
example : intervalChar script (-10) 10 [3] = .ub :=
  C162_undefined_violated script (-10) 10 [3] (by decide) (by decide) (by decide) (by decide) (by decide)
/-- `interval<char>(-5, -3)` draws from 251 to 253. -/
example : drawValue script .i8 [0] (getRandomChar script) (-5) (-3) [252] = .ok (-4, []) := by decide +kernel
/-- `interval<char>(3, -5)`. -/
example : intervalChar script 3 (-5) [200] = .throws .runtimeError :=
  (C162_empty_partial script 3 (-5) [200] (by decide) (by decide) (by decide)).trans (if_pos (by decide))

end Verif
