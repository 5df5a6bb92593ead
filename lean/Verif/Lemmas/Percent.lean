import Verif.Model.Percent
import Verif.Lemmas.Double
import Verif.Lemmas.PrintingFloat
import Mathlib.Tactic.Linarith
import Mathlib.Tactic.Positivity
import Mathlib.Tactic.FieldSimp
import Mathlib.Tactic.Ring
import Mathlib.Tactic.NormNum
/-! Helper lemmas about the percentages of tags. -/
namespace Verif
namespace Context
open Printing

theorem rne_bounds {q : ℚ} (h : 0 ≤ q) : q * (1 - 1 / 2^53) ≤ rne q ∧ rne q ≤ q * (1 + 1 / 2^53) := by
  have := rne_err_rel q
  rw [abs_of_nonneg h, abs_le] at this
  constructor
  · have h1 := this.1
    rw [mul_sub, mul_one_div]; linarith
  · have h1 := this.2
    rw [mul_add, mul_one_div]; linarith

/-- Four roundings. -/
theorem percent_bounds {c t : Nat} (hc : 0 < c) (ht : 0 < t) :
    (100 * c / t : ℚ) * (1 - 1 / 10^14) ≤ percent c t ∧ percent c t ≤ (100 * c / t : ℚ) * (1 + 1 / 10^14) := by
  have hc' : (0 : ℚ) < c := by exact_mod_cast hc
  have ht' : (0 : ℚ) < t := by exact_mod_cast ht
  obtain ⟨a1, a2⟩ := rne_bounds hc'.le
  obtain ⟨b1, b2⟩ := rne_bounds ht'.le
  have hb : 0 < rne (t : ℚ) := rne_pos ht'
  have ha : 0 < rne (c : ℚ) := rne_pos hc'
  have hv : (0 : ℚ) < c / t := by positivity
  have q1 : (c / t : ℚ) * (1 - 1 / 10^15) ≤ rne (c : ℚ) / rne (t : ℚ) := by
    rw [le_div_iff₀ hb]
    calc (c / t : ℚ) * (1 - 1 / 10^15) * rne t ≤ (c / t : ℚ) * (1 - 1 / 10^15) * (t * (1 + 1 / 2^53)) := by
          apply mul_le_mul_of_nonneg_left b2; exact mul_nonneg hv.le (by norm_num)
      _ ≤ rne c := by
          have : (c / t : ℚ) * (1 - 1 / 10^15) * (t * (1 + 1 / 2^53)) = c * ((1 - 1 / 10^15) * (1 + 1 / 2^53)) := by
            field_simp
          rw [this]
          refine le_trans (mul_le_mul_of_nonneg_left ?_ hc'.le) a1
          norm_num
  have q2 : rne (c : ℚ) / rne (t : ℚ) ≤ (c / t : ℚ) * (1 + 1 / 10^15) := by
    rw [div_le_iff₀ hb]
    calc rne (c : ℚ) ≤ (c / t : ℚ) * (1 + 1 / 10^15) * (t * (1 - 1 / 2^53)) := by
          have : (c / t : ℚ) * (1 + 1 / 10^15) * (t * (1 - 1 / 2^53)) = c * ((1 + 1 / 10^15) * (1 - 1 / 2^53)) := by
            field_simp
          rw [this]
          refine le_trans a2 (mul_le_mul_of_nonneg_left ?_ hc'.le)
          norm_num
      _ ≤ (c / t : ℚ) * (1 + 1 / 10^15) * rne t := by
          apply mul_le_mul_of_nonneg_left b1; positivity
  have hq : 0 < rne (c : ℚ) / rne (t : ℚ) := div_pos ha hb
  obtain ⟨c1, c2⟩ := rne_bounds hq.le
  have hr : 0 < rne (rne (c : ℚ) / rne (t : ℚ)) := rne_pos hq
  obtain ⟨d1, d2⟩ := rne_bounds (q := rne (rne (c : ℚ) / rne (t : ℚ)) * 100) (by positivity)
  unfold percent
  generalize rne (c : ℚ) / rne (t : ℚ) = x at *
  generalize rne x = y at *
  generalize rne (y * 100) = z at *
  have e : (100 * c / t : ℚ) = 100 * (c / t) := by ring
  rw [e]
  generalize (c / t : ℚ) = v at *
  constructor <;> norm_num at * <;> linarith

theorem percent_pos {c t : Nat} (hc : 0 < c) (ht : 0 < t) : 0 < percent c t := by
  have hc' : (0 : ℚ) < c := by exact_mod_cast hc
  have ht' : (0 : ℚ) < t := by exact_mod_cast ht
  refine lt_of_lt_of_le ?_ (percent_bounds hc ht).1
  have : (0 : ℚ) < 100 * c / t := by positivity
  exact mul_pos this (by norm_num)

theorem num_den {q : ℚ} (h : 0 < q) : 0 < q.num.toNat ∧ (q.num.toNat : ℚ) / q.den = q := by
  have h1 : 0 < q.num := Rat.num_pos.2 h
  refine ⟨by omega, ?_⟩
  have h2 : ((q.num.toNat : ℕ) : ℚ) = (q.num : ℚ) := by
    rw [← Int.cast_natCast, Int.toNat_of_nonneg h1.le]
  rw [h2, Rat.num_div_den]

theorem percentText_eq {c t : Nat} (hc : 0 < c) (ht : 0 < t) : ∃ n d : Nat, 0 < n ∧ 0 < d ∧ (n : ℚ) / d = percent c t ∧
    percentText c t = formatG (sixDigits n d).1 (sixDigits n d).2 := by
  have hp := percent_pos hc ht
  obtain ⟨h1, h2⟩ := num_den hp
  refine ⟨_, _, h1, (percent c t).den_pos, h2, ?_⟩
  unfold percentText
  rw [if_neg hp.ne']

theorem scaled (n d k : Nat) (hd : 0 < d) : ((n * 10^k : Nat) : ℚ) / ((d * 10^0 : Nat) : ℚ) = (n : ℚ) / d * 10^k := by
  push_cast
  ring

theorem rounds_lt {n d : Nat} (k m : Nat) (hd : 0 < d) (h2 : (n : ℚ) / d * 10^k < m + 1 / 2) :
    Printing.roundEven (n * 10^k) (d * 10^0) < m + 1 := by
  have := roundEven_spec (n * 10^k) (d := d * 10^0) (by positivity)
  rw [abs_le, scaled n d k hd] at this
  have : ((Printing.roundEven (n * 10^k) (d * 10^0) : Nat) : ℚ) < ((m + 1 : Nat) : ℚ) := by push_cast; linarith [this.2]
  exact Nat.cast_lt.1 this

theorem rounds_gt {n d : Nat} (k m : Nat) (hd : 0 < d) (h1 : (m : ℚ) + 1 / 2 < (n : ℚ) / d * 10^k) :
    m < Printing.roundEven (n * 10^k) (d * 10^0) := by
  have := roundEven_spec (n * 10^k) (d := d * 10^0) (by positivity)
  rw [abs_le, scaled n d k hd] at this
  have h3 := this.1
  generalize Printing.roundEven (n * 10^k) (d * 10^0) = r at *
  have h4 : (m : ℚ) < (r : ℚ) := by linarith
  exact Nat.cast_lt.1 h4

/-- Numbers that are written as 100. -/
theorem sixDigits_hundred {n d : Nat} (hn : 0 < n) (hd : 0 < d) (h1 : (99.99995 : ℚ) < (n : ℚ) / d)
    (h2 : (n : ℚ) / d < 100.0005) : sixDigits n d = (10^5, 2) := by
  have hd' : (0 : ℚ) < d := by exact_mod_cast hd
  obtain ⟨e1, e2⟩ := expo_spec hn hd
  have hx : expo n d = 1 ∨ expo n d = 2 := by
    have a : expo n d < 3 := by
      by_contra h
      have : (10 : ℚ)^(3 : ℤ) ≤ 10^(expo n d) := zpow_le_zpow_right₀ (by norm_num) (by omega)
      norm_num at this
      linarith
    have b : 0 < expo n d := by
      by_contra h
      have : (10 : ℚ)^(expo n d + 1) ≤ 10^(1 : ℤ) := zpow_le_zpow_right₀ (by norm_num) (by omega)
      norm_num at this
      linarith
    omega
  rcases hx with hx | hx
  · rw [hx] at e1 e2
    norm_num at e1 e2
    have hr : Printing.roundEven (n * 10^4) (d * 10^0) = 10^6 := by
      have l1 := rounds_gt (n := n) 4 999999 hd (by push_cast; linarith)
      have l2 := rounds_lt (n := n) 4 1000000 hd (by push_cast; linarith)
      omega
    unfold sixDigits
    rw [hx]
    have a : (5 - (1 : Int)).toNat = 4 := by decide
    have b : ((1 : Int) - 5).toNat = 0 := by decide
    simp only [a, b, hr]
    decide
  · rw [hx] at e1 e2
    norm_num at e1 e2
    have hr : Printing.roundEven (n * 10^3) (d * 10^0) = 10^5 := by
      have l1 := rounds_gt (n := n) 3 99999 hd (by push_cast; linarith)
      have l2 := rounds_lt (n := n) 3 100000 hd (by push_cast; linarith)
      omega
    unfold sixDigits
    rw [hx]
    have a : (5 - (2 : Int)).toNat = 3 := by decide
    have b : ((2 : Int) - 5).toNat = 0 := by decide
    simp only [a, b, hr]
    decide

/-- Numbers below the last one that is not written as 100. -/
theorem sixDigits_below {n d : Nat} (hn : 0 < n) (hd : 0 < d) (h2 : (n : ℚ) / d < 99.99995) :
    ((sixDigits n d).1 : ℚ) * 10^((sixDigits n d).2 - 5) < 100 := by
  by_cases h1 : (n : ℚ) / d < 99
  · have := (sixDigits_spec hn hd).2.2
    rw [abs_le] at this
    linarith [this.2]
  · have hd' : (0 : ℚ) < d := by exact_mod_cast hd
    obtain ⟨e1, e2⟩ := expo_spec hn hd
    have hx : expo n d = 1 := by
      have a : expo n d < 2 := by
        by_contra h
        have : (10 : ℚ)^(2 : ℤ) ≤ 10^(expo n d) := zpow_le_zpow_right₀ (by norm_num) (by omega)
        norm_num at this
        linarith
      have b : 0 < expo n d := by
        by_contra h
        have : (10 : ℚ)^(expo n d + 1) ≤ 10^(1 : ℤ) := zpow_le_zpow_right₀ (by norm_num) (by omega)
        norm_num at this
        linarith
      omega
    have hr : Printing.roundEven (n * 10^4) (d * 10^0) < 10^6 :=
      rounds_lt (n := n) 4 999999 hd (by push_cast; linarith)
    unfold sixDigits
    rw [hx]
    have a : (5 - (1 : Int)).toNat = 4 := by decide
    have b : ((1 : Int) - 5).toNat = 0 := by decide
    simp only [a, b, if_neg hr.ne]
    have : ((Printing.roundEven (n * 10^4) (d * 10^0) : Nat) : ℚ) < 10^6 := by exact_mod_cast hr
    generalize Printing.roundEven (n * 10^4) (d * 10^0) = r at this
    rw [show ((1 : Int) - 5) = -4 by norm_num, zpow_neg, ← div_eq_mul_inv, div_lt_iff₀ (by positivity)]
    norm_num at this ⊢
    exact this

/-- Not more than 100 is written. -/
theorem sixDigits_le {n d : Nat} (hn : 0 < n) (hd : 0 < d) (h2 : (n : ℚ) / d < 100.0005) :
    ((sixDigits n d).1 : ℚ) * 10^((sixDigits n d).2 - 5) ≤ 100 := by
  by_cases h1 : (n : ℚ) / d < 99.99995
  · exact (sixDigits_below hn hd h1).le
  · by_cases h3 : (99.99995 : ℚ) < (n : ℚ) / d
    · rw [sixDigits_hundred hn hd h3 h2]
      norm_num
    · have he : (n : ℚ) / d = 99.99995 := by linarith
      have hx : expo n d = 1 := by
        obtain ⟨e1, e2⟩ := expo_spec hn hd
        have a : expo n d < 2 := by
          by_contra h
          have : (10 : ℚ)^(2 : ℤ) ≤ 10^(expo n d) := zpow_le_zpow_right₀ (by norm_num) (by omega)
          norm_num at this
          linarith
        have b : 0 < expo n d := by
          by_contra h
          have : (10 : ℚ)^(expo n d + 1) ≤ 10^(1 : ℤ) := zpow_le_zpow_right₀ (by norm_num) (by omega)
          norm_num at this
          linarith
        omega
      have hr : Printing.roundEven (n * 10^4) (d * 10^0) ≤ 10^6 :=
        Nat.le_of_lt_succ (rounds_lt (n := n) 4 (10^6) hd (by push_cast; linarith))
      unfold sixDigits
      rw [hx]
      have a : (5 - (1 : Int)).toNat = 4 := by decide
      have b : ((1 : Int) - 5).toNat = 0 := by decide
      simp only [a, b]
      split
      · norm_num
      · have : ((Printing.roundEven (n * 10^4) (d * 10^0) : Nat) : ℚ) ≤ 10^6 := by exact_mod_cast hr
        generalize Printing.roundEven (n * 10^4) (d * 10^0) = r at this
        rw [show ((1 : Int) - 5) = -4 by norm_num, zpow_neg, ← div_eq_mul_inv, div_le_iff₀ (by positivity)]
        norm_num at this ⊢
        exact this

end Context
end Verif
