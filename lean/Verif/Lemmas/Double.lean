import Mathlib.Tactic.Linarith
import Mathlib.Tactic.Positivity
import Mathlib.Tactic.FieldSimp
import Mathlib.Tactic.Ring
import Mathlib.Tactic.NormNum
import Verif.Model.Double
namespace Verif

theorem roundEven_cases (q : ℚ) : (roundEven q = ⌊q⌋ ∧ q - ⌊q⌋ ≤ 1 / 2) ∨ (roundEven q = ⌊q⌋ + 1 ∧ 1 / 2 ≤ q - ⌊q⌋) := by
  unfold roundEven
  simp only
  split_ifs with h1 h2 h3
  · exact .inl ⟨rfl, by linarith⟩
  · exact .inr ⟨rfl, by linarith⟩
  · exact .inl ⟨rfl, by linarith⟩
  · exact .inr ⟨rfl, by linarith⟩

theorem roundEven_err (q : ℚ) : |(roundEven q : ℚ) - q| ≤ 1 / 2 := by
  have h1 := Int.floor_le q
  have h2 := Int.lt_floor_add_one q
  rw [abs_le]
  rcases roundEven_cases q with ⟨e, h⟩ | ⟨e, h⟩ <;> rw [e]
  · constructor <;> linarith
  · push_cast; constructor <;> linarith

theorem roundEven_le {q : ℚ} {n : ℤ} (h : q < n + 1 / 2) : roundEven q ≤ n := by
  have := (abs_le.1 (roundEven_err q)).2
  have h' : (roundEven q : ℚ) < n + 1 := by linarith
  have : roundEven q < n + 1 := by exact_mod_cast h'
  omega

theorem le_roundEven {q : ℚ} {n : ℤ} (h : n - 1 / 2 < q) : n ≤ roundEven q := by
  have := (abs_le.1 (roundEven_err q)).1
  have h' : (n : ℚ) - 1 < roundEven q := by linarith
  have : n - 1 < roundEven q := by exact_mod_cast h'
  omega

theorem roundEven_int (n : ℤ) : roundEven n = n :=
  le_antisymm (roundEven_le (by linarith)) (le_roundEven (by linarith))

private theorem two_pow_pos (k : ℤ) : (0 : ℚ) < 2 ^ k := zpow_pos (by norm_num) k

theorem log_bounds {q : ℚ} (h : q ≠ 0) : (2 : ℚ) ^ (Int.log 2 |q|) ≤ |q| ∧ |q| < 2 ^ (Int.log 2 |q| + 1) := by
  have := abs_pos.2 h
  exact ⟨by simpa using Int.zpow_log_le_self (b := 2) (by norm_num) this,
    by simpa using Int.lt_zpow_succ_log_self (b := 2) (by norm_num) |q|⟩

theorem log_lt {q : ℚ} (h : q ≠ 0) {n : ℤ} (hn : |q| < 2 ^ n) : Int.log 2 |q| < n := by
  have := (log_bounds h).1.trans_lt hn
  exact (zpow_lt_zpow_iff_right₀ (by norm_num : (1 : ℚ) < 2)).1 this

theorem le_log {q : ℚ} (h : q ≠ 0) {n : ℤ} (hn : 2 ^ n ≤ |q|) : n ≤ Int.log 2 |q| := by
  have := hn.trans_lt (log_bounds h).2
  have := (zpow_lt_zpow_iff_right₀ (by norm_num : (1 : ℚ) < 2)).1 this
  omega

theorem rne_zero : rne 0 = 0 := by simp [rne]

theorem rne_eq {q : ℚ} (h : q ≠ 0) :
    rne q = roundEven (q * 2 ^ (52 - Int.log 2 |q|)) / 2 ^ (52 - Int.log 2 |q|) := by
  simp [rne, h]

/-- The result of rounding, scaled by its last place, is an integer. -/
theorem rne_mul {q : ℚ} (h : q ≠ 0) {j : ℤ} (hj : 52 - Int.log 2 |q| ≤ j) : ∃ m : ℤ, rne q * 2 ^ j = m := by
  obtain ⟨d, hd⟩ : ∃ d : ℕ, j = 52 - Int.log 2 |q| + d := ⟨(j - (52 - Int.log 2 |q|)).toNat, by omega⟩
  refine ⟨roundEven (q * 2 ^ (52 - Int.log 2 |q|)) * 2 ^ d, ?_⟩
  have := two_pow_pos (52 - Int.log 2 |q|)
  rw [rne_eq h, hd, zpow_add₀ (by norm_num)]
  push_cast
  rw [zpow_natCast]
  field_simp

/-- A number with at most 53 significant bits is not changed by rounding. -/
theorem rne_exact {q : ℚ} {j m : ℤ} (h : q * 2 ^ j = m) (hm : |m| ≤ 2 ^ 53) : rne q = q := by
  by_cases h0 : q = 0
  · rw [h0, rne_zero]
  have hp := two_pow_pos j
  have habs : |q| * 2 ^ j = |m| := by
    rw [← abs_of_pos hp, ← abs_mul, h]
    push_cast; rfl
  have key : ∃ n : ℤ, q * 2 ^ (52 - Int.log 2 |q|) = n := by
    rcases lt_or_eq_of_le hm with hm | hm
    · have : |q| < 2 ^ (53 - j) := by
        rw [zpow_sub₀ (by norm_num), lt_div_iff₀ hp, habs]
        exact_mod_cast hm
      have := log_lt h0 this
      obtain ⟨d, hd⟩ : ∃ d : ℕ, 52 - Int.log 2 |q| = j + d := ⟨(52 - Int.log 2 |q| - j).toNat, by omega⟩
      refine ⟨m * 2 ^ d, ?_⟩
      rw [hd, zpow_add₀ (by norm_num), ← mul_assoc, h]
      push_cast
      rfl
    · have hq : |q| = 2 ^ (53 - j) := by
        rw [zpow_sub₀ (by norm_num), eq_div_iff hp.ne', habs, hm]
        norm_num
      have e : Int.log 2 |q| = 53 - j := by
        rw [hq]
        exact_mod_cast Int.log_zpow (R := ℚ) (b := 2) (by norm_num) (53 - j)
      have hm' : m = 2 ^ 53 ∨ m = - 2 ^ 53 := by
        rcases abs_choice m with h | h <;> omega
      have e2 : (52 - (53 - j) : ℤ) = j - 1 := by ring
      rw [e, e2, zpow_sub₀ (by norm_num), zpow_one, mul_div_assoc', h]
      rcases hm' with h | h <;> rw [h]
      · exact ⟨2 ^ 52, by norm_num⟩
      · exact ⟨- 2 ^ 52, by norm_num⟩
  obtain ⟨n, hn⟩ := key
  have := two_pow_pos (52 - Int.log 2 |q|)
  rw [rne_eq h0, hn, roundEven_int, ← hn]
  field_simp

/-- The error is at most half a unit in the last place. -/
theorem rne_err {q : ℚ} (h : q ≠ 0) : |rne q - q| ≤ 2 ^ (Int.log 2 |q| - 53) := by
  have hp := two_pow_pos (52 - Int.log 2 |q|)
  rw [rne_eq h]
  set k := 52 - Int.log 2 |q| with hk
  have e : (roundEven (q * 2 ^ k) : ℚ) / 2 ^ k - q = (roundEven (q * 2 ^ k) - q * 2 ^ k) / 2 ^ k := by
    field_simp
  rw [e, abs_div, abs_of_pos hp, div_le_iff₀ hp, ← zpow_add₀ (by norm_num)]
  have : (Int.log 2 |q| - 53 + k : ℤ) = -1 := by omega
  rw [this]
  calc _ ≤ (1 / 2 : ℚ) := roundEven_err _
    _ = 2 ^ (-1 : ℤ) := by norm_num

theorem rne_err_le {q : ℚ} {n : ℤ} (h : |q| < 2 ^ n) : |rne q - q| ≤ 2 ^ (n - 54) := by
  by_cases h0 : q = 0
  · rw [h0, rne_zero]; simpa using (two_pow_pos (n - 54)).le
  · have := log_lt h0 h
    exact (rne_err h0).trans (zpow_le_zpow_right₀ (by norm_num) (by omega))

theorem rne_err_rel (q : ℚ) : |rne q - q| ≤ |q| / 2 ^ 53 := by
  by_cases h : q = 0
  · rw [h, rne_zero]; simp
  · refine (rne_err h).trans ?_
    rw [zpow_sub₀ (by norm_num)]
    have := (log_bounds h).1
    exact div_le_div_of_nonneg_right this (by positivity)

theorem rne_pos {q : ℚ} (h : 0 < q) : 0 < rne q := by
  have := (abs_le.1 (rne_err_rel q)).1
  rw [abs_of_pos h] at this
  have h2 : q / 2 ^ 53 < q := by
    rw [div_lt_iff₀ (by positivity)]
    nlinarith
  linarith

theorem rne_neg {q : ℚ} (h : q < 0) : rne q < 0 := by
  have := (abs_le.1 (rne_err_rel q)).2
  rw [abs_of_neg h] at this
  have h2 : -q / 2 ^ 53 < -q := by
    rw [div_lt_iff₀ (by positivity)]
    nlinarith
  linarith

theorem rne_nonneg {q : ℚ} (h : 0 ≤ q) : 0 ≤ rne q := by
  rcases h.lt_or_eq with h | h
  · exact (rne_pos h).le
  · rw [← h, rne_zero]

theorem rne_le_one {q : ℚ} (h0 : 0 ≤ q) (h : q < 1 + 1 / 2 ^ 53) : rne q ≤ 1 := by
  rcases h0.lt_or_eq with h0 | h0
  swap
  · rw [← h0, rne_zero]; norm_num
  have hne : q ≠ 0 := h0.ne'
  have ha : |q| = q := abs_of_pos h0
  rw [rne_eq hne]
  have hp := two_pow_pos (52 - Int.log 2 |q|)
  rw [div_le_one hp]
  by_cases h1 : q < 1
  · have hl := log_lt hne (n := 0) (by rw [ha]; simpa using h1)
    obtain ⟨d, hd⟩ : ∃ d : ℕ, 52 - Int.log 2 |q| = d := ⟨(52 - Int.log 2 |q|).toNat, by omega⟩
    rw [hd] at hp ⊢
    have : roundEven (q * 2 ^ (d : ℤ)) ≤ 2 ^ d := by
      apply roundEven_le
      push_cast
      have : q * 2 ^ (d : ℤ) ≤ 2 ^ (d : ℤ) := by nlinarith
      rw [zpow_natCast] at this ⊢
      linarith
    have : ((roundEven (q * 2 ^ (d : ℤ)) : ℤ) : ℚ) ≤ ((2 ^ d : ℤ) : ℚ) := by exact_mod_cast this
    rw [zpow_natCast] at *
    exact_mod_cast this
  · have hl : Int.log 2 |q| = 0 := by
      have h1' := le_log hne (n := 0) (by rw [ha]; simpa using h1)
      have h2 := log_lt hne (n := 1) (by rw [ha]; norm_num at h ⊢; linarith)
      omega
    rw [hl]
    have : roundEven (q * 2 ^ (52 - 0 : ℤ)) ≤ 2 ^ 52 := by
      apply roundEven_le
      norm_num at h ⊢
      linarith
    have : ((roundEven (q * 2 ^ (52 - 0 : ℤ)) : ℤ) : ℚ) ≤ ((2 ^ 52 : ℤ) : ℚ) := by exact_mod_cast this
    norm_num at this ⊢
    exact this

theorem rne_idem (q : ℚ) : rne (rne q) = rne q := by
  by_cases h : q = 0
  · rw [h, rne_zero, rne_zero]
  have hp := two_pow_pos (52 - Int.log 2 |q|)
  refine rne_exact (j := 52 - Int.log 2 |q|) (m := roundEven (q * 2 ^ (52 - Int.log 2 |q|))) ?_ ?_
  · rw [rne_eq h]; field_simp
  · have hb : |q * 2 ^ (52 - Int.log 2 |q|)| < 2 ^ 53 := by
      rw [abs_mul, abs_of_pos hp]
      calc |q| * 2 ^ (52 - Int.log 2 |q|) < 2 ^ (Int.log 2 |q| + 1) * 2 ^ (52 - Int.log 2 |q|) :=
            mul_lt_mul_of_pos_right (log_bounds h).2 hp
        _ = 2 ^ (53 : ℤ) := by rw [← zpow_add₀ (by norm_num)]; congr 1; ring
        _ = 2 ^ 53 := by norm_num
    rw [abs_lt] at hb
    rw [abs_le]
    constructor
    · apply le_roundEven; push_cast; linarith [hb.1]
    · apply roundEven_le; push_cast; linarith [hb.2]

/-- No double lies between 1 and 1 + 2^-52, and rounding does not come down to 1 from above that. -/
theorem rne_gt_one {q : ℚ} (h : 1 + 1 / 2 ^ 52 ≤ q) : 1 + 1 / 2 ^ 52 ≤ rne q := by
  have h0 : 0 < q := lt_of_lt_of_le (by norm_num) h
  have ha : |q| = q := abs_of_pos h0
  have h1 : 1 < rne q := by
    have := (abs_le.1 (rne_err_rel q)).1
    rw [ha] at this
    norm_num at this h ⊢
    linarith
  have hl := le_log h0.ne' (n := 0) (by rw [ha]; norm_num at h ⊢; linarith)
  obtain ⟨m, hm⟩ := rne_mul h0.ne' (j := 52) (by omega)
  norm_num at hm h1 ⊢
  have : (4503599627370496 : ℚ) < m := by rw [← hm]; linarith
  have : (4503599627370496 : ℤ) < m := by exact_mod_cast this
  have : (4503599627370497 : ℚ) ≤ m := by exact_mod_cast this
  rw [← hm] at this
  linarith

/-- What exceeds 1 after rounding exceeds it by at least 2^-52. -/
theorem rne_one_lt {q : ℚ} (h : 1 < rne q) : 1 + 1 / 2 ^ 52 ≤ rne q := by
  have hq : 1 + 1 / 2 ^ 53 ≤ q := by
    by_contra hc
    push Not at hc
    rcases le_or_gt 0 q with h0 | h0
    · linarith [rne_le_one h0 hc]
    · linarith [rne_neg h0]
  have h0 : 0 < q := lt_of_lt_of_le (by norm_num) hq
  have ha : |q| = q := abs_of_pos h0
  have hl := le_log h0.ne' (n := 0) (by rw [ha]; norm_num at hq ⊢; linarith)
  obtain ⟨m, hm⟩ := rne_mul h0.ne' (j := 52) (by omega)
  norm_num at hm h ⊢
  have : (4503599627370496 : ℚ) < m := by rw [← hm]; linarith
  have : (4503599627370496 : ℤ) < m := by exact_mod_cast this
  have : (4503599627370497 : ℚ) ≤ m := by exact_mod_cast this
  rw [← hm] at this
  linarith

end Verif
