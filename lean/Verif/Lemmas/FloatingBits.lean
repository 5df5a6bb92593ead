import Verif.Spec.Floating
import Verif.Lemmas.Floating
import Mathlib.Algebra.Order.Field.Power
import Mathlib.Tactic.Linarith
import Mathlib.Tactic.Positivity
import Mathlib.Tactic.Ring
/-
The bits of floating point numbers, and their size as rational numbers.
-/
namespace Verif
namespace Floating

theorem Fmt.bits_eq (F : Fmt) : F.emin + (2^F.ebits - 3) + F.p = F.emax := by cases F <;> decide
theorem Fmt.ebits_pos (F : Fmt) : 8 ≤ F.ebits := by cases F <;> decide

theorem ofBits_valid (F : Fmt) (bits : Nat) : (ofBits F bits).Valid F := by
  have hp := F.p_pos
  have hb := F.bits_eq
  have hm : bits % 2^(F.p - 1) < 2^(F.p - 1) := Nat.mod_lt _ (Nat.two_pow_pos _)
  have he : bits / 2^(F.p - 1) % 2^F.ebits < 2^F.ebits := Nat.mod_lt _ (Nat.two_pow_pos _)
  have hpp : 2^F.p = 2 * 2^(F.p - 1) := by rw [← Nat.pow_succ']; congr 1; omega
  have hc : ((2:Int)^F.ebits) = ((2^F.ebits : Nat) : Int) := by simp
  simp only [ofBits]
  generalize bits % 2^(F.p - 1) = man at *
  generalize bits / 2^(F.p - 1) % 2^F.ebits = ex at *
  rw [hc] at hb
  split
  · split
    · trivial
    · rename_i h0
      have h1 := Nat.log2_self_le h0
      have h2 : man < 2^(man.log2 + 1) := Nat.lt_log2_self
      have h3 : man.log2 < F.p - 1 := (Nat.log2_lt h0).mpr hm
      refine ⟨?_, ?_, ?_, ?_⟩
      · calc 2^(F.p - 1) = 2^man.log2 * 2^(F.p - 1 - man.log2) := by rw [← Nat.pow_add]; congr 1; omega
          _ ≤ _ := Nat.mul_le_mul_right _ h1
      · calc man * 2^(F.p - 1 - man.log2) < 2^(man.log2 + 1) * 2^(F.p - 1 - man.log2) :=
              Nat.mul_lt_mul_of_pos_right h2 (Nat.two_pow_pos _)
          _ = 2^F.p := by rw [← Nat.pow_add]; congr 1; omega
      · have := F.emin_p
        have := F.emax_ge
        omega
      · rw [show (F.emin - (F.emin + 1 + man.log2 - F.p)).toNat = F.p - 1 - man.log2 by omega]
        exact Nat.dvd_mul_left _ _
  · split
    · split <;> trivial
    · refine ⟨by omega, by omega, by omega, ?_⟩
      rw [show (F.emin - (F.emin + ((ex : Int) - 1) + F.p - F.p)).toNat = 0 by omega]
      simp

theorem fields (F : Fmt) (s ex man : Nat) (hs : s < 2) (he : ex < 2^F.ebits) (hm : man < 2^(F.p - 1)) :
    let bits := s * 2^(F.ebits + (F.p - 1)) + ex * 2^(F.p - 1) + man
    bits / 2^(F.ebits + (F.p - 1)) % 2 = s ∧ bits / 2^(F.p - 1) % 2^F.ebits = ex ∧ bits % 2^(F.p - 1) = man ∧
      bits < 2^(F.ebits + F.p) := by
  intro bits
  have hp := F.p_pos
  have hP := Nat.two_pow_pos (F.p - 1)
  have hE := Nat.two_pow_pos F.ebits
  have h1 : bits = (s * 2^F.ebits + ex) * 2^(F.p - 1) + man := by
    simp only [bits]; rw [Nat.pow_add]; ring
  have h2 : bits / 2^(F.p - 1) = s * 2^F.ebits + ex := by
    rw [h1, Nat.mul_comm, Nat.mul_add_div hP, Nat.div_eq_of_lt hm, Nat.add_zero]
  have h3 : bits / 2^(F.ebits + (F.p - 1)) = s := by
    rw [Nat.add_comm, Nat.pow_add, ← Nat.div_div_eq_div_mul, h2, Nat.mul_comm, Nat.mul_add_div hE,
      Nat.div_eq_of_lt he, Nat.add_zero]
  refine ⟨by rw [h3, Nat.mod_eq_of_lt hs], ?_, ?_, ?_⟩
  · rw [h2, Nat.mul_comm, Nat.mul_add_mod, Nat.mod_eq_of_lt he]
  · rw [h1, Nat.mul_comm, Nat.mul_add_mod, Nat.mod_eq_of_lt hm]
  · have : bits / 2^(F.ebits + (F.p - 1)) < 2 := by rw [h3]; exact hs
    rw [Nat.div_lt_iff_lt_mul (Nat.two_pow_pos _)] at this
    calc bits < _ := this
      _ = 2^(F.ebits + F.p) := by rw [← Nat.pow_succ']; congr 1; omega

theorem ofBits_surjective (F : Fmt) (x : Fl) (h : x.Valid F) :
    ∃ bits, bits < 2^(F.ebits + F.p) ∧ ofBits F bits = x := by
  have hp := F.p_pos
  have hb := F.bits_eq
  have hP := Nat.two_pow_pos (F.p - 1)
  have hE : 2^8 ≤ 2^F.ebits := Nat.pow_le_pow_right (by decide) F.ebits_pos
  have hP2 : 2^1 ≤ 2^(F.p - 1) := Nat.pow_le_pow_right (by decide) (by omega)
  have hc : ((2:Int)^F.ebits) = ((2^F.ebits : Nat) : Int) := by simp
  rw [hc] at hb
  have key : ∀ (neg : Bool) (ex man : Nat), ex < 2^F.ebits → man < 2^(F.p - 1) →
      (if ex = 0 then
        if man = 0 then Fl.zero neg
        else .fin neg (man * 2^(F.p - 1 - man.log2)) (F.emin + 1 + man.log2)
      else if ex = 2^F.ebits - 1 then
        if man = 0 then .inf neg else .nan
      else .fin neg (2^(F.p - 1) + man) (F.emin + (ex - 1) + F.p)) = x →
      ∃ bits, bits < 2^(F.ebits + F.p) ∧ ofBits F bits = x := by
    intro neg ex man he hm hx
    obtain ⟨h1, h2, h3, h4⟩ := fields F neg.toNat ex man (by cases neg <;> decide) he hm
    refine ⟨_, h4, ?_⟩
    simp only [ofBits]
    rw [h1, h2, h3]
    rw [show decide (neg.toNat = 1) = neg by cases neg <;> rfl]
    exact hx
  cases x with
  | nan =>
    refine key false (2^F.ebits - 1) 1 (by omega) (by omega) ?_
    rw [if_neg (by omega), if_pos rfl, if_neg (by omega)]
  | inf neg =>
    refine key neg (2^F.ebits - 1) 0 (by omega) (by omega) ?_
    rw [if_neg (by omega), if_pos rfl, if_pos rfl]
  | zero neg =>
    refine key neg 0 0 (by omega) (by omega) ?_
    rw [if_pos rfl, if_pos rfl]
  | fin neg f e =>
    have hl := Fmt.Finite.emin_lt h
    obtain ⟨h1, h2, h3, h4⟩ := h
    have hpp : 2^F.p = 2 * 2^(F.p - 1) := by rw [← Nat.pow_succ']; congr 1; omega
    by_cases hn : F.emin + F.p ≤ e
    · refine key neg (e - F.emin - F.p + 1).toNat (f - 2^(F.p - 1)) (by omega) (by omega) ?_
      rw [if_neg (by omega), if_neg (by omega)]
      congr 1 <;> omega
    · obtain ⟨m, rfl⟩ := h4
      generalize hk : (F.emin - (e - F.p)).toNat = k at *
      have hkp : k ≤ F.p - 1 := by omega
      have hm0 : m ≠ 0 := by rintro rfl; simp at h1
      have hlog : m.log2 = F.p - 1 - k := by
        rw [Nat.log2_eq_iff hm0]
        constructor
        · have : 2^k * 2^(F.p - 1 - k) ≤ 2^k * m := by
            rw [← Nat.pow_add, show k + (F.p - 1 - k) = F.p - 1 by omega]; exact h1
          exact Nat.le_of_mul_le_mul_left this (Nat.two_pow_pos _)
        · have : 2^k * m < 2^k * 2^(F.p - 1 - k + 1) := by
            rw [← Nat.pow_add, show k + (F.p - 1 - k + 1) = F.p by omega]; exact h2
          exact Nat.lt_of_mul_lt_mul_left this
      have hlt : m < 2^(F.p - 1) := by
        rw [← Nat.log2_lt hm0]; omega
      refine key neg 0 m (by omega) hlt ?_
      rw [if_pos rfl, if_neg hm0, hlog]
      congr 1
      · rw [show F.p - 1 - (F.p - 1 - k) = k by omega, Nat.mul_comm]
      · omega

theorem abs_fin (F : Fmt) (neg : Bool) (f : Nat) (e : Int) :
    |((if neg then -1 else 1) * f * 2^(e - F.p) : ℚ)| = f * 2^(e - F.p) := by
  have : (0:ℚ) ≤ f * 2^(e - (F.p : Int)) := by positivity
  cases neg
  · simp only [Bool.false_eq_true, if_false, one_mul]; exact abs_of_nonneg this
  · simp only [if_true, neg_mul, one_mul, abs_neg]; exact abs_of_nonneg this

theorem half_mul (F : Fmt) (e : Int) : ((2^(F.p - 1) : Nat) : ℚ) * 2^(e - F.p) = 2^(e - 1) := by
  have hp := F.p_pos
  rw [Nat.cast_pow, ← zpow_natCast, Nat.cast_ofNat, ← zpow_add₀ (by norm_num)]
  congr 1
  omega

theorem fin_ge {F : Fmt} {f : Nat} {e : Int} (h : F.Finite f e) : (2:ℚ)^(e - 1) ≤ f * 2^(e - F.p) := by
  rw [← half_mul F e]
  have : ((2^(F.p - 1) : Nat) : ℚ) ≤ f := by exact_mod_cast h.1
  gcongr

theorem fin_lt {F : Fmt} {f : Nat} {e : Int} (h : F.Finite f e) : (f:ℚ) * 2^(e - F.p) < 2^e := by
  have : (f : ℚ) < (2^F.p : Nat) := by exact_mod_cast h.2.1
  calc (f:ℚ) * 2^(e - F.p) < (2^F.p : Nat) * 2^(e - F.p) := by gcongr
    _ = 2^e := by
      rw [Nat.cast_pow, ← zpow_natCast, Nat.cast_ofNat, ← zpow_add₀ (by norm_num)]
      congr 1
      omega

end Floating
end Verif
