import Verif.Lemmas.ChanceFloat
import Verif.Props.Floating
/-
C146: how likely the results of `Arbi<float>` and `Arbi<double>` are (Spec/Chance.lean).
-/
namespace Verif
open Shr Floating

/-- C146. Every number of the type except NaN is equally likely: one of 2^32 or 2^64 cases. So half of the numbers are
smaller than 1 in magnitude (and almost none of them close to 1), and none is preferred, like 0 or whole numbers. -/
theorem C146_value (F : Fmt) (x : Fl) (hx : x.Valid F) (hn : x ≠ .nan) :
    Chance (fun _ R s => arbiValue R F s) (fun y => decide (y = x)) (1 / 2 ^ (F.ebits + F.p)) := by
  obtain ⟨bits, hb, rfl⟩ := ofBits_surjective F x hx
  have := chance_bits F (fun y => decide (y = ofBits F bits)) 1 (by
    rw [Finset.card_eq_one]
    refine ⟨bits, ?_⟩
    ext n
    rw [Finset.mem_filter, Finset.mem_range, Finset.mem_singleton, decide_eq_true_eq]
    constructor
    · rintro ⟨h1, h2⟩
      exact ofBits_inj F h1 hb (h2 ▸ hn) h2
    · rintro rfl
      exact ⟨hb, rfl⟩)
  simpa using this

/-- 2.5 comes up once in 2^32 floats, as do both zeros. -/
example : Chance (fun _ R s => arbiValue R .single s) (fun y => decide (y = float2_5)) (1 / 4294967296) ∧
    Chance (fun _ R s => arbiValue R .single s) (fun y => decide (y = .zero true)) (1 / 4294967296) := by
  have h1 := C146_value .single float2_5 (by decide +kernel) (by decide)
  have h2 := C146_value .single (.zero true) (by decide) (by decide)
  norm_num [Fmt.ebits, Fmt.p] at h1 h2 ⊢
  exact ⟨h1, h2⟩

/-- C146. NaN: slightly less than 1 of 256 floats, or 1 of 2048 doubles. -/
theorem C146_nan (F : Fmt) :
    Chance (fun _ R s => arbiValue R F s) (fun y => decide (y = .nan)) ((2 ^ F.p - 2) / 2 ^ (F.ebits + F.p)) := by
  have hp := F.p_pos
  have hE : 2^8 ≤ 2^F.ebits := Nat.pow_le_pow_right (by decide) F.ebits_pos
  have hP : 0 < 2^(F.p - 1) := Nat.two_pow_pos _
  have hpp : 2^F.p = 2 * 2^(F.p - 1) := by rw [← Nat.pow_succ']; congr 1; omega
  have hQ : 2^(F.ebits + (F.p - 1)) = (2^F.ebits - 1) * 2^(F.p - 1) + 2^(F.p - 1) := by
    rw [Nat.pow_add, Nat.sub_mul, Nat.one_mul, Nat.sub_add_cancel]
    exact Nat.le_mul_of_pos_left _ (by omega)
  have := chance_bits F (fun y => decide (y = .nan)) (2 * (2^(F.p - 1) - 1)) (by
    refine (count_range F (fun y => decide (y = .nan)) ((2^F.ebits - 1) * 2^(F.p - 1) + 1) (2^(F.ebits + (F.p - 1)))
      (by omega) le_rfl ?_).trans (by rw [hQ]; omega)
    · intro neg ex man he hm
      rw [decide_eq_true_eq]
      have hlt : ex < 2^F.ebits - 1 → ex * 2^(F.p - 1) + man < (2^F.ebits - 1) * 2^(F.p - 1) := fun h => by
        calc ex * 2^(F.p - 1) + man < ex * 2^(F.p - 1) + 2^(F.p - 1) := by omega
          _ = (ex + 1) * 2^(F.p - 1) := by ring
          _ ≤ _ := Nat.mul_le_mul_right _ h
      unfold ofFields
      by_cases x0 : ex = 0
      · have := hlt (by omega)
        rw [if_pos x0]
        split
        · exact ⟨fun h => (by cases h), fun h => by omega⟩
        · exact ⟨fun h => (by cases h), fun h => by omega⟩
      · by_cases x1 : ex = 2^F.ebits - 1
        · rw [if_neg x0, if_pos x1, x1, hQ]
          by_cases m0 : man = 0
          · rw [if_pos m0]
            exact ⟨fun h => (by cases h), fun h => by omega⟩
          · rw [if_neg m0]
            exact ⟨fun _ => by omega, fun _ => rfl⟩
        · have := hlt (by omega)
          rw [if_neg x0, if_neg x1]
          exact ⟨fun h => (by cases h), fun h => by omega⟩)
  have e : ((2 * (2^(F.p - 1) - 1) : Nat) : ℚ) = 2 ^ F.p - 2 := by
    rw [Nat.cast_mul, Nat.cast_sub (by omega)]
    have : (2 : ℚ) ^ F.p = 2 * 2 ^ (F.p - 1) := by exact_mod_cast hpp
    rw [this]
    push_cast
    ring
  rw [e] at this
  exact this

example : Chance (fun _ R s => arbiValue R .double s) (fun y => decide (y = .nan)) (4503599627370495 / 9223372036854775808) := by
  have h1 := C146_nan .double
  norm_num [Fmt.ebits, Fmt.p] at h1 ⊢
  exact h1

/-- C146. How often a number is generated whose shrinks cannot be explored without undefined behaviour (C101): more than
3/8 of all floats and 31/64 of all doubles. -/
theorem C146_undefined (F : Fmt) (E : Fl → Bool) (hE : ∀ x, x.Valid F → (E x = true ↔ shrinkFloat F x = .ub)) :
    Chance (fun _ R s => arbiValue R F s) E (((F.emax - 32) * 2 ^ F.p + 2) / 2 ^ (F.ebits + F.p)) := by
  have hp := F.p_pos
  have hEE : 2^8 ≤ 2^F.ebits := Nat.pow_le_pow_right (by decide) F.ebits_pos
  have hP : 0 < 2^(F.p - 1) := Nat.two_pow_pos _
  have hpp : 2^F.p = 2 * 2^(F.p - 1) := by rw [← Nat.pow_succ']; congr 1; omega
  have hb := F.bits_eq
  have hmx := F.emax_ge
  have hmn := F.emin_p
  have hc : ((2:Int)^F.ebits) = ((2^F.ebits : Nat) : Int) := by simp
  rw [hc] at hb
  obtain ⟨T, hT⟩ : ∃ T : Nat, (T : Int) = 34 - F.emin - F.p := ⟨(34 - F.emin - F.p).toNat, by omega⟩
  have hTle : T + (F.emax - 32).toNat = 2^F.ebits - 1 := by omega
  have hT0 : 0 < T := by omega
  have hQ : 2^(F.ebits + (F.p - 1)) = (2^F.ebits - 1) * 2^(F.p - 1) + 2^(F.p - 1) := by
    rw [Nat.pow_add, Nat.sub_mul, Nat.one_mul, Nat.sub_add_cancel]
    exact Nat.le_mul_of_pos_left _ (by omega)
  have hD : (2^F.ebits - 1) * 2^(F.p - 1) = T * 2^(F.p - 1) + (F.emax - 32).toNat * 2^(F.p - 1) := by
    rw [← Nat.add_mul, hTle]
  have hfin : ∀ neg f e, F.Finite f e → (shrinkFloat F (.fin neg f e) = .ub ↔ 33 ≤ e) := by
    intro neg f e hf
    constructor
    · intro h
      by_contra hc
      obtain ⟨t, -, h2⟩ := shrinkFinite_ok (neg := neg) hf (by omega)
      have h3 : shrinkFloat F (.fin neg f e) = shrinkFinite F neg f e := rfl
      rw [h3, h2] at h
      cases h
    · intro h
      exact shrinkFinite_ub hf h
  have := chance_bits F E (2 * ((F.emax - 32).toNat * 2^(F.p - 1) + 1)) (by
    rw [count_range F _ (T * 2^(F.p - 1)) ((2^F.ebits - 1) * 2^(F.p - 1) + 1) (by omega) (by omega)]
    · omega
    · intro neg ex man he hm
      have hval : (ofFields F neg ex man).Valid F := by
        rw [← ofBits_fields F neg ex man he hm]
        exact ofBits_valid F _
      rw [hE _ hval]
      have hlt : ∀ k, ex < k → ex * 2^(F.p - 1) + man < k * 2^(F.p - 1) := fun k h => by
        calc ex * 2^(F.p - 1) + man < ex * 2^(F.p - 1) + 2^(F.p - 1) := by omega
          _ = (ex + 1) * 2^(F.p - 1) := by ring
          _ ≤ _ := Nat.mul_le_mul_right _ h
      have hge : ∀ k, k ≤ ex → k * 2^(F.p - 1) ≤ ex * 2^(F.p - 1) := fun k h => Nat.mul_le_mul_right _ h
      unfold ofFields at hval ⊢
      by_cases x0 : ex = 0
      · have := hlt T (by omega)
        by_cases m0 : man = 0
        · rw [if_pos x0, if_pos m0]
          exact ⟨fun h => (by cases h), fun h => by omega⟩
        · rw [if_pos x0, if_neg m0] at hval ⊢
          have l1 : man.log2 < F.p - 1 := (Nat.log2_lt m0).mpr hm
          rw [hfin _ _ _ hval]
          exact ⟨fun h => by omega, fun h => by omega⟩
      · by_cases x1 : ex = 2^F.ebits - 1
        · by_cases m0 : man = 0
          · rw [if_neg x0, if_pos x1, if_pos m0]
            have h1 := hge T (by omega)
            refine ⟨fun _ => ⟨by omega, by rw [x1, m0]; omega⟩, fun _ => ?_⟩
            exact C101_huge_violated F (.inf neg) trivial (.inl ⟨neg, rfl⟩)
          · rw [if_neg x0, if_pos x1, if_neg m0]
            refine ⟨fun h => (by cases h), fun h => ?_⟩
            rw [x1] at h
            omega
        · rw [if_neg x0, if_neg x1] at hval ⊢
          rw [hfin _ _ _ hval]
          have h2 := hlt (2^F.ebits - 1) (by omega)
          constructor
          · intro h
            have := hge T (by omega)
            exact ⟨by omega, by omega⟩
          · rintro ⟨h, -⟩
            by_contra hc
            have := hlt T (by omega)
            omega)
  have e : ((2 * ((F.emax - 32).toNat * 2^(F.p - 1) + 1) : Nat) : ℚ) = (F.emax - 32) * 2 ^ F.p + 2 := by
    have h1 : (2 : ℚ) ^ F.p = 2 * 2 ^ (F.p - 1) := by exact_mod_cast hpp
    have h2 : (((F.emax - 32).toNat : Int) : ℚ) = (F.emax : ℚ) - 32 := by
      rw [Int.toNat_of_nonneg (by omega)]
      push_cast
      rfl
    rw [h1, ← h2]
    push_cast
    ring
  rw [e] at this
  exact this

/-- 3/8 + 2^-31 of the floats, 31/64 + 2^-63 of the doubles. -/
example (E : Fl → Bool) (h1 : ∀ x, x.Valid .single → (E x = true ↔ shrinkFloat .single x = .ub)) :
    Chance (fun _ R s => arbiValue R .single s) E (3 / 8 + 1 / 2 ^ 31) := by
  have h1 := C146_undefined .single E h1
  norm_num [Fmt.ebits, Fmt.p, Fmt.emax] at h1 ⊢
  exact h1

example (E : Fl → Bool) (h1 : ∀ x, x.Valid .double → (E x = true ↔ shrinkFloat .double x = .ub)) :
    Chance (fun _ R s => arbiValue R .double s) E (31 / 64 + 1 / 2 ^ 63) := by
  have h1 := C146_undefined .double E h1
  norm_num [Fmt.ebits, Fmt.p, Fmt.emax] at h1 ⊢
  exact h1

/-- An event as required exists: magnitudes of at least 2^32 and infinities. -/
example (F : Fmt) : ∃ E : Fl → Bool, ∀ x, x.Valid F → (E x = true ↔ shrinkFloat F x = .ub) := by
  classical
  exact ⟨fun x => decide (shrinkFloat F x = .ub), fun x _ => by simp⟩

end Verif
