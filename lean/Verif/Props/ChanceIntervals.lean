import Verif.Lemmas.ChanceIntervals
/-
C143: how likely the numbers of `intervals` and `uintervals` and the code points of the Unicode generator are.
-/
namespace Verif
open Shr Random Integral IntType Comb

/-- C143. If `intervals` accepts the intervals then all their numbers are nearly equally likely: the probability of a
set of numbers is nearly the number of its elements in the intervals divided by the number of all, with a relative error
of 2^-49, and an absolute one of (number of intervals)/2^63 for each number. -/
theorem C143_intervals_partial (is : List (Int × Int)) (hne : is ≠ []) (hlen : is.length ≤ 2 ^ 32)
    (hb : ∀ i ∈ is, i64.lo ≤ i.1 ∧ i.1 ≤ i.2 ∧ i.2 ≤ i64.hi ∧ i.2 - i.1 < 2 ^ 63 - 1)
    (hsum : (is.map fun i => i.2 - i.1 + 1).sum < 2 ^ 64)
    (hok : ∃ (σ : Type) (R : Rng σ) (ws : List (Weighted σ Int)), intervals R is = .ok ws) (E : Int → Bool) :
    ∃ p, ChanceLimit (intervalsCall is) (fun t => E t.value) p ∧
      |p - (is.map (covered E)).sum / (is.map width).sum| ≤
        (is.map (covered E)).sum * (1 / (2 ^ 49 * (is.map width).sum) + is.length / 2 ^ 63) := by
  refine spread_call i64 (by simp [all]) intervalSize is hne (fun i hi => ?_) hsum hlen (fun i hi => ?_)
    (fun _ R => intervals R is) (fun _ _ => rfl) hok E
  · obtain ⟨b1, b2, b3, b4⟩ := hb i hi
    exact ⟨b2, C35_size i.1 i.2 (by omega) b4⟩
  · obtain ⟨b1, b2, b3, b4⟩ := hb i hi
    refine ⟨b1, b2, b3, ?_⟩
    rintro ⟨e1, e2⟩
    have e3 : i64.lo = -2 ^ 63 := by decide
    have e4 : i64.hi = 2 ^ 63 - 1 := by decide
    omega

/-- The numbers from -5 to 94 and from 200 to 299: each has a probability of 1/200, up to 2^-55, as have all
negative ones together one of 1/40. -/
example : (∃ p, ChanceLimit (intervalsCall [(-5, 94), (200, 299)]) (fun t => t.value = 7) p ∧ |p - 1 / 200| ≤ 1 / 2 ^ 55) ∧
    ∃ p, ChanceLimit (intervalsCall [(-5, 94), (200, 299)]) (fun t => t.value < 0) p ∧ |p - 1 / 40| ≤ 1 / 2 ^ 53 := by
  have hok : ∃ (σ : Type) (R : Rng σ) (ws : List (Weighted σ Int)), intervals R [(-5, 94), (200, 299)] = .ok ws := by
    obtain ⟨ws, h⟩ := C74_two_partial script (-5) 94 200 299 (by decide) (by decide) (by decide)
    exact ⟨_, script, ws, h⟩
  have key := C143_intervals_partial [(-5, 94), (200, 299)] (by simp) (by simp) (by decide) (by decide) hok
  have ew : (([(-5, 94), (200, 299)] : List (Int × Int)).map width).sum = 200 := by simp [width]; norm_num
  constructor
  · obtain ⟨p, h1, h2⟩ := key fun v => decide (v = 7)
    have e : (([(-5, 94), (200, 299)] : List (Int × Int)).map (covered fun v => decide (v = 7))).sum = 1 := by
      have e1 : covered (fun v => decide (v = 7)) (-5, 94) = 1 := by rw [covered, filter_single (by decide) (by decide)]; simp
      have e2 : covered (fun v => decide (v = 7)) (200, 299) = 0 := by
        rw [covered]
        exact_mod_cast show ((Finset.Icc (200 : Int) 299).filter fun v => decide (v = 7)).card = 0 by decide +kernel
      simp [e1, e2]
    rw [ew, e] at h2
    exact ⟨p, h1, h2.trans (by norm_num)⟩
  · obtain ⟨p, h1, h2⟩ := key fun v => decide (v < 0)
    have e : (([(-5, 94), (200, 299)] : List (Int × Int)).map (covered fun v => decide (v < 0))).sum = 5 := by
      have e1 : covered (fun v => decide (v < 0)) (-5, 94) = 5 := by
        rw [covered]
        exact_mod_cast show ((Finset.Icc (-5 : Int) 94).filter fun v => decide (v < 0)).card = 5 by decide +kernel
      have e2 : covered (fun v => decide (v < 0)) (200, 299) = 0 := by
        rw [covered]
        exact_mod_cast show ((Finset.Icc (200 : Int) 299).filter fun v => decide (v < 0)).card = 0 by decide +kernel
      simp [e1, e2]
    rw [ew, e] at h2
    norm_num at h2
    exact ⟨p, h1, h2.trans (by norm_num)⟩

/-- C143. The same for `uintervals`. -/
theorem C143_uintervals_partial (is : List (Int × Int)) (hne : is ≠ []) (hlen : is.length ≤ 2 ^ 32)
    (hb : ∀ i ∈ is, 0 ≤ i.1 ∧ i.1 ≤ i.2 ∧ i.2 < 2 ^ 64)
    (hsum : (is.map fun i => i.2 - i.1 + 1).sum < 2 ^ 64)
    (hok : ∃ (σ : Type) (R : Rng σ) (ws : List (Weighted σ Int)), uintervals R is = .ok ws) (E : Int → Bool) :
    ∃ p, ChanceLimit (uintervalsCall is) (fun t => E t.value) p ∧
      |p - (is.map (covered E)).sum / (is.map width).sum| ≤
        (is.map (covered E)).sum * (1 / (2 ^ 49 * (is.map width).sum) + is.length / 2 ^ 63) := by
  have hw : ∀ i ∈ is, i.2 - i.1 + 1 < 2 ^ 64 := by
    intro i hi
    refine lt_of_le_of_lt ?_ hsum
    refine List.single_le_sum (fun x hx => ?_) _ (List.mem_map_of_mem (f := fun i : Int × Int => i.2 - i.1 + 1) hi)
    obtain ⟨j, hj, rfl⟩ := List.mem_map.1 hx
    have := hb j hj
    omega
  refine spread_call u64 (by simp [all]) uintervalSize is hne (fun i hi => ?_) hsum hlen (fun i hi => ?_)
    (fun _ R => uintervals R is) (fun _ _ => rfl) hok E
  · obtain ⟨b1, b2, b3⟩ := hb i hi
    have b4 := hw i hi
    refine ⟨b2, ?_⟩
    unfold uintervalSize arith
    rw [if_neg (by decide), if_neg (by decide), Outcome.ok_bind,
      wrap_id (T := u64) (by simp [all]) (by rw [u64_lo]; omega) (by rw [u64_hi]; omega), if_neg (by decide), if_neg (by decide),
      wrap_id (T := u64) (by simp [all]) (by rw [u64_lo]; omega) (by rw [u64_hi]; omega)]
  · obtain ⟨b1, b2, b3⟩ := hb i hi
    have b4 := hw i hi
    rw [u64_lo, u64_hi]
    omega

/-- A single interval: 3 has a probability of 1/10, up to 2^-52. -/
example : ∃ p, ChanceLimit (uintervalsCall [(0, 9)]) (fun t => t.value = 3) p ∧ |p - 1 / 10| ≤ 1 / 2 ^ 52 := by
  have hok : ∃ (σ : Type) (R : Rng σ) (ws : List (Weighted σ Int)), uintervals R [(0, 9)] = .ok ws := by
    refine ⟨_, script, [{ gen := interval script u64 0 9, weight := .fin 1 }], ?_⟩
    have e1 : uintervalSize (0, 9) = .ok 10 := by decide
    have e2 : sumSizes uintervalSize [(0, 9)] 0 = .ok 10 := by decide
    have e3 : assignWeights [(Dbl.ofInt 10).divNat (Int.toNat 10)] = .ok [.fin 1] := by decide +kernel
    rw [uintervals, e2, Outcome.ok_bind]
    simp only [weightSizes, e1, Outcome.ok_bind, Outcome.pure_eq, oneOf, List.map_cons, List.map_nil, e3]
    rfl
  obtain ⟨p, h1, h2⟩ := C143_uintervals_partial [(0, 9)] (by simp) (by simp) (by decide) (by decide) hok fun v => decide (v = 3)
  have ew : (([(0, 9)] : List (Int × Int)).map width).sum = 10 := by simp [width]; norm_num
  have e : (([(0, 9)] : List (Int × Int)).map (covered fun v => decide (v = 3))).sum = 1 := by
    simp [covered]
    decide
  rw [ew, e] at h2
  exact ⟨p, h1, h2.trans (by norm_num)⟩

/-- C143. Every Unicode code point (other than 0 and surrogates) is nearly equally likely. -/
theorem C143_unicode_partial (c : Int) (hc : (0 < c ∧ c ≤ 0xD7FF) ∨ (0xE000 ≤ c ∧ c ≤ 0x10FFFF)) :
    ∃ p, ChanceLimit (fun rounds _ R s => unicodeGen R rounds s) (fun t => t.value = c) p ∧
      |p - 1 / 1112063| ≤ 1 / 2 ^ 61 := by
  have hok : ∃ ws, assignWeights ((parts u32 (([(1, 0xD7FF), (0xE000, 0x10FFFF)] : List (Int × Int)).map width).sum
      [(1, 0xD7FF), (0xE000, 0x10FFFF)]).map (·.2)) = .ok ws := by
    have : (([(1, 0xD7FF), (0xE000, 0x10FFFF)] : List (Int × Int)).map width).sum = 1112063 := by simp [width]; norm_num
    rw [this]
    refine ⟨[.fin (rne (rne 55295 / rne 1112063)), .fin (rne (rne 1056768 / rne 1112063))], ?_⟩
    decide +kernel
  obtain ⟨ws, hok⟩ := hok
  obtain ⟨p, h1, h2⟩ := spread u32 (by simp [all]) [(1, 0xD7FF), (0xE000, 0x10FFFF)] (by simp) (by simp) (by decide) ws hok
    (fun v => decide (v = c))
  refine ⟨p, ?_, ?_⟩
  · have e1 : (([(1, 0xD7FF), (0xE000, 0x10FFFF)] : List (Int × Int)).map width).sum = 1112063 := by simp [width]; norm_num
    have e : (fun rounds (_ : Type) R s => unicodeGen R rounds s : Nat → Src (Shr Int)) =
        oneOfCall (parts u32 (([(1, 0xD7FF), (0xE000, 0x10FFFF)] : List (Int × Int)).map width).sum
      [(1, 0xD7FF), (0xE000, 0x10FFFF)]) := by
      funext rounds σ R s
      rw [e1]
      simp only [unicodeGen, oneOfCall, parts, List.map_cons, List.map_nil, Dbl.ofInt, Dbl.divNat, width]
      norm_num
    rw [e]
    exact h1
  · have e1 : (([(1, 0xD7FF), (0xE000, 0x10FFFF)] : List (Int × Int)).map width).sum = 1112063 := by simp [width]; norm_num
    have e2 : (([(1, 0xD7FF), (0xE000, 0x10FFFF)] : List (Int × Int)).map (covered fun v => decide (v = c))).sum = 1 := by
      have key : ∀ a b : Int, covered (fun v => decide (v = c)) (a, b) = if a ≤ c ∧ c ≤ b then 1 else 0 := by
        intro a b
        rw [covered]
        split_ifs with h
        · rw [filter_single h.1 h.2, Nat.cast_one]
        · rw [Finset.filter_eq_empty_iff.2, Finset.card_empty, Nat.cast_zero]
          intro v hv
          rw [Finset.mem_Icc] at hv
          simp only [decide_eq_true_eq]
          rintro rfl
          exact h hv
      simp only [List.map_cons, List.map_nil, List.sum_cons, List.sum_nil, key]
      rcases hc with h | h
      · rw [if_pos (by omega), if_neg (by omega)]; norm_num
      · rw [if_neg (by omega), if_pos (by omega)]; norm_num
    rw [e1, e2] at h2
    refine h2.trans ?_
    norm_num

/-- The letter `a`. -/
example : ∃ p, ChanceLimit (fun rounds _ R s => unicodeGen R rounds s) (fun t => t.value = 97) p ∧
    |p - 1 / 1112063| ≤ 1 / 2 ^ 61 := C143_unicode_partial 97 (by decide)

/-- C143 is violated, if only slightly: with the intervals [0, 0] and [10, 11] the probability of 0 is
not 1/3. -/
theorem C143_violated : ∃ p, ChanceLimit (intervalsCall [(0, 0), (10, 11)]) (fun t => t.value = 0) p ∧ p ≠ 1 / 3 := by
  have hcall : intervalsCall [(0, 0), (10, 11)] = oneOfCall (parts i64 3 [(0, 0), (10, 11)]) := by
    funext rounds σ R s
    have e1 : intervalSize (0, 0) = .ok 1 := by decide
    have e2 : intervalSize (10, 11) = .ok 2 := by decide
    have e3 : sumSizes intervalSize [(0, 0), (10, 11)] 0 = .ok 3 := by decide
    simp only [intervalsCall, intervals, e3, Outcome.ok_bind, weightSizes, e1, e2, oneOfCall, parts, List.map_cons, List.map_nil,
      Dbl.ofInt, Dbl.divNat, width, Outcome.pure_eq]
    norm_num
    rfl
  have key := chance_oneOf (parts i64 3 [(0, 0), (10, 11)]) [rne (rne 1 / rne 3), rne (rne 2 / rne 3)] [1, 0] (fun t => t.value = 0)
    (by
      have : (parts i64 3 [(0, 0), (10, 11)]).map (·.2) = [.fin (rne (rne 1 / rne 3)), .fin (rne (rne 2 / rne 3))] := by
        simp only [parts, width, List.map_cons, List.map_nil]
        norm_num
      rw [this]
      decide +kernel)
    (by
      have : ∀ q ∈ [rne (rne 1 / rne 3), rne (rne 2 / rne 3)], 0 ≤ q ∧ q ≤ 1 := by decide +kernel
      exact this) (by simp [parts]) (by simp [parts])
    (by
      intro a ha
      obtain ⟨i, hi, rfl⟩ := List.mem_map.1 ha
      have hb : ∀ i ∈ [((0 : Int), (0 : Int)), (10, 11)], i64.lo ≤ i.1 ∧ i.1 ≤ i.2 ∧ i.2 ≤ i64.hi := by decide
      exact no_discard_interval i64 (by simp [all]) i (hb i hi).1 (hb i hi).2.1 (hb i hi).2.2)
    (by
      refine .cons ?_ (.cons ?_ .nil)
      · have := C138_interval i64 (by simp [all]) 0 0 (by decide) (by decide) (by decide) (by decide) fun v => decide (v = 0)
        have e : ((Finset.Icc (0 : Int) 0).filter fun v => decide (v = 0)).card = 1 := by decide
        rw [e] at this
        norm_num at this ⊢
        exact this
      · have := C138_interval i64 (by simp [all]) 10 11 (by decide) (by decide) (by decide) (by decide) fun v => decide (v = 0)
        have e : ((Finset.Icc (10 : Int) 11).filter fun v => decide (v = 0)).card = 0 := by decide
        rw [e] at this
        norm_num at this ⊢
        exact this)
  rw [hcall]
  refine ⟨_, key, ?_⟩
  have e1 : accepting (rne (rne 1 / rne 3)) = 6148914691236516865 := by decide +kernel
  have e2 : accepting (rne (rne 2 / rne 3)) = 12297829382473033729 := by decide +kernel
  simp only [List.zipWith_cons_cons, List.zipWith_nil_left, List.map_cons, List.map_nil, List.sum_cons, List.sum_nil, e1, e2]
  norm_num

end Verif
