import Mathlib.Algebra.BigOperators.Ring.Finset
import Mathlib.Algebra.BigOperators.Intervals
import Verif.Spec.Rounds
import Verif.Lemmas.ChanceSet
/-
Helper lemmas for C166.
-/
namespace Verif
open Random Comb Containers ListLike
variable {σ α : Type}

/-- Partial sums that approach `μ` at least as fast as a geometric sequence. -/
theorem meanRounds_of_bound {f : Nat → Src α} {r : Nat → ℚ} {μ C ρ : ℚ} (h0 : 0 ≤ ρ) (h1 : ρ < 1)
    (hc : ∀ m, Chance (f m) (fun _ => true) (r m))
    (h : ∀ M, |∑ m ∈ Finset.range M, (1 - r m) - μ| ≤ C * ρ ^ M) : MeanRounds f μ := by
  refine ⟨r, hc, fun ε hε => ?_⟩
  have hC : 0 ≤ C := by
    have := (abs_nonneg _).trans (h 0)
    simpa using this
  obtain ⟨N, hN⟩ := exists_pow_lt_of_lt_one (show 0 < ε / (C + 1) by positivity) h1
  refine ⟨N, fun M hM => lt_of_le_of_lt (h M) ?_⟩
  have h2 : ρ ^ M ≤ ρ ^ N := pow_le_pow_of_le_one h0 h1.le hM
  have h3 : ρ ^ M < ε / (C + 1) := lt_of_le_of_lt h2 hN
  rw [lt_div_iff₀ (by positivity)] at h3
  have h4 : 0 ≤ ρ ^ M := pow_nonneg h0 M
  nlinarith

/-- Rounds that succeed with the same probability. -/
theorem meanRounds_geometric {f : Nat → Src α} {r : ℚ} (h0 : 0 ≤ r) (h1 : r < 1)
    (hc : ∀ m, Chance (f m) (fun _ => true) (1 - r ^ m)) : MeanRounds f (1 / (1 - r)) := by
  refine meanRounds_of_bound (C := 1 / (1 - r)) (ρ := r) h0 h1 hc fun M => ?_
  have hr : (0 : ℚ) < 1 - r := by linarith
  have e : ∑ m ∈ Finset.range M, (1 - (1 - r ^ m)) = (1 - r ^ M) / (1 - r) := by
    simp only [sub_sub_cancel]
    induction M with
    | zero => simp
    | succ M ih =>
      rw [Finset.sum_range_succ, ih, pow_succ]
      field_simp
      ring
  have h2 : 0 ≤ r ^ M := pow_nonneg h0 M
  rw [e, ← sub_div, abs_div, abs_of_pos hr, sub_sub_cancel_left, abs_neg, abs_of_nonneg h2, mul_comm, mul_one_div]

/-- The mean is determined. -/
theorem meanRounds_unique {f : Nat → Src α} {μ ν : ℚ} (h : MeanRounds f μ) (h' : MeanRounds f ν) : μ = ν := by
  obtain ⟨r, hr, h⟩ := h
  obtain ⟨r', hr', h'⟩ := h'
  have e : r = r' := funext fun m => chance_unique (hr m) (hr' m)
  subst e
  by_contra hne
  have hpos : 0 < |μ - ν| / 2 := by
    have := abs_pos.2 (sub_ne_zero.2 hne)
    linarith
  obtain ⟨N, hN⟩ := h _ hpos
  obtain ⟨N', hN'⟩ := h' _ hpos
  have a := hN (max N N') (le_max_left _ _)
  have b := hN' (max N N') (le_max_right _ _)
  set x := ∑ m ∈ Finset.range (max N N'), (1 - r m)
  have : |μ - ν| ≤ |x - μ| + |x - ν| := by
    have e : μ - ν = (x - ν) - (x - μ) := by ring
    rw [e]
    have := abs_sub (x - ν) (x - μ)
    linarith
  linarith

/-! ### Sets -/

section
variable [LinearOrder α]

/-- The probability that `m` draws are not enough for the last `b` of `k` elements, all of `n` values being equally
likely. -/
def lacking (n k : Nat) : Nat → Nat → ℚ
  | _, 0 => 0
  | 0, _ + 1 => 1
  | m + 1, b + 1 => ((k - (b + 1)) * lacking n k m (b + 1) + (n - k + (b + 1)) * lacking n k m b) / n

omit [LinearOrder α] in
/-- Results with probability 0 do not matter. -/
theorem mean_almost (e : Exp (Outcome (Shr α))) (he : e.Valid) (F G : Shr α → ℚ) (P : Shr α → Bool)
    (hP : e.mean (hit P) = 0) (hFG : ∀ x, P x = false → F x = G x) (hF : ∀ x, |F x - G x| ≤ 1) :
    e.mean (val F) = e.mean (val G) := by
  have h1 : e.mean (val F) ≤ e.mean (fun o => val G o + hit P o) := by
    refine Exp.mean_le (fun o => ?_) he
    cases o with
    | ok x =>
      simp only [val, hit]
      cases hp : P x with
      | false => simp [hFG x hp]
      | true => have := (abs_le.1 (hF x)).2; simp; linarith
    | _ => simp [val, hit]
  have h2 : e.mean (val G) ≤ e.mean (fun o => val F o + hit P o) := by
    refine Exp.mean_le (fun o => ?_) he
    cases o with
    | ok x =>
      simp only [val, hit]
      cases hp : P x with
      | false => simp [hFG x hp]
      | true => have := (abs_le.1 (hF x)).1; simp; linarith
    | _ => simp [val, hit]
  rw [Exp.mean_add, hP, add_zero] at h1 h2
  exact le_antisymm h1 h2

omit [LinearOrder α] in
theorem val_one_bounds {γ : Type} {e : Exp (Outcome γ)} (he : e.Valid) :
    0 ≤ e.mean (val fun _ => 1) ∧ e.mean (val fun _ => 1) ≤ 1 := by
  constructor
  · refine le_of_eq_of_le (Exp.mean_const 0 he).symm (Exp.mean_le (fun o => ?_) he)
    cases o <;> simp [val]
  · refine le_of_le_of_eq (Exp.mean_le (g := fun _ => 1) (fun o => ?_) he) (Exp.mean_const 1 he)
    cases o <;> simp [val]

theorem valid_fill {e : Exp (Outcome (Shr α))} (he : e.Valid) (size m : Nat) (acc : List (Shr α)) :
    (fillExp e size m acc).Valid := by
  induction m generalizing acc with
  | zero => unfold fillExp; split <;> trivial
  | succ m ih =>
    unfold fillExp
    split
    · refine Exp.valid_bind (fun o => ?_) he
      cases o with
      | ok x => exact ih _
      | _ => trivial
    · trivial

/-- How likely a set is full after `m` draws. -/
theorem mean_lacking (e : Exp (Outcome (Shr α))) (he : e.Valid) (hret : e.mean (hit fun _ => true) = 1) (U : List α)
    (hU : U.Nodup) (hp : ∀ v ∈ U, e.mean (hit fun t => decide (t.value = v)) = 1 / U.length) (hne : U ≠ [])
    (size m : Nat) (acc : List (Shr α)) (b : Nat)
    (hs : SortedBy Shr.value acc) (hsub : ∀ v ∈ acc.map Shr.value, v ∈ U) (hb : acc.length + b = size) :
    (fillExp e size m acc).mean (val fun _ => 1) = 1 - lacking U.length size m b := by
  have hn : (0 : ℚ) < U.length := by exact_mod_cast List.length_pos_iff.2 hne
  have hout : e.mean (hit fun t => decide (t.value ∉ U)) = 0 := by
    have h1 : e.mean (hit fun t => decide (t.value ∈ U)) = 1 := by
      rw [hit_eq, mean_over e U hU _ (fun _ => 1) (fun x hx => by simp [hx]) (fun x hx => by simp [hx])]
      rw [List.map_congr_left (g := fun _ => 1 / (U.length : ℚ)) fun u hu => by rw [hp u hu, one_mul]]
      rw [List.map_const', List.sum_replicate, nsmul_eq_mul]
      field_simp
    have h2 : e.mean (hit fun _ => true) = e.mean (hit fun t => decide (t.value ∈ U)) +
        e.mean (hit fun t => decide (t.value ∉ U)) := by
      rw [← Exp.mean_add]
      congr 1
      funext o
      cases o with
      | ok x => by_cases h : x.value ∈ U <;> simp [hit, h]
      | _ => simp [hit]
    linarith
  induction m generalizing acc b with
  | zero =>
    unfold fillExp
    cases b with
    | zero => rw [if_neg (by omega)]; simp [Exp.mean, val, lacking]
    | succ b => rw [if_pos (by omega)]; simp [Exp.mean, val, lacking]
  | succ m ih =>
    unfold fillExp
    cases b with
    | zero => rw [if_neg (by omega)]; simp [Exp.mean, val, lacking]
    | succ b =>
      rw [if_pos (by omega), mean_andThen]
      have hVn : (acc.map Shr.value).Nodup := (List.pairwise_map.2 hs).imp fun h => ne_of_lt h
      rw [mean_almost e he _ (fun x => if x.value ∈ U then
        (fillExp e size m (insertBy Shr.value x acc)).mean (val fun _ => 1) else 0) (fun x => decide (x.value ∉ U)) hout
        (fun x hx => by
          have : x.value ∈ U := by simpa using hx
          rw [if_pos this])
        (fun x => by
          have hb := val_one_bounds (valid_fill he size m (insertBy Shr.value x acc))
          split
          · simp
          · rw [sub_zero, abs_le]; constructor <;> linarith)]
      rw [mean_over e U hU _ (fun u => if u ∈ acc.map Shr.value then 1 - lacking U.length size m (b + 1)
        else 1 - lacking U.length size m b)]
      · rw [List.map_congr_left (g := fun u => (1 / (U.length : ℚ)) * (if u ∈ acc.map Shr.value then
          1 - lacking U.length size m (b + 1) else 1 - lacking U.length size m b)) fun u hu => by rw [hp u hu, mul_comm]]
        rw [List.sum_map_mul_left, sum_inside U _ hU hVn hsub, lacking, List.length_map]
        have : (size : ℚ) = acc.length + (b + 1) := by exact_mod_cast hb.symm
        rw [this]
        field_simp
        ring
      · intro x hx
        rw [if_pos hx]
        split
        · next hin =>
          obtain ⟨y, hy, e1⟩ := List.mem_map.1 hin
          rw [insertBy_present hs ⟨y, hy, e1⟩]
          exact ih acc (b + 1) hs hsub hb
        · next hout =>
          have hab : ∀ y ∈ acc, y.value ≠ x.value := fun y hy e1 => hout (e1 ▸ List.mem_map_of_mem hy)
          refine ih _ b (sorted_insertBy hs) (fun v hv => ?_) (by rw [(insertBy_absent hab).1]; omega)
          rcases (value_mem_insertBy hs x v).1 hv with rfl | hv
          · exact hx
          · exact hsub v hv
      · intro x hx
        rw [if_neg hx]

end

/-- A size, a set of that size, and what is made of it, which always succeeds. -/
theorem chance_filled_all [LinearOrder α] {γ : Type} {g : Src (Shr α)} {e : Exp (Outcome (Shr α))} (he : Follows g e)
    (minSize maxSize : Nat) (hm : minSize ≤ maxSize) (hmax : maxSize < 2 ^ 32) (m : Nat)
    (cont : List (Shr α) → Src γ) (ce : List (Shr α) → Exp (Outcome γ)) (hc : ∀ xs, Follows (cont xs) (ce xs))
    (hG : ∀ xs, SortedBy Shr.value xs → minSize ≤ xs.length → (ce xs).mean (hit fun _ => true) = 1) :
    Chance (fun σ R s => do
      let (size, s) ← getRandomSize R minSize (maxSize + 1) s
      let (xs, s) ← fillSet (g σ R) size.toNat m [] s
      cont xs σ R s) (fun _ => true)
      ((∑ k ∈ Finset.Icc minSize maxSize, (fillExp e k m []).mean (val fun _ => 1)) / (maxSize - minSize + 1)) := by
  have hf : Follows (fun σ R s => (fun σ R s => (fillSet (g σ R) (R.draw s minSize maxSize).1.toNat m []
      (R.draw s minSize maxSize).2 >>= fun p => cont p.1 σ R p.2) : Src γ) σ R s)
      (.draw minSize maxSize fun v => (fillExp e v.toNat m []).andThen ce) :=
    Follows.draw (g := fun v σ R s => fillSet (g σ R) v.toNat m [] s >>= fun p => cont p.1 σ R p.2)
      (by omega) fun v => (follows_fill he v.toNat m []).bind hc
  refine ⟨_, hf.congr fun σ R s => ?_, ?_⟩
  · rw [getRandomSize_eq R s (by omega) (by omega)]
    have : ((maxSize + 1 : Nat) : Int) - 1 = maxSize := by omega
    rw [this, Outcome.ok_bind]
  · rw [Exp.mean]
    push_cast
    congr 1
    refine Finset.sum_bij (fun v _ => v.toNat) (fun v hv => ?_) (fun v hv w hw h => ?_) (fun k hk => ?_) (fun v hv => ?_)
    · rw [Finset.mem_Icc] at *; omega
    · rw [Finset.mem_Icc] at *; omega
    · rw [Finset.mem_Icc] at hk
      exact ⟨k, Finset.mem_Icc.2 ⟨by omega, by omega⟩, by simp⟩
    · rw [Finset.mem_Icc] at hv
      rw [hit_eq, mean_andThen, ← hit_eq]
      refine Exp.mean_congr (fun o ho => ?_) (sat_fill e v.toNat m [] (by simp [SortedBy]) (by simp))
      cases o with
      | ok xs => exact hG xs ho.2 (by have := ho.1; omega)
      | _ => rfl

/-- The average number of draws for the last `b` of `k` elements. -/
def meanDraws (n k : Nat) : Nat → ℚ
  | 0 => 0
  | b + 1 => n / (n - k + (b + 1)) + meanDraws n k b

theorem meanDraws_bounds {n k : Nat} (hkn : k ≤ n) (hpos : 0 < n) (b : Nat) (hb : b ≤ k) :
    0 ≤ meanDraws n k b ∧ meanDraws n k b ≤ (2 * n) ^ b := by
  have hkq : (k : ℚ) ≤ n := by exact_mod_cast hkn
  have hnq : (1 : ℚ) ≤ n := by exact_mod_cast hpos
  induction b with
  | zero => simp [meanDraws]
  | succ b ih =>
    obtain ⟨i1, i2⟩ := ih (by omega)
    have hb0 : (0 : ℚ) ≤ b := by positivity
    have h1 : (0 : ℚ) ≤ n / (n - k + (b + 1)) := div_nonneg (by linarith) (by linarith)
    have h2 : (n : ℚ) / (n - k + (b + 1)) ≤ n := div_le_self (by linarith) (by linarith)
    have h3 : (1 : ℚ) ≤ (2 * n) ^ b := one_le_pow₀ (by linarith)
    refine ⟨by rw [meanDraws]; linarith, ?_⟩
    rw [meanDraws, pow_succ]
    nlinarith

theorem lacking_bound {n k : Nat} (hkn : k ≤ n) (hpos : 0 < n) (M b : Nat) (hb : b ≤ k) :
    |∑ m ∈ Finset.range M, lacking n k m b - meanDraws n k b| ≤ (2 * n) ^ b * (1 - 1 / (2 * n)) ^ M := by
  have hkq : (k : ℚ) ≤ n := by exact_mod_cast hkn
  have hnq : (1 : ℚ) ≤ n := by exact_mod_cast hpos
  have hρ : (0 : ℚ) ≤ 1 - 1 / (2 * n) := by
    have : 1 / (2 * n : ℚ) ≤ 1 := by rw [div_le_one (by linarith)]; linarith
    linarith
  induction M generalizing b with
  | zero =>
    have := meanDraws_bounds hkn hpos b hb
    rw [Finset.sum_range_zero, zero_sub, abs_neg, abs_of_nonneg this.1, pow_zero, mul_one]
    exact this.2
  | succ M ih =>
    cases b with
    | zero =>
      have : ∀ m, lacking n k m 0 = 0 := fun m => by cases m <;> rfl
      simp only [this, Finset.sum_const_zero, meanDraws, sub_self, abs_zero]
      positivity
    | succ b =>
      have i1 := ih (b + 1) hb
      have i2 := ih b (by omega)
      have hbk : (b : ℚ) + 1 ≤ k := by exact_mod_cast hb
      have hb0 : (0 : ℚ) ≤ b := by positivity
      set X := ∑ m ∈ Finset.range M, lacking n k m (b + 1) with hX
      set Y := ∑ m ∈ Finset.range M, lacking n k m b with hY
      have es : ∑ m ∈ Finset.range (M + 1), lacking n k m (b + 1) =
          1 + ((k - (b + 1)) / n) * X + ((n - k + (b + 1)) / n) * Y := by
        rw [Finset.sum_range_succ', hX, hY, Finset.mul_sum, Finset.mul_sum, add_comm, add_assoc, ← Finset.sum_add_distrib]
        congr 1
        refine Finset.sum_congr rfl fun m _ => ?_
        rw [lacking]
        field_simp
      have hd : (0 : ℚ) < n - k + (b + 1) := by linarith
      have e : ∑ m ∈ Finset.range (M + 1), lacking n k m (b + 1) - meanDraws n k (b + 1) =
          ((k - (b + 1)) / n) * (X - meanDraws n k (b + 1)) + ((n - k + (b + 1)) / n) * (Y - meanDraws n k b) := by
        rw [es, meanDraws]
        field_simp
        ring
      have r0 : (0 : ℚ) ≤ (k - (b + 1)) / n := div_nonneg (by linarith) (by linarith)
      have r1 : (k - (b + 1)) / n ≤ (1 : ℚ) - 1 / n := by
        rw [le_sub_iff_add_le, ← add_div, div_le_one (by linarith)]
        linarith
      have s0 : (0 : ℚ) ≤ (n - k + (b + 1)) / n := div_nonneg hd.le (by linarith)
      have s1 : (n - k + (b + 1)) / n ≤ (1 : ℚ) := by rw [div_le_one (by linarith)]; linarith
      have y0 : (0 : ℚ) ≤ (1 - 1 / (2 * n)) ^ M := pow_nonneg hρ M
      rw [e]
      calc _ ≤ |((k - (b + 1)) / n) * (X - meanDraws n k (b + 1))| + |((n - k + (b + 1)) / n) * (Y - meanDraws n k b)| :=
            abs_add_le _ _
        _ ≤ (1 - 1 / n) * ((2 * n) ^ (b + 1) * (1 - 1 / (2 * n)) ^ M) + 1 * ((2 * n) ^ b * (1 - 1 / (2 * n)) ^ M) := by
          rw [abs_mul, abs_mul, abs_of_nonneg r0, abs_of_nonneg s0]
          gcongr
          linarith
        _ = (2 * n) ^ (b + 1) * (1 - 1 / (2 * n)) ^ (M + 1) := by
          rw [pow_succ _ b, pow_succ _ M]
          field_simp
          ring

/-- In closed form. -/
theorem meanDraws_eq (n k : Nat) (b : Nat) (hb : b ≤ k) :
    meanDraws n k b = ∑ j ∈ Finset.Ico (k - b) k, (n : ℚ) / (n - j) := by
  induction b with
  | zero => simp [meanDraws]
  | succ b ih =>
    rw [meanDraws, ih (by omega), Finset.sum_eq_sum_Ico_succ_bot (a := k - (b + 1)) (by omega), show k - (b + 1) + 1 = k - b by omega]
    congr 2
    rw [Nat.cast_sub hb]
    push_cast
    ring

end Verif
