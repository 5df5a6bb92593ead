import Verif.Lemmas.ChanceCalls
import Verif.Props.ChanceTest
/-
C176: how often a test calls the property function.
-/
namespace Verif
namespace Engine
open PairTuple Filter Topology
variable {n : Nat} {A : Fin n → Type}

theorem powers_sum (a : ℚ) (N : Nat) : powers a N = ∑ k ∈ Finset.range N, a ^ k := by
  induction N with
  | zero => rfl
  | succ N ih =>
    rw [powers, ih, Finset.sum_range_succ', pow_zero, add_comm, Finset.mul_sum]
    congr 1
    exact Finset.sum_congr rfl fun k _ => by rw [pow_succ]; ring

section
variable {c : AnyTest A} {f : Args A → Ev Bool} {N : Nat} (h : Searches c f N)
  {fails : Args A → Bool} (hfails : ∀ a, fails a = true ↔ (f a).Fails) {p : ℚ}
include h hfails

theorem mean_parts {d : ℚ} {e : Exp (Outcome (Args A))} (he : Follows (argsDraw c) e)
    (hp : e.mean (hit fails) = p) (hd : e.mean (hit fun a => (f a).discarded) = d) (fuel left : Nat) :
    (testCount f e fuel (left + 1)).mean (val fun _ => 1) =
      (p + (testCount f e fuel left).mean (val fun _ => 1) * (1 - p - d)) * powers d fuel ∧
    (testCount f e fuel (left + 1)).mean (val fun k : Nat => (k : ℚ)) =
      (p + (testCount f e fuel left).mean (val fun _ => 1) * (1 - p - d)) * wpowers d fuel +
        (testCount f e fuel left).mean (val fun k : Nat => (k : ℚ)) * (1 - p - d) * powers d fuel ∧
    0 ≤ p ∧ 0 ≤ d ∧ p + d ≤ 1 := by
  classical
  obtain ⟨h1, -, h2⟩ := mean_three h hfails he hp hd 1 fun _ => true
  have hq : e.mean (hit fun a => !(f a).discarded && !decide (f a).Fails) = 1 - p - d := by
    have h3 : powers (e.mean (hit fun a => (f a).discarded)) 1 = 1 := by simp [powers]
    have h4 : powers d 1 = 1 := by simp [powers]
    unfold passRun at h1
    rw [h3, h4, mul_one, mul_one] at h1
    exact h1
  have hf : (fun a => decide (f a).Fails) = fails := by
    funext a
    rw [Bool.eq_iff_iff, hfails]; simp
  have h5 := mean_testCount_one f e (not_both h) fuel left
  have h6 := mean_testCount f e (not_both h) fuel left
  rw [hq, hd, hf, hp] at h5 h6
  exact ⟨h5, h6, h2⟩

end

section
variable {c : AnyTest A} {f : Args A → Ev Bool} {N : Nat} (h : Searches c f N)
  {fails : Args A → Bool} (hfails : ∀ a, fails a = true ↔ (f a).Fails)
  {p : ℚ} (hp : Chance (argsDraw c) fails p)
include h hfails hp

/-- **C176** If arguments fail with probability `p` and are discarded with probability `d < 1`, then a test of `N` runs calls
the property function (1 + r + ... + r^(N-1)) / (1-d) times on average, where `r = 1 - p/(1-d)` is the probability that
arguments pass if they are not discarded. -/
theorem C176_calls (d : ℚ) (hd : Chance (argsDraw c) (fun a => (f a).discarded) d) (hd1 : d < 1) :
    AverageLimit (callsMade c) (fun k => (k : ℚ)) ((∑ k ∈ Finset.range N, (1 - p / (1 - d)) ^ k) / (1 - d)) := by
  obtain ⟨e, he, hp⟩ := hp
  have hde := chance_unique ⟨e, he, rfl⟩ hd
  obtain ⟨-, -, h0, hd0, hs⟩ := mean_parts h hfails he hp hde 0 0
  have hpos : (1 - d) ≠ 0 := by intro h'; linarith
  have key : ∀ l, Tendsto (fun m => (testCount f e m l).mean (val fun _ => 1)) atTop (𝓝 1) ∧
      Tendsto (fun m => (testCount f e m l).mean (val fun k : Nat => (k : ℚ))) atTop
        (𝓝 (powers (1 - p / (1 - d)) l / (1 - d))) := by
    intro l
    induction l with
    | zero =>
      constructor
      · simpa [testCount, Exp.mean, val] using tendsto_const_nhds
      · simpa [testCount, Exp.mean, val, powers] using tendsto_const_nhds
    | succ l ih =>
      obtain ⟨ih1, ih2⟩ := ih
      have hP := ((ih1.mul_const (1 - p - d)).const_add p)
      constructor
      · have := hP.mul (powers_tendsto hd0 hd1)
        have e1 : (p + 1 * (1 - p - d)) * (1 / (1 - d)) = 1 := by field_simp; ring
        rw [e1] at this
        exact this.congr fun m => ((mean_parts h hfails he hp hde m l).1).symm
      · have := (hP.mul (wpowers_tendsto hd0 hd1)).add ((ih2.mul_const (1 - p - d)).mul (powers_tendsto hd0 hd1))
        have e1 : (p + 1 * (1 - p - d)) * (1 / (1 - d) ^ 2) +
            powers (1 - p / (1 - d)) l / (1 - d) * (1 - p - d) * (1 / (1 - d)) =
            powers (1 - p / (1 - d)) (l + 1) / (1 - d) := by
          rw [powers]; field_simp; ring
        rw [e1] at this
        exact this.congr fun m => ((mean_parts h hfails he hp hde m l).2.1).symm
  have := (key N).2
  rw [Metric.tendsto_atTop] at this
  intro ε hε
  obtain ⟨M, hM⟩ := this ε (by exact_mod_cast hε)
  refine ⟨M, fun m hm => ⟨_, ⟨_, follows_callsMade h he m, rfl⟩, ?_⟩⟩
  have hm := hM m hm
  rw [Rat.dist_eq, powers_sum] at hm
  change |(testCount f e m N).mean (val fun k : Nat => (k : ℚ)) - _| < ε
  exact_mod_cast hm

/-- **C176** In particular a property that fails takes at most `1/p` calls on average until it fails, however many runs are
asked for: exactly the `1/p`-fold of the probability that it is found to fail (`C148_discards`). -/
theorem C176_until_failure (d : ℚ) (hd : Chance (argsDraw c) (fun a => (f a).discarded) d) (hd1 : d < 1) (hpos : 0 < p) :
    AverageLimit (callsMade c) (fun k => (k : ℚ)) ((1 - (1 - p / (1 - d)) ^ N) / p) ∧
      (1 - (1 - p / (1 - d)) ^ N) / p ≤ 1 / p := by
  have key := C176_calls h hfails hp d hd hd1
  have hne : (1 - d) ≠ 0 := by intro h'; linarith
  have e1 : (∑ k ∈ Finset.range N, (1 - p / (1 - d)) ^ k) / (1 - d) = (1 - (1 - p / (1 - d)) ^ N) / p := by
    rw [← powers_sum, ← powers_mul]
    field_simp
    ring
  rw [e1] at key
  refine ⟨key, ?_⟩
  obtain ⟨e, he, hp'⟩ := hp
  obtain ⟨-, -, h0, hd0, hs⟩ := mean_parts h hfails he hp' (chance_unique ⟨e, he, rfl⟩ hd) 0 0
  have hr : 0 ≤ 1 - p / (1 - d) := by
    rw [sub_nonneg, div_le_one (by linarith)]; linarith
  have := pow_nonneg hr N
  exact (div_le_div_iff_of_pos_right hpos).mpr (by linarith)

/-- **C176** Without discards the average is exact, and every run is one call. -/
theorem C176_no_discards (hd : ∀ a, (f a).discarded = false) (fuel : Nat) (hfuel : 0 < fuel) :
    Average (callsMade c fuel) (fun k => (k : ℚ)) (∑ k ∈ Finset.range N, (1 - p) ^ k) := by
  obtain ⟨e, he, hp⟩ := hp
  obtain ⟨fuel, rfl⟩ : ∃ k, fuel = k + 1 := ⟨fuel - 1, by omega⟩
  have hd0 : e.mean (hit fun a => (f a).discarded) = 0 := by
    simp only [hd]
    refine Eq.trans (congrArg (fun z => e.mean z) ?_) (Exp.mean_const 0 he.1)
    funext o; cases o <;> simp [hit]
  have key : ∀ l, (testCount f e (fuel + 1) l).mean (val fun _ => 1) = 1 ∧
      (testCount f e (fuel + 1) l).mean (val fun k : Nat => (k : ℚ)) = powers (1 - p) l := by
    intro l
    induction l with
    | zero => simp [testCount, Exp.mean, val, powers]
    | succ l ih =>
      obtain ⟨h1, h2, -⟩ := mean_parts h hfails he hp hd0 (fuel + 1) l
      have hw : wpowers 0 (fuel + 1) = 1 := by simp [wpowers]
      rw [h1, h2, ih.1, ih.2, powers_zero, hw, powers]
      constructor <;> ring
  refine ⟨_, follows_callsMade h he (fuel + 1), ?_⟩
  rw [← powers_sum, ← (key N).2]
  rfl

end

/-- **C176** A property that never fails is called `N/(1-d)` times on average. -/
theorem C176_passing {c : AnyTest A} {f : Args A → Ev Bool} {N : Nat} (h : Searches c f N) (hf : ∀ a, ¬ (f a).Fails)
    (d : ℚ) (hd : Chance (argsDraw c) (fun a => (f a).discarded) d) (hd1 : d < 1) :
    AverageLimit (callsMade c) (fun k => (k : ℚ)) (N / (1 - d)) := by
  have h0 : Chance (argsDraw c) (fun _ => false) 0 := by
    obtain ⟨e, he, -⟩ := hd
    refine ⟨e, he, Eq.trans (congrArg (fun z => e.mean z) ?_) (Exp.mean_const 0 he.1)⟩
    funext o; cases o <;> simp [hit]
  have := C176_calls h (fails := fun _ => false) (fun a => by simp [hf a]) h0 d hd hd1
  simpa using this

/-- Two sixes in a test with 25 runs where a one as the first throw discards: on average the property is called
36 * (1 - (29/30)^25) times, that is 20.6 times. -/
example : AverageLimit (callsMade (twoDice 25 (noSixes true))) (fun k => (k : ℚ)) ((1 - (29 / 30) ^ 25) * 36) ∧
    (205 / 10 : ℚ) < (1 - (29 / 30) ^ 25) * 36 ∧ ((1 - (29 / 30) ^ 25) * 36 : ℚ) < 206 / 10 := by
  refine ⟨?_, by norm_num, by norm_num⟩
  have hp := twoDice_draw 25 (noSixes true) (fun _ v => decide (v = 6)) 1 1 (by decide) (by decide)
  have := (C176_until_failure (twoDice_searches 25 true) (noSixes_fails true) hp _ (noSixes_discards 25) (by norm_num)
    (by norm_num)).1
  refine cast (congrArg (fun p => AverageLimit _ _ p) ?_) this
  norm_num

/-- Without discards: 36 * (1 - (35/36)^25) times. -/
example : Average (callsMade (twoDice 25 (noSixes false)) 1) (fun k => (k : ℚ)) ((1 - (35 / 36) ^ 25) * 36) := by
  have hp := twoDice_draw 25 (noSixes false) (fun _ v => decide (v = 6)) 1 1 (by decide) (by decide)
  have := C176_no_discards (twoDice_searches 25 false) (noSixes_fails false) hp
    (fun a => by simp [noSixes, returns, Ev.discarded]) 1 (by decide)
  refine cast (congrArg (fun p => Average _ _ p) ?_) this
  rw [← powers_sum, powers_eq (by norm_num)]
  norm_num

/-- Never fails, discards if the first throw is a one. -/
private def skipOnes (x _ : Int) : Ev Bool := if x == 1 then raises .discard else returns true

private theorem skipOnes_searches (N : Nat) : Searches (twoDice N skipOnes) (fun a => skipOnes (a 0) (a 1)) N where
  setting := fun σ R => (twoDice_searches N true).setting σ R |> fun h => ⟨⟨fun _ h => (by cases h), fun _ h => (by cases h)⟩, rfl,
    by simp [twoDice], h.4⟩
  total := fun σ R s => (twoDice_searches N true).total σ R s
  pure := fun _ _ _ _ => rfl
  out := fun a => by
    unfold skipOnes
    split
    · exact .inr ⟨_, rfl, rfl⟩
    · exact .inl ⟨_, rfl⟩
  quiet := fun a _ => by unfold skipOnes; split <;> rfl
  runs := fun _ _ => rfl
  noLimit := fun _ _ => rfl

/-- 25 runs take 30 calls on average. -/
example : AverageLimit (callsMade (twoDice 25 skipOnes)) (fun k => (k : ℚ)) 30 := by
  have hd := twoDice_draw 25 skipOnes (fun i v => decide (i = 0 → v = 1)) 1 6 (by decide) (by decide)
  have hd : Chance (argsDraw (twoDice 25 skipOnes)) (fun a => (skipOnes (a 0) (a 1)).discarded) (1 / 6) := by
    refine cast (congrArg₂ (fun E p => Chance _ E p) ?_ (by norm_num)) hd
    funext a
    by_cases h1 : a 0 = 1 <;> simp [Fin.forall_fin_two, skipOnes, h1, raises, returns, Ev.discarded]
  have := C176_passing (skipOnes_searches 25) (fun a => by
    by_cases h1 : a 0 = 1 <;> simp [skipOnes, h1, raises, returns, Ev.Fails]) _ hd (by norm_num)
  refine cast (congrArg (fun p => AverageLimit _ _ p) ?_) this
  norm_num

end Engine
end Verif
