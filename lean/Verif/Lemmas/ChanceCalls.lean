import Verif.Spec.Average
import Verif.Lemmas.ChanceTest
import Mathlib.Topology.Instances.Rat
import Mathlib.Analysis.SpecificLimits.Normed
/-
The experiment of a call of `forAll`, with the calls of the property function counted.
-/
namespace Verif
namespace Engine
open PairTuple Filter Topology
variable {n : Nat} {A : Fin n → Type} {σ : Type}

open Classical in
/-- The experiment of the `do ... while` loop: whether the arguments failed, and the number of calls. -/
noncomputable def runCount (f : Args A → Ev Bool) (e : Exp (Outcome (Args A))) : Nat → Exp (Outcome (Bool × Nat))
  | 0 => .ret .diverges
  | fuel + 1 => e.andThen fun a =>
    if (f a).discarded then (runCount f e fuel).andThen fun r => .ret (.ok (r.1, r.2 + 1))
    else .ret (.ok (decide (f a).Fails, 1))

/-- The experiment of the `for` loop. -/
noncomputable def testCount (f : Args A → Ev Bool) (e : Exp (Outcome (Args A))) (fuel : Nat) : Nat → Exp (Outcome Nat)
  | 0 => .ret (.ok 0)
  | left + 1 => (runCount f e fuel).andThen fun r =>
    if r.1 then .ret (.ok r.2) else (testCount f e fuel left).andThen fun m => .ret (.ok (r.2 + m))

theorem valid_runCount (f : Args A → Ev Bool) {e : Exp (Outcome (Args A))} (he : e.Valid) (fuel : Nat) :
    (runCount f e fuel).Valid := by
  induction fuel with
  | zero => trivial
  | succ fuel ih =>
    rw [runCount]
    refine valid_andThen (fun a => ?_) he
    split
    · exact valid_andThen (k := fun r => .ret (.ok (r.1, r.2 + 1))) (fun _ => trivial) ih
    · trivial

theorem valid_testCount (f : Args A → Ev Bool) {e : Exp (Outcome (Args A))} (he : e.Valid) (fuel left : Nat) :
    (testCount f e fuel left).Valid := by
  induction left with
  | zero => trivial
  | succ left ih =>
    rw [testCount]
    refine valid_andThen (fun o => ?_) (valid_runCount f he fuel)
    split
    · trivial
    · exact valid_andThen (k := fun m => .ret (.ok (o.2 + m))) (fun _ => trivial) ih

theorem run_andThen_diverges {α β : Type} (R : Rng σ) (k : α → Exp (Outcome β)) (e : Exp (Outcome α)) (s : σ)
    (h : (e.run R s).1 = .diverges) : ((e.andThen k).run R s).1 = .diverges := by
  unfold Exp.andThen
  rw [Exp.run_bind, h]
  rfl

section
variable {c : Cfg σ A} (hc : Setting c) {f : Args A → Ev Bool} (hf : c.Pure f) (hr : Returns f)
  (hx : ∀ a, (f a).out = .throws .success ∨ (f a).out = .throws .discard → (f a).fails = [])
  {fails : Args A → Bool} (hfails : ∀ a, fails a = true ↔ (f a).Rejects)
  {D : Nat → Tup A} {seed : σ} (hD : ∀ j, ∃ r, Gen.drawTuple c.gens c.orderRun (c.next^[j] seed) = .ok (D j, r))
  {R : Rng σ} {e : Exp (Outcome (Args A))}
  (he : ∀ j, e.run R (c.next^[j] seed) = (.ok (Tup.get (D j)), c.next^[j + 1] seed))
include hc hf hr hfails hD hx he

/-- The `do ... while` loop does what the experiment does. -/
theorem doWhile_count : ∀ (fuel j i : Nat) (s : St σ A), At c f D seed j i s →
    (∃ s' k, doWhile c fuel s = (.ok none, s') ∧ At c f D seed (j + k) i s' ∧
      (runCount f e fuel).run R (c.next^[j] seed) = (.ok (false, k), c.next^[j + k] seed)) ∨
    (∃ k, (runCount f e fuel).run R (c.next^[j] seed) = (.ok (true, k + 1), c.next^[j + k + 1] seed) ∧
      ((∃ Q s', doWhile c fuel s = (.ok (some Q), s') ∧ EndsAt c f D seed fails (j + k) i Q s') ∨
      ∃ x s', doWhile c fuel s = (.throws x, s') ∧ x.isStd = true ∧
        ∃ Q s'', shrink c s' = (.ok Q, s'') ∧ EndsAt c f D seed fails (j + k) i Q s'')) ∨
    ((doWhile c fuel s).1 = .diverges ∧ ((runCount f e fuel).run R (c.next^[j] seed)).1 = .diverges) := by
  intro fuel
  induction fuel with
  | zero => intro j i s _; exact .inr (.inr ⟨rfl, rfl⟩)
  | succ fuel ih =>
    intro j i s h
    obtain ⟨ha, hp, hF⟩ := guarded_at hc hf hr hx hfails (hD _) h
    rw [runCount, run_andThen R _ e _ _ _ (he j), doWhile, Eng.bind_apply]
    by_cases hd : (f (Tup.get (D j))).discarded = true
    · obtain ⟨s', h1, h2⟩ := ha hd
      rw [h1, if_pos hd]
      rcases ih (j + 1) i s' h2 with ⟨s'', k, h3, h4, h5⟩ | ⟨k, h3, h4⟩ | ⟨h3, h4⟩
      · rw [run_andThen R _ _ _ _ _ h5]
        refine .inl ⟨s'', k + 1, h3, ?_, ?_⟩
        · rw [show j + (k + 1) = j + 1 + k by omega]; exact h4
        · rw [show j + (k + 1) = j + 1 + k by omega]; rfl
      · rw [run_andThen R _ _ _ _ _ h3]
        refine .inr (.inl ⟨k + 1, ?_, ?_⟩)
        · rw [show j + (k + 1) + 1 = j + 1 + k + 1 by omega]; rfl
        · rw [show j + (k + 1) = j + 1 + k by omega]; exact h4
      · exact .inr (.inr ⟨h3, run_andThen_diverges R _ _ _ h4⟩)
    · rw [if_neg hd]
      have hd : (f (Tup.get (D j))).discarded = false := by simpa using hd
      by_cases hfl : (f (Tup.get (D j))).Fails
      · refine .inr (.inl ⟨0, by simp only [hfl, decide_true]; rfl, ?_⟩)
        rcases hF hfl with ⟨Q, s', h1, h2⟩ | ⟨x, s', h1, h2⟩
        · rw [h1]; exact .inl ⟨Q, s', rfl, h2⟩
        · rw [h1]; exact .inr ⟨x, s', rfl, h2⟩
      · obtain ⟨s', h1, h2⟩ := hp hd hfl
        rw [h1]
        exact .inl ⟨s', 1, rfl, h2, by simp only [hfl, decide_false]; rfl⟩

/-- The `for` loop does what the experiment does. -/
theorem forLoop_count (h0 : c.maxDurationMs = 0) (fuel : Nat) : ∀ (left j i : Nat) (s : St σ A), At c f D seed j i s →
    (∃ s' k i', forLoop c fuel left s = (.ok .passed, s') ∧ At c f D seed (j + k) i' s' ∧
      (testCount f e fuel left).run R (c.next^[j] seed) = (.ok k, c.next^[j + k] seed)) ∨
    (∃ k i', (testCount f e fuel left).run R (c.next^[j] seed) = (.ok (k + 1), c.next^[j + k + 1] seed) ∧
      ((∃ Q s', forLoop c fuel left s = (.ok Q, s') ∧ EndsAt c f D seed fails (j + k) i' Q s') ∨
      ∃ x s', forLoop c fuel left s = (.throws x, s') ∧ x.isStd = true ∧
        ∃ Q s'', shrink c s' = (.ok Q, s'') ∧ EndsAt c f D seed fails (j + k) i' Q s'')) ∨
    ((forLoop c fuel left s).1 = .diverges ∧ ((testCount f e fuel left).run R (c.next^[j] seed)).1 = .diverges) := by
  intro left
  induction left with
  | zero =>
    intro j i s h
    exact .inl ⟨s, 0, i, rfl, h, rfl⟩
  | succ left ih =>
    intro j i s h
    rcases doWhile_count hc hf hr hx hfails hD he fuel j i s h with
      ⟨s', k, h1, h2, h3⟩ | ⟨k, h1, h2⟩ | ⟨h1, h2⟩
    · rw [forLoop_next hc hf hr hx hfails h0 hD h1, testCount, run_andThen R _ _ _ _ _ h3]
      simp only [Bool.false_eq_true, if_false]
      rcases ih (j + k) (i + 1) _ (At.next hc hf hr hx hfails h0 hD h2) with
        ⟨s'', l, i', h4, h5, h6⟩ | ⟨l, i', h4, h5⟩ | ⟨h4, h5⟩
      · rw [run_andThen R _ _ _ _ _ h6]
        refine .inl ⟨s'', k + l, i', h4, ?_, ?_⟩
        · rw [← Nat.add_assoc]; exact h5
        · rw [← Nat.add_assoc]; rfl
      · rw [run_andThen R _ _ _ _ _ h4]
        refine .inr (.inl ⟨k + l, i', ?_, ?_⟩)
        · rw [← Nat.add_assoc j]; rfl
        · rw [← Nat.add_assoc]; exact h5
      · exact .inr (.inr ⟨h4, run_andThen_diverges R _ _ _ h5⟩)
    · rw [testCount, run_andThen R _ _ _ _ _ h1]
      refine .inr (.inl ⟨k, i, rfl, ?_⟩)
      rw [forLoop_succ, if_neg (by simp [h0])]
      rcases h2 with ⟨Q, s', h3, h4⟩ | ⟨x, s', h3, h4⟩
      · rw [h3]; exact .inl ⟨Q, s', rfl, h4⟩
      · rw [h3]; exact .inr ⟨x, s', rfl, h4⟩
    · refine .inr (.inr ⟨?_, ?_⟩)
      · rw [forLoop_succ, if_neg (by simp [h0])]
        cases hm : doWhile c fuel s with
        | mk o s1 => rw [hm] at h1; simp only at h1; subst h1; rfl
      · rw [testCount]
        exact run_andThen_diverges R _ _ _ h2

end

/-- The calls a call of `forAll` makes are those of the experiment. -/
theorem follows_callsMade {c : AnyTest A} {f : Args A → Ev Bool} {N : Nat} (h : Searches c f N)
    {e : Exp (Outcome (Args A))} (he : Follows (argsDraw c) e) (fuel : Nat) :
    Follows (callsMade c fuel) (testCount f e fuel N) := by
  classical
  refine ⟨valid_testCount f he.1 fuel N, fun σ R seed => ?_⟩
  choose D hD using fun j => h.total σ R ((c σ R).next^[j] seed)
  have hD' : ∀ j, Gen.drawTuple (c σ R).gens (c σ R).orderRun ((c σ R).next^[j] seed) =
      .ok ((D j).1, (c σ R).next^[j + 1] seed) := by
    intro j
    rw [Function.iterate_succ_apply', Cfg.next, hD j]
  have hrun : ∀ j, e.run R ((c σ R).next^[j] seed) =
      (.ok (Tup.get (D j).1), (c σ R).next^[j + 1] seed) := by
    intro j
    have h1 := he.2 σ R ((c σ R).next^[j] seed)
    unfold argsDraw at h1
    rw [hD' j] at h1
    exact close_ok h1.symm
  have key := forLoop_count (h.setting σ R) (h.pure σ R) h.out h.quiet (fails := fun a => decide (f a).Rejects) (by simp)
    (fun j => ⟨_, hD' j⟩) hrun (h.noLimit σ R) fuel N 0 0 ⟨seed, seed, 0, [], []⟩ ⟨rfl, rfl, rfl, rfl, rfl⟩
  unfold callsMade runForAll Eng.withContext Eng.catchStd Eng.tryCatch
  rw [h.runs σ R]
  simp only [Function.iterate_zero, id_eq, Nat.zero_add] at key
  rcases key with ⟨s', k, i', h1, h2, h3⟩ | ⟨k, i', h1, h2⟩ | ⟨h1, h2⟩
  · simp only [h1, h3, Outcome.bind, h2.rand, h2.runs, List.length_map, List.length_range]
  · rw [h1]
    rcases h2 with ⟨Q, s', h3, h4⟩ | ⟨x, s', h3, hs, Q, s'', h4, h5⟩
    · simp only [h3, Outcome.bind, h4.runs, List.length_map, List.length_range, h4.rand]
    · simp only [h3, hs, if_true, h4, Outcome.bind, h5.runs, List.length_map, List.length_range, h5.rand]
  · cases hm : forLoop (c σ R) fuel N ⟨seed, seed, 0, [], []⟩ with
    | mk o s1 =>
      rw [hm] at h1
      simp only at h1
      subst h1
      simp only [h2, Outcome.bind]

/-- The sum of the first powers, each with its number. -/
def wpowers (d : ℚ) : Nat → ℚ
  | 0 => 0
  | k + 1 => 1 + d * (wpowers d k + powers d k)

section
open Classical
variable (f : Args A → Ev Bool) (e : Exp (Outcome (Args A)))

theorem mean_runCount_one (F : Bool → ℚ) (fuel : Nat) :
    (runCount f e fuel).mean (val fun r : Bool × Nat => F r.1) =
      (e.mean (val fun a => if (f a).discarded then 0 else F (decide (f a).Fails))) *
        powers (e.mean (hit fun a => (f a).discarded)) fuel := by
  induction fuel with
  | zero => simp [runCount, Exp.mean, val, powers]
  | succ fuel ih =>
    rw [runCount, mean_andThen]
    have : (val fun a => (if (f a).discarded then (runCount f e fuel).andThen fun r => .ret (.ok (r.1, r.2 + 1))
        else .ret (.ok (decide (f a).Fails, 1))).mean (val fun r : Bool × Nat => F r.1)) =
        fun o => val (fun a => if (f a).discarded then 0 else F (decide (f a).Fails)) o +
          (runCount f e fuel).mean (val fun r : Bool × Nat => F r.1) * hit (fun a => (f a).discarded) o := by
      funext o
      cases o with
      | ok a =>
        simp only [val, hit]
        by_cases hd : (f a).discarded = true
        · simp only [hd, if_true, mean_andThen, Exp.mean, val]; ring
        · simp [hd, Exp.mean, val]
      | throws x => simp [val, hit]
      | ub => simp [val, hit]
      | diverges => simp [val, hit]
    rw [this, Exp.mean_add, Exp.mean_mul, ih, powers]
    ring

theorem mean_runCount (F : Bool → ℚ) (fuel : Nat) :
    (runCount f e fuel).mean (val fun r : Bool × Nat => F r.1 * (r.2 : ℚ)) =
      (e.mean (val fun a => if (f a).discarded then 0 else F (decide (f a).Fails))) *
        wpowers (e.mean (hit fun a => (f a).discarded)) fuel := by
  induction fuel with
  | zero => simp [runCount, Exp.mean, val, wpowers]
  | succ fuel ih =>
    rw [runCount, mean_andThen]
    have h1 : (runCount f e fuel).mean (val fun r : Bool × Nat => F r.1 * ((r.2 + 1 : Nat) : ℚ)) =
        (runCount f e fuel).mean (val fun r : Bool × Nat => F r.1 * (r.2 : ℚ)) + (runCount f e fuel).mean (val fun r : Bool × Nat => F r.1) := by
      rw [← Exp.mean_add]
      congr 1
      funext o
      cases o <;> simp [val]
      ring
    have : (val fun a => (if (f a).discarded then (runCount f e fuel).andThen fun r => .ret (.ok (r.1, r.2 + 1))
        else .ret (.ok (decide (f a).Fails, 1))).mean (val fun r : Bool × Nat => F r.1 * (r.2 : ℚ))) =
        fun o => val (fun a => if (f a).discarded then 0 else F (decide (f a).Fails)) o +
          ((runCount f e fuel).mean (val fun r : Bool × Nat => F r.1 * (r.2 : ℚ)) + (runCount f e fuel).mean (val fun r : Bool × Nat => F r.1)) *
            hit (fun a => (f a).discarded) o := by
      funext o
      cases o with
      | ok a =>
        simp only [val, hit]
        by_cases hd : (f a).discarded = true
        · simp only [hd, if_true, mean_andThen, Exp.mean]
          rw [← h1]
          simp only [val]
          ring
        · simp [hd, Exp.mean, val]
      | throws x => simp [val, hit]
      | ub => simp [val, hit]
      | diverges => simp [val, hit]
    rw [this, Exp.mean_add, Exp.mean_mul, ih, mean_runCount_one, wpowers]
    ring

variable (hdf : ∀ a, (f a).discarded = true → ¬ (f a).Fails)
include hdf

theorem mean_base (F : Bool → ℚ) :
    e.mean (val fun a => if (f a).discarded then 0 else F (decide (f a).Fails)) =
      F true * e.mean (hit fun a => decide (f a).Fails) +
        F false * e.mean (hit fun a => !(f a).discarded && !decide (f a).Fails) := by
  rw [← Exp.mean_mul, ← Exp.mean_mul, ← Exp.mean_add]
  congr 1
  funext o
  cases o with
  | ok a =>
    simp only [val, hit]
    by_cases hd : (f a).discarded = true
    · simp [hd, hdf a hd]
    · by_cases hfl : (f a).Fails <;> simp [hd, hfl]
  | throws x => simp [val, hit]
  | ub => simp [val, hit]
  | diverges => simp [val, hit]

/-- The probability that `forAll` returns. -/
theorem mean_testCount_one (fuel left : Nat) :
    (testCount f e fuel (left + 1)).mean (val fun _ => 1) =
      (e.mean (hit fun a => decide (f a).Fails) +
        (testCount f e fuel left).mean (val fun _ => 1) *
          e.mean (hit fun a => !(f a).discarded && !decide (f a).Fails)) *
        powers (e.mean (hit fun a => (f a).discarded)) fuel := by
  rw [testCount, mean_andThen]
  have : (val fun r : Bool × Nat => (if r.1 = true then .ret (.ok r.2)
      else (testCount f e fuel left).andThen fun m => .ret (.ok (r.2 + m))).mean (val fun _ : Nat => (1 : ℚ))) =
      val fun r : Bool × Nat => (fun b : Bool => if b then 1 else (testCount f e fuel left).mean (val fun _ => 1)) r.1 := by
    funext o
    cases o with
    | ok r =>
      obtain ⟨b, k⟩ := r
      cases b
      · simp only [val, Bool.false_eq_true, if_false, mean_andThen, Exp.mean]
      · simp only [val, if_true, Exp.mean]
    | throws x => rfl
    | ub => rfl
    | diverges => rfl
  rw [this, mean_runCount_one f e (fun b => if b then 1 else (testCount f e fuel left).mean (val fun _ => 1)),
    mean_base f e hdf (fun b => if b then 1 else (testCount f e fuel left).mean (val fun _ => 1))]
  simp only [if_true, Bool.false_eq_true, if_false, one_mul]

/-- The number of calls. -/
theorem mean_testCount (fuel left : Nat) :
    (testCount f e fuel (left + 1)).mean (val fun k : Nat => (k : ℚ)) =
      (e.mean (hit fun a => decide (f a).Fails) +
        (testCount f e fuel left).mean (val fun _ => 1) *
          e.mean (hit fun a => !(f a).discarded && !decide (f a).Fails)) *
        wpowers (e.mean (hit fun a => (f a).discarded)) fuel +
      (testCount f e fuel left).mean (val fun k : Nat => (k : ℚ)) *
        e.mean (hit fun a => !(f a).discarded && !decide (f a).Fails) *
        powers (e.mean (hit fun a => (f a).discarded)) fuel := by
  rw [testCount, mean_andThen]
  have h1 : ∀ k : Nat, (testCount f e fuel left).mean (val fun m : Nat => ((k + m : Nat) : ℚ)) =
      (testCount f e fuel left).mean (val fun _ => 1) * k + (testCount f e fuel left).mean (val fun m : Nat => (m : ℚ)) := by
    intro k
    rw [mul_comm, ← Exp.mean_mul, ← Exp.mean_add]
    congr 1
    funext o
    cases o <;> simp [val]
  have : (val fun r : Bool × Nat => (if r.1 = true then .ret (.ok r.2)
      else (testCount f e fuel left).andThen fun m => .ret (.ok (r.2 + m))).mean (val fun k : Nat => (k : ℚ))) =
      fun o => (val fun r : Bool × Nat =>
          (fun b : Bool => if b then 1 else (testCount f e fuel left).mean (val fun _ => 1)) r.1 * (r.2 : ℚ)) o +
        (val fun r : Bool × Nat =>
          (fun b : Bool => if b then 0 else (testCount f e fuel left).mean (val fun k : Nat => (k : ℚ))) r.1) o := by
    funext o
    cases o with
    | ok r =>
      obtain ⟨b, k⟩ := r
      cases b
      · simp only [val, Bool.false_eq_true, if_false, mean_andThen, Exp.mean]
        exact h1 k
      · simp [val, Exp.mean]
    | throws x => simp [val]
    | ub => simp [val]
    | diverges => simp [val]
  rw [this, Exp.mean_add, mean_runCount f e (fun b => if b then 1 else (testCount f e fuel left).mean (val fun _ => 1)),
    mean_base f e hdf (fun b => if b then 1 else (testCount f e fuel left).mean (val fun _ => 1)),
    mean_runCount_one f e (fun b => if b then 0 else (testCount f e fuel left).mean (val fun k : Nat => (k : ℚ))),
    mean_base f e hdf (fun b => if b then 0 else (testCount f e fuel left).mean (val fun k : Nat => (k : ℚ)))]
  simp only [if_true, Bool.false_eq_true, if_false, one_mul, zero_mul, zero_add]

end

theorem powers_tendsto {d : ℚ} (h0 : 0 ≤ d) (h1 : d < 1) : Tendsto (powers d) atTop (𝓝 (1 / (1 - d))) := by
  have h := ((tendsto_pow_atTop_nhds_zero_of_lt_one h0 h1).const_sub 1).div_const (1 - d)
  rw [sub_zero] at h
  refine h.congr fun k => ?_
  rw [powers_eq h1.ne]

theorem mul_pow_tendsto {d : ℚ} (h0 : 0 ≤ d) (h1 : d < 1) : Tendsto (fun m : ℕ => (m : ℚ) * d ^ m) atTop (𝓝 0) := by
  have h := tendsto_self_mul_const_pow_of_lt_one (r := (d : ℝ)) (by exact_mod_cast h0) (by exact_mod_cast h1)
  rw [Metric.tendsto_atTop] at h ⊢
  intro ε he
  obtain ⟨N, hN⟩ := h ε he
  refine ⟨N, fun n hn => ?_⟩
  have := hN n hn
  rw [Rat.dist_eq]
  rw [Real.dist_eq] at this
  push_cast
  simpa using this

theorem wpowers_eq {d : ℚ} (hd : d ≠ 1) (k : Nat) :
    wpowers d k = (1 - (1 + k * (1 - d)) * d ^ k) / (1 - d) ^ 2 := by
  have : 1 - d ≠ 0 := sub_ne_zero.2 hd.symm
  induction k with
  | zero => simp [wpowers]
  | succ k ih => rw [wpowers, ih, powers_eq hd, pow_succ]; push_cast; field_simp; ring

theorem wpowers_tendsto {d : ℚ} (h0 : 0 ≤ d) (h1 : d < 1) : Tendsto (wpowers d) atTop (𝓝 (1 / (1 - d) ^ 2)) := by
  have h := (((tendsto_pow_atTop_nhds_zero_of_lt_one h0 h1).add
    ((mul_pow_tendsto h0 h1).mul_const (1 - d))).const_sub 1).div_const ((1 - d) ^ 2)
  rw [zero_mul, add_zero, sub_zero] at h
  refine h.congr fun k => ?_
  rw [wpowers_eq h1.ne]
  ring

end Engine
end Verif
