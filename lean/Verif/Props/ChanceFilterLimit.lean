import Verif.Props.ChanceOneOf
import Verif.Props.ChanceComb
/-
C142: filtering and mapping generators that have loops themselves (an `oneOf`, another filter, a set).
-/
namespace Verif
open Shr Random Comb Filter Topology
variable {α β : Type}

/-- `m` rounds of a filter around a generator that need not return. -/
theorem chance_filter_rounds {g : Src (Shr α)} {c E : α → Bool} {t p q : ℚ} (hg : Chance g (fun _ => true) t)
    (hc : Chance g (fun x => c x.value) p) (hE : Chance g (fun x => E x.value && c x.value) q) (hr : t - p ≠ 1) (m : Nat) :
    Chance (fun σ R s => Comb.filter (g σ R) c m s) (fun x => E x.value) (q * ((1 - (t - p) ^ m) / (1 - (t - p)))) := by
  obtain ⟨e, he, h1⟩ := hg
  have h2 : e.mean (hit fun x => c x.value) = p := chance_unique ⟨e, he, rfl⟩ hc
  have h3 : e.mean (hit fun x => E x.value && c x.value) = q := chance_unique ⟨e, he, rfl⟩ hE
  have h4 : e.mean (hit fun x => !c x.value) = t - p := by
    rw [← h1, ← h2, eq_sub_iff_add_eq, ← Exp.mean_add]
    congr 1
    funext o
    cases o with
    | ok x => cases h : c x.value <;> simp [hit, h]
    | throws x => simp [hit]
    | ub => simp [hit]
    | diverges => simp [hit]
  have h5 : 1 - (t - p) ≠ 0 := sub_ne_zero.2 hr.symm
  refine ⟨_, follows_filter he c m, ?_⟩
  induction m with
  | zero => simp [filterExp, Exp.mean, hit]
  | succ m ih =>
    rw [mean_filter, ih, h3, h4, pow_succ _ m]
    field_simp
    ring

/-- No event is more probable than a return. -/
theorem chance_le_returns {g : Src α} {E : α → Bool} {t p : ℚ} (hg : Chance g (fun _ => true) t) (hE : Chance g E p) :
    p ≤ t := by
  obtain ⟨e, he, rfl⟩ := hg
  have h2 : e.mean (hit E) = p := chance_unique ⟨e, he, rfl⟩ hE
  rw [← h2]
  refine Exp.mean_le (fun o => ?_) he.1
  cases o with
  | ok x => simp only [hit]; split_ifs <;> norm_num
  | throws x => simp [hit]
  | ub => simp [hit]
  | diverges => simp [hit]

/-- C142. A filtered generator has the conditional probabilities, also if the generator that is filtered has loops
itself (an `oneOf`, another filter, a set) and returns with probability 1. -/
theorem C142_nested_filter (g : Nat → Src (Shr α)) (c E : α → Bool) (p q : ℚ) (hg : ChanceLimit g (fun _ => true) 1)
    (hc : ChanceLimit g (fun t => c t.value) p) (hE : ChanceLimit g (fun t => E t.value && c t.value) q) (hp : 0 < p) :
    ChanceLimit (fun m σ R s => Comb.filter (g m σ R) c m s) (fun t => E t.value) (q / p) := by
  obtain ⟨ft, ht1, ht2⟩ := chanceLimit_iff.1 hg
  obtain ⟨fp, hp1', hp2⟩ := chanceLimit_iff.1 hc
  obtain ⟨fq, hq1, hq2⟩ := chanceLimit_iff.1 hE
  have hp1 : p ≤ 1 := le_of_tendsto_of_tendsto hp1' ht1 (by
    filter_upwards [ht2, hp2] with n h1 h2
    exact chance_le_returns h1 h2)
  have hr : Tendsto (fun n => ft n - fp n) atTop (𝓝 (1 - p)) := ht1.sub hp1'
  have hlt : ∀ᶠ n in atTop, ft n - fp n < 1 - p / 2 := hr.eventually_lt_const (by linarith)
  have hgt : ∀ᶠ n in atTop, -(1 - p / 2) < ft n - fp n := hr.eventually_const_lt (by linarith)
  rw [chanceLimit_iff]
  refine ⟨fun n => fq n * ((1 - (ft n - fp n) ^ n) / (1 - (ft n - fp n))), ?_, ?_⟩
  · have h0 : Tendsto (fun n => (ft n - fp n) ^ n) atTop (𝓝 0) := by
      have hb : Tendsto (fun n : Nat => (1 - p / 2) ^ n) atTop (𝓝 0) :=
        tendsto_pow_atTop_nhds_zero_of_lt_one (by linarith) (by linarith)
      have hb' := hb.neg
      rw [neg_zero] at hb'
      have hle : ∀ᶠ n in atTop, |(ft n - fp n) ^ n| ≤ (1 - p / 2) ^ n := by
        filter_upwards [hlt, hgt] with n h1 h2
        rw [abs_pow]
        exact pow_le_pow_left₀ (abs_nonneg _) (abs_le.2 ⟨h2.le, h1.le⟩) n
      refine tendsto_of_tendsto_of_tendsto_of_le_of_le' hb' hb ?_ ?_
      · filter_upwards [hle] with n h
        exact (abs_le.1 h).1
      · filter_upwards [hle] with n h
        exact (abs_le.1 h).2
    have h1 := hq1.mul ((h0.const_sub 1).div (hr.const_sub 1) (by linarith))
    have e : q * ((1 - 0) / (1 - (1 - p))) = q / p := by
      rw [sub_zero, sub_sub_cancel]
      ring
    rwa [e] at h1
  · filter_upwards [ht2, hp2, hq2, hlt] with n h1 h2 h3 h4
    exact chance_filter_rounds h1 h2 h3 (by linarith) n

/-- The generator `oneOf(elementOf(1, 2), elementOf(3, 4, 5, 6))`. -/
def sixNumbers : Nat → Src (Shr Nat) :=
  oneOfNested [(elementOfCall ([1, 2].map fun v : Nat => (v, .fin 0)), .fin 0),
    (elementOfCall ([3, 4, 5, 6].map fun v : Nat => (v, .fin 0)), .fin 0)]

theorem sixNumbers_chance (E : Nat → Bool) :
    ChanceLimit sixNumbers (fun t => E t.value) (([1, 2].countP E / 2 + [3, 4, 5, 6].countP E / 4) / 2) := by
  have := C140_nested_even
    [(elementOfCall ([1, 2].map fun v : Nat => (v, .fin 0)), .fin 0),
      (elementOfCall ([3, 4, 5, 6].map fun v : Nat => (v, .fin 0)), .fin 0)] (by simp) (by simp) (by simp)
    (by
      intro a ha n
      simp only [List.mem_cons, List.not_mem_nil, or_false] at ha
      rcases ha with rfl | rfl
      · exact elementOfCall_noDiscard _ n
      · exact elementOfCall_noDiscard _ n) (fun t => E t.value) _
    (.cons (C140_elementOf_even [1, 2] (by simp) (by simp) E)
      (.cons (C140_elementOf_even [3, 4, 5, 6] (by simp) (by simp) E) .nil))
  refine cast (congrArg (fun x => ChanceLimit _ _ x) ?_) this
  simp

/-- `oneOf(elementOf(1, 2), elementOf(3, 4, 5, 6))` filtered to even numbers: 2 in half of the cases, 4 in a quarter.
Filtered again to numbers below 5: 2 in two thirds. -/
example :
    ChanceLimit (fun m σ R s => Comb.filter (sixNumbers m σ R) (fun v => v % 2 = 0) m s) (fun t => t.value = 2) (1 / 2) ∧
    ChanceLimit (fun m σ R s => Comb.filter (sixNumbers m σ R) (fun v => v % 2 = 0) m s) (fun t => t.value = 4) (1 / 4) ∧
    ChanceLimit (fun m σ R s => Comb.filter (Comb.filter (sixNumbers m σ R) (fun v => v % 2 = 0) m) (fun v => v < 5) m s)
      (fun t => t.value = 2) (2 / 3) := by
  have key := fun (E : Nat → Bool) => C142_nested_filter sixNumbers (fun v => v % 2 = 0) E _ _
    (by simpa using sixNumbers_chance fun _ => true) (sixNumbers_chance fun v => v % 2 = 0)
    (sixNumbers_chance fun v => E v && v % 2 = 0) (by norm_num [List.countP_cons])
  have a := key fun v => decide (v = 2)
  have b := key fun v => decide (v = 4)
  have c := C142_nested_filter (fun m σ R s => Comb.filter (sixNumbers m σ R) (fun v => v % 2 = 0) m s) (fun v => v < 5)
    (fun v => v = 2) _ _ (by have := key fun _ => true; norm_num [List.countP_cons] at this ⊢; exact this)
    (key fun v => decide (v < 5)) (key fun v => decide (v = 2) && decide (v < 5)) (by norm_num [List.countP_cons])
  norm_num [List.countP_cons] at a b c ⊢
  exact ⟨a, b, c⟩

/-- C142. `transform` and `map` carry probabilities over, also those of generators with loops. -/
theorem C142_nested_transform (g : Nat → Src (Shr α)) (f : α → β) (E : β → Bool) (p : ℚ)
    (hg : ChanceLimit g (fun t => E (f t.value)) p) :
    ChanceLimit (fun m σ R s => transform (g m σ R) f s) (fun t => E t.value) p := by
  intro ε hε
  obtain ⟨N, hN⟩ := hg ε hε
  refine ⟨N, fun n hn => ?_⟩
  obtain ⟨q, hq, hd⟩ := hN n hn
  exact ⟨q, C142_transform (g n) f E q hq, hd⟩

/-- The parity of such a number: even in half of the cases. -/
example : ChanceLimit (fun m σ R s => transform (sixNumbers m σ R) (fun v => decide (v % 2 = 0)) s) (fun t => t.value) (1 / 2) := by
  have := C142_nested_transform sixNumbers (fun v => decide (v % 2 = 0)) id _ (sixNumbers_chance fun v => decide (v % 2 = 0))
  norm_num [List.countP_cons] at this ⊢
  exact this

end Verif
