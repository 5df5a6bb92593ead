import Verif.Props.ChanceFilterLimit
import Mathlib.Topology.Algebra.Monoid
/-
C141: containers, pairs and tuples of values of generators that have loops (an `oneOf`, a filter, a set).
-/
namespace Verif
open Shr Random ListLike Containers Comb PairTuple Integral IntType Filter Topology
variable {α β : Type}

/-- Probabilities of several events, from some number of rounds on, and their product. -/
theorem limits_of_events {g : Nat → Src (Shr α)} {Es : List (α → Bool)} {ps : List ℚ}
    (hp : List.Forall₂ (fun E p => ChanceLimit g (fun t => E t.value) p) Es ps) :
    ∃ f : Nat → List ℚ, (∀ᶠ n in atTop, List.Forall₂ (fun E p => Chance (g n) (fun t => E t.value) p) Es (f n)) ∧
      Tendsto (fun n => (f n).prod) atTop (𝓝 ps.prod) := by
  induction hp with
  | nil => exact ⟨fun _ => [], .of_forall fun _ => .nil, tendsto_const_nhds⟩
  | @cons E p Es ps h _ ih =>
    obtain ⟨q, hq1, hq2⟩ := chanceLimit_iff.1 h
    obtain ⟨f, hf1, hf2⟩ := ih
    refine ⟨fun n => q n :: f n, ?_, ?_⟩
    · filter_upwards [hq2, hf1] with n h1 h2
      exact .cons h1 h2
    · simp only [List.prod_cons]
      exact hq1.mul hf2

/-- C141. Vectors, lists and strings whose elements come from a generator with loops: all permitted sizes are equally
likely and the elements are independent of the size and of each other. -/
theorem C141_nested_containers (g : Nat → Src (Shr α)) (minSize maxSize : Nat) (hmax : maxSize < 2 ^ 32)
    (Es : List (α → Bool)) (ps : List ℚ) (h1 : minSize ≤ Es.length) (h2 : Es.length ≤ maxSize)
    (hg : ChanceLimit g (fun _ => true) 1)
    (hp : List.Forall₂ (fun E p => ChanceLimit g (fun t => E t.value) p) Es ps) :
    ChanceLimit (fun n σ R s => arbiVector R (g n σ R) minSize maxSize s) (fun t => fits Es t.value)
      (ps.prod / (maxSize - minSize + 1)) ∧
    ChanceLimit (fun n σ R s => arbiString R (g n σ R) minSize maxSize s) (fun t => fits Es t.value)
      (ps.prod / (maxSize - minSize + 1)) := by
  obtain ⟨f, hf1, hf2⟩ := limits_of_events hp
  obtain ⟨_, -, ht⟩ := chanceLimit_iff.1 hg
  constructor
  · refine chanceLimit_iff.2 ⟨_, hf2.div_const _, ?_⟩
    filter_upwards [hf1, ht] with n h3 h4
    exact C141_vector (g n) minSize maxSize hmax Es (f n) h1 h2 ⟨_, _, h4⟩ h3
  · refine chanceLimit_iff.2 ⟨_, hf2.div_const _, ?_⟩
    filter_upwards [hf1, ht] with n h3 h4
    exact C141_string (g n) minSize maxSize hmax Es (f n) h1 h2 ⟨_, _, h4⟩ h3

/-- C141. The components of a pair are independent in whichever order they are drawn, also if the generators have
loops. -/
theorem C141_nested_pair (firstFirst : Bool) (g : Nat → Src (Shr α)) (h : Nat → Src (Shr β)) (E : α → Bool) (F : β → Bool)
    (p q : ℚ) (hg : ChanceLimit g (fun t => E t.value) p) (hh : ChanceLimit h (fun t => F t.value) q) :
    ChanceLimit (fun n σ R s => pairOf firstFirst (g n σ R) (h n σ R) s) (fun t => E t.value.1 && F t.value.2) (p * q) := by
  obtain ⟨a, ha1, ha2⟩ := chanceLimit_iff.1 hg
  obtain ⟨b, hb1, hb2⟩ := chanceLimit_iff.1 hh
  refine chanceLimit_iff.2 ⟨_, ha1.mul hb1, ?_⟩
  filter_upwards [ha2, hb2] with n h1 h2
  exact C141_pair firstFirst (g n) (h n) E F _ _ h1 h2

/-- C141. The components of a tuple are independent in whichever order they are drawn, also if the generators have
loops. -/
theorem C141_nested_tuple {n : Nat} {A : Fin n → Type} (order : List (Fin n)) (hnd : order.Nodup) (hall : ∀ i, i ∈ order)
    (gens : (i : Fin n) → Nat → Src (Shr (A i))) (E : (i : Fin n) → A i → Bool) (p : Fin n → ℚ)
    (hp : ∀ i, ChanceLimit (gens i) (fun t => E i t.value) (p i)) :
    ChanceLimit (fun m σ R s => tupleOf order (fun i => gens i m σ R) s)
      (fun t => decide (∀ i, E i (t.value i) = true)) (∏ i, p i) := by
  have hp' := fun i => chanceLimit_iff.1 (hp i)
  choose a ha1 ha2 using hp'
  refine chanceLimit_iff.2 ⟨fun m => ∏ i, a i m, tendsto_finset_prod _ fun i _ => ha1 i, ?_⟩
  filter_upwards [eventually_all.2 ha2] with m h
  exact C141_tuple order hnd hall (fun i => gens i m) E (fun i => a i m) h

/-- Vectors of at most 3 of the numbers of `oneOf(elementOf(1, 2), elementOf(3, 4, 5, 6))`: {1, 6} has the probability
1/4 · 1/4 · 1/8. A pair of a such a number and of an even such number is (1, 2) with the probability 1/4 · 1/2. -/
example :
    ChanceLimit (fun n σ R s => arbiVector R (sixNumbers n σ R) 0 3 s)
      (fun t => fits [fun v => v = 1, fun v => v = 6] t.value) (1 / 128) ∧
    ChanceLimit (fun n σ R s => pairOf false (sixNumbers n σ R) (fun s => Comb.filter (sixNumbers n σ R) (fun v => v % 2 = 0) n s) s)
      (fun t => decide (t.value.1 = 1) && decide (t.value.2 = 2)) (1 / 8) := by
  have a := (C141_nested_containers sixNumbers 0 3 (by norm_num) [fun v => v = 1, fun v => v = 6] _ (by simp) (by simp)
    (by simpa using sixNumbers_chance fun _ => true)
    (.cons (sixNumbers_chance fun v => v = 1) (.cons (sixNumbers_chance fun v => v = 6) .nil))).1
  have b := C142_nested_filter sixNumbers (fun v => v % 2 = 0) (fun v => v = 2) _ _
    (by simpa using sixNumbers_chance fun _ => true) (sixNumbers_chance fun v => v % 2 = 0)
    (sixNumbers_chance fun v => decide (v = 2) && v % 2 = 0) (by norm_num [List.countP_cons])
  have c := C141_nested_pair false sixNumbers _ (fun v => decide (v = 1)) (fun v => decide (v = 2)) _ _
    (sixNumbers_chance fun v => v = 1) b
  norm_num [List.countP_cons] at a c ⊢
  exact ⟨a, c⟩

/-- Three such numbers, drawn last to first: three times 1 in 1 of 64 cases. -/
example : ChanceLimit (fun m σ R s => tupleOf (A := fun _ : Fin 3 => Nat) [2, 1, 0] (fun _ => sixNumbers m σ R) s)
    (fun t => decide (∀ i, decide (t.value i = 1) = true)) (1 / 64) := by
  have := C141_nested_tuple (A := fun _ : Fin 3 => Nat) [2, 1, 0] (by decide) (by decide) (fun _ => sixNumbers)
    (fun _ v => decide (v = 1)) _ (fun _ => sixNumbers_chance fun v => v = 1)
  norm_num [List.countP_cons] at this ⊢
  exact this

end Verif
