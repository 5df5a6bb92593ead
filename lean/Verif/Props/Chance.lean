import Verif.Lemmas.ChanceGen
/-
C138-C140: how likely the results of generators are, for draws that are independent and uniform (Spec/Chance.lean).
-/
namespace Verif
open Shr Random Integral IntType Comb
variable {α β : Type}

/-! ### C138 -/

/-- C138. `interval(min, max)`, other than for a whole type: the probability of a set of numbers is the part of
[min,max] that it covers. -/
theorem C138_interval (T : IntType) (hT : T ∈ all) (min max : Int) (h1 : T.lo ≤ min) (h2 : min ≤ max) (h3 : max ≤ T.hi)
    (hp : ¬ (min = T.lo ∧ max = T.hi)) (E : Int → Bool) :
    Chance (fun _ R s => interval R T min max s) (fun t => E t.value)
      (((Finset.Icc min max).filter fun v => E v).card / (max - min + 1)) := by
  refine ⟨_, follows_part hT h1 h2 h3 hp, ?_⟩
  rw [Exp.mean, ← sum_hit]
  congr 1
  refine Finset.sum_congr rfl fun v hv => ?_
  have hv := Finset.mem_Icc.1 hv
  obtain ⟨t, e, ht⟩ := shrinkableOf_value hT h1 hv.1 hv.2 h3
  rw [Exp.mean, e]
  simp only [hit, ht]

theorem filter_single {a b v : Int} (h1 : a ≤ v) (h2 : v ≤ b) :
    ((Finset.Icc a b).filter fun w => decide (w = v)).card = 1 := by
  have : (Finset.Icc a b).filter (fun w => decide (w = v)) = {v} := by
    ext w
    simp
    omega
  rw [this, Finset.card_singleton]

/-- C138. All numbers of the range of `interval`, `inRange`, `integers`, `natural` and `nonNegative` are equally
likely: a range of `n` numbers that is not the whole type yields each of them with probability exactly `1/n`. -/
theorem C138_equally_likely (T : IntType) (hT : T ∈ all) (min max v : Int) (h1 : T.lo ≤ min) (h2 : min ≤ v)
    (h3 : v ≤ max) (h4 : max ≤ T.hi) (hp : ¬ (min = T.lo ∧ max = T.hi)) :
    Chance (fun _ R s => interval R T min max s) (fun t => t.value = v) (1 / (max - min + 1)) ∧
    (max + 1 ≤ T.hi → Chance (fun _ R s => inRange R T min (max + 1) s) (fun t => t.value = v) (1 / (max - min + 1))) ∧
    (max + 1 ≤ T.hi → Chance (fun _ R s => integers R T min (max - min + 1) s) (fun t => t.value = v)
      (1 / (max - min + 1))) ∧
    (min = 1 → Chance (fun _ R s => natural R T max s) (fun t => t.value = v) (1 / max)) ∧
    (min = 0 → Chance (fun _ R s => nonNegative R T max s) (fun t => t.value = v) (1 / (max + 1))) := by
  have key := C138_interval T hT min max h1 (by omega) h4 hp fun w => decide (w = v)
  rw [filter_single h2 h3, Nat.cast_one] at key
  refine ⟨key, fun h => ?_, fun h => ?_, fun h => ?_, fun h => ?_⟩
  · obtain ⟨e, he, hm⟩ := key
    refine ⟨e, he.congr fun σ R s => ?_, hm⟩
    have ha : T.arith (max + 1 - 1) = .ok max := by
      rw [show max + 1 - 1 = max by omega]; exact arith_ok hT (by omega) h4
    simp only [inRange, ha, Outcome.ok_bind, wrap_id hT (by omega : T.lo ≤ max) h4]
    rfl
  · obtain ⟨e, he, hm⟩ := key
    refine ⟨e, he.congr fun σ R s => ?_, hm⟩
    have ha : T.arith (min + (max - min + 1)) = .ok (max + 1) := by
      rw [show min + (max - min + 1) = max + 1 by omega]; exact arith_ok hT (by omega) h
    have hb : T.arith (max + 1 - 1) = .ok max := by
      rw [show max + 1 - 1 = max by omega]; exact arith_ok hT (by omega) h4
    simp only [integers, ha, hb, Outcome.ok_bind, wrap_id hT (by omega : T.lo ≤ max) h4]
    rfl
  · subst h
    have : (max : ℚ) - (1 : ℤ) + 1 = max := by push_cast; ring
    rw [this] at key
    exact key
  · subst h
    have : (max : ℚ) - (0 : ℤ) + 1 = max + 1 := by push_cast; ring
    rw [this] at key
    exact key

/-- A die: every face has probability 1/6, an even number comes up in half of the throws. -/
example : Chance (fun _ R s => interval R i32 1 6 s) (fun t => t.value = 4) (1 / 6) ∧
    Chance (fun _ R s => interval R i32 1 6 s) (fun t => t.value % 2 = 0) (1 / 2) := by
  constructor
  · have := (C138_equally_likely i32 (by decide) 1 6 4 (by decide) (by decide) (by decide) (by decide) (by decide)).1
    norm_num at this ⊢
    exact this
  · have := C138_interval i32 (by decide) 1 6 (by decide) (by decide) (by decide) (by decide) fun v => decide (v % 2 = 0)
    have hc : ((Finset.Icc (1 : Int) 6).filter fun v => decide (v % 2 = 0)).card = 3 := by decide
    rw [hc] at this
    norm_num at this ⊢
    exact this

example : Chance (fun _ R s => natural R u8 100 s) (fun t => t.value = 100) (1 / 100) := by
  have := (C138_equally_likely u8 (by decide) 1 100 100 (by decide) (by decide) (by decide) (by decide) (by decide)).2.2.2.1 rfl
  norm_num at this ⊢
  exact this

theorem sum_count (l : List Int) (E : Int → Bool) : (l.map fun v => if E v then (1 : ℚ) else 0).sum = l.countP E := by
  induction l with
  | nil => rfl
  | cons x xs ih =>
    rw [List.map_cons, List.sum_cons, ih, List.countP_cons]
    split_ifs <;> push_cast <;> ring

theorem range_size {T : IntType} (hT : T ∈ all) : (T.hi : ℚ) - T.lo + 1 = 2 ^ T.bits := by
  have : T.hi - T.lo + 1 = 2 ^ T.bits := by
    simp only [all, List.mem_cons, List.not_mem_nil, or_false] at hT
    rcases hT with rfl | rfl | rfl | rfl | rfl | rfl | rfl | rfl <;> decide
  exact_mod_cast this

/-- C138. A whole type, `Arbi<T>`: in `2^63 + 1` of `2^64` cases one of the special values of the type, chosen
evenly from the table, in the others any number of the type, all equally likely. -/
theorem C138_whole_type (T : IntType) (hT : T ∈ all) (E : Int → Bool) :
    Chance (fun _ R s => arbiInt R T s) (fun t => E t.value)
      ((2 ^ 63 + 1) / 2 ^ 64 * ((boundaryValues T).countP E / (boundaryValues T).length) +
        (2 ^ 63 - 1) / 2 ^ 64 * (((Finset.Icc T.lo T.hi).filter fun v => E v).card / 2 ^ T.bits)) := by
  have hle : T.lo ≤ T.hi := by
    simp only [all, List.mem_cons, List.not_mem_nil, or_false] at hT
    rcases hT with rfl | rfl | rfl | rfl | rfl | rfl | rfl | rfl <;> decide
  have htab : ∀ v ∈ boundaryValues T, T.lo ≤ v ∧ v ≤ T.hi := by
    simp only [all, List.mem_cons, List.not_mem_nil, or_false] at hT
    rcases hT with rfl | rfl | rfl | rfl | rfl | rfl | rfl | rfl <;> decide
  refine ⟨_, follows_whole hT, ?_⟩
  rw [Exp.mean]
  have hS : ∀ v, T.lo ≤ v → v ≤ T.hi → Exp.mean (hit fun t : Shr Int => E t.value) (.ret (shrinkableOf T T.lo T.hi v)) =
      if E v then 1 else 0 := by
    intro v h1 h2
    obtain ⟨t, e, ht⟩ := shrinkableOf_value hT le_rfl h1 h2 le_rfl
    rw [Exp.mean, e]
    simp only [hit, ht]
  have hx : Exp.mean (hit fun t : Shr Int => E t.value) (.draw 0 ((boundaryValues T).length - 1) fun i =>
      match (boundaryValues T)[i.toNat]? with
      | some v => .ret (shrinkableOf T T.lo T.hi v)
      | none => .ret .ub) = (boundaryValues T).countP E / (boundaryValues T).length := by
    have e1 := sum_Icc_get (boundaryValues T) fun o => Exp.mean (hit fun t : Shr Int => E t.value) (match o with
      | some v => .ret (shrinkableOf T T.lo T.hi v)
      | none => .ret .ub)
    simp only at e1
    rw [Exp.mean, e1, List.map_congr_left (g := fun v => if E v then 1 else 0) fun v hv => hS v (htab v hv).1 (htab v hv).2,
      sum_count]
    congr 1
    push_cast
    ring
  have hy : Exp.mean (hit fun t : Shr Int => E t.value) (.draw T.lo T.hi fun v => .ret (shrinkableOf T T.lo T.hi v)) =
      ((Finset.Icc T.lo T.hi).filter fun v => E v).card / 2 ^ T.bits := by
    rw [Exp.mean, range_size hT, ← sum_hit]
    congr 1
    refine Finset.sum_congr rfl fun v hv => ?_
    have hv := Finset.mem_Icc.1 hv
    exact hS v hv.1 hv.2
  rw [Finset.sum_congr rfl (g := fun w : Int => if w ≤ 2 ^ 63 then
      ((boundaryValues T).countP E / (boundaryValues T).length : ℚ)
      else ((Finset.Icc T.lo T.hi).filter fun v => E v).card / 2 ^ T.bits)]
  · rw [Exp.mean_draw_le (by norm_num) (by norm_num)]
    push_cast
    ring
  · intro w _
    split_ifs
    · exact hx
    · exact hy

/-- C138. No number of the type is out of reach: each comes up with at least about half of the probability it would
have if all were equally likely; a number that is not in the table of special values with exactly that
probability. -/
theorem C138_every_value (T : IntType) (hT : T ∈ all) (v : Int) (h1 : T.lo ≤ v) (h2 : v ≤ T.hi) :
    ∃ p, Chance (fun _ R s => arbiInt R T s) (fun t => t.value = v) p ∧
      (2 ^ 63 - 1) / 2 ^ 64 * (1 / 2 ^ T.bits) ≤ p ∧
      (v ∉ boundaryValues T → p = (2 ^ 63 - 1) / 2 ^ 64 * (1 / 2 ^ T.bits)) ∧
      (v ∈ boundaryValues T → 1 / (2 * (boundaryValues T).length) < p) := by
  have key := C138_whole_type T hT fun w => decide (w = v)
  rw [filter_single h1 h2, Nat.cast_one] at key
  have hlen : 0 < ((boundaryValues T).length : ℚ) := by
    have : 0 < (boundaryValues T).length := by
      simp only [all, List.mem_cons, List.not_mem_nil, or_false] at hT
      rcases hT with rfl | rfl | rfl | rfl | rfl | rfl | rfl | rfl <;> decide
    exact_mod_cast this
  refine ⟨_, key, ?_, fun h => ?_, fun h => ?_⟩
  · have : (0 : ℚ) ≤ (2 ^ 63 + 1) / 2 ^ 64 * ((boundaryValues T).countP (fun w => decide (w = v)) / (boundaryValues T).length) := by
      positivity
    linarith
  · have : (boundaryValues T).countP (fun w => decide (w = v)) = 0 := by
      rw [List.countP_eq_zero]
      intro w hw
      simp only [decide_eq_true_eq]
      rintro rfl
      exact h hw
    rw [this]
    simp
  · have hc : 1 ≤ (boundaryValues T).countP (fun w => decide (w = v)) := by
      rw [Nat.one_le_iff_ne_zero]
      intro h0
      have := List.countP_eq_zero.1 h0 v h
      simp at this
    have hc' : (1 : ℚ) ≤ (boundaryValues T).countP (fun w => decide (w = v)) := by exact_mod_cast hc
    have hpos : (0 : ℚ) < (2 ^ 63 - 1) / 2 ^ 64 * (1 / 2 ^ T.bits) := by
      have : (0 : ℚ) < (2 ^ 63 - 1) / 2 ^ 64 := by norm_num
      positivity
    have h3 : 1 / (boundaryValues T).length ≤
        ((boundaryValues T).countP (fun w => decide (w = v)) / (boundaryValues T).length : ℚ) :=
      div_le_div_of_nonneg_right hc' hlen.le
    have h4 : (1 : ℚ) / (2 * (boundaryValues T).length) = 1 / 2 * (1 / (boundaryValues T).length) := by
      field_simp
    have h5 : (0 : ℚ) < 1 / (boundaryValues T).length := by positivity
    have h6 : (1 : ℚ) / 2 * (1 / (boundaryValues T).length) ≤ (2 ^ 63 + 1) / 2 ^ 64 * (1 / (boundaryValues T).length) :=
      mul_le_mul_of_nonneg_right (by norm_num) h5.le
    have h7 := mul_le_mul_of_nonneg_left h3 (show (0 : ℚ) ≤ (2 ^ 63 + 1) / 2 ^ 64 by norm_num)
    linarith

/-- `Arbi<int8_t>` yields 127 more than eight times as often as 50. -/
example : ∃ p q, Chance (fun _ R s => arbiInt R i8 s) (fun t => t.value = 127) p ∧
    Chance (fun _ R s => arbiInt R i8 s) (fun t => t.value = 50) q ∧ 8 * q < p := by
  obtain ⟨p, hp, -, -, h1⟩ := C138_every_value i8 (by decide) 127 (by decide) (by decide)
  obtain ⟨q, hq, -, h2, -⟩ := C138_every_value i8 (by decide) 50 (by decide) (by decide)
  refine ⟨p, q, hp, hq, ?_⟩
  have h1 := h1 (by decide)
  rw [h2 (by decide)]
  have : (boundaryValues i8).length = 15 := by decide
  rw [this] at h1
  norm_num [i8] at h1 ⊢
  linarith

/-! ### C139 -/

theorem chance_true (k : Nat) (hk : k < 2 ^ 64) :
    Chance (fun _ R s => arbiBool R (some k) s) (fun t => t.value = true) ((k + 1) / 2 ^ 64) := by
  refine ⟨_, follows_bool k, ?_⟩
  rw [Exp.mean, Finset.sum_congr rfl (g := fun w : Int => if w ≤ k then (1 : ℚ) else 0)]
  · rw [Exp.mean_draw_le (by omega) (by omega)]
    push_cast
    ring
  · intro w _
    by_cases hw : w ≤ k <;> simp [Exp.mean, hit, hw, shrinkBool]

/-- C139. `Arbi<bool>(p)`, for 0 ≤ p < 1: `true` has a probability that exceeds `p` by at most 2^-64 (it is
`⌊p·2^64⌋ + 1` of `2^64`). For 1 it always returns `true`. Missing: `p` itself, see `C139_violated`. -/
theorem C139_bool_partial (p : ℚ) (h0 : 0 ≤ p) (h1 : p < 1) :
    ∃ k q, threshold (.fin p) = .ok (some k) ∧ Chance (fun _ R s => arbiBool R (some k) s) (fun t => t.value = true) q ∧
      Chance (fun _ R s => arbiBool R (some k) s) (fun t => t.value = false) (1 - q) ∧ p < q ∧ q ≤ p + 1 / 2 ^ 64 := by
  have h2 : ¬ (p ≤ -1 / 2 ^ 64 ∨ 1 < p) := by
    rintro (h | h)
    · have : (-1 : ℚ) / 2 ^ 64 < 0 := by norm_num
      linarith
    · linarith
  have h3 : (0 : ℤ) ≤ ⌊p * 2 ^ 64⌋ := Int.floor_nonneg.2 (by positivity)
  have h4 : ⌊p * 2 ^ 64⌋ < (2 : ℤ) ^ 64 := Int.floor_lt.2 (by push_cast; linarith)
  have h5 := Int.lt_floor_add_one (p * 2 ^ 64)
  have h6 := Int.floor_le (p * 2 ^ 64)
  refine ⟨⌊p * 2 ^ 64⌋.toNat, (⌊p * 2 ^ 64⌋ + 1) / 2 ^ 64, ?_, ⟨_, follows_bool _, ?_⟩, ⟨_, follows_bool _, ?_⟩, ?_, ?_⟩
  · rw [threshold, if_neg h1.ne, if_neg h2]
  · rw [Exp.mean, Int.toNat_of_nonneg h3]
    rw [Finset.sum_congr rfl (g := fun w : Int => if w ≤ ⌊p * 2 ^ 64⌋ then (1 : ℚ) else 0)]
    · rw [Exp.mean_draw_le (by omega) (by omega)]
      push_cast
      ring
    · intro w _
      by_cases hw : w ≤ ⌊p * 2 ^ 64⌋ <;> simp [Exp.mean, hit, hw, shrinkBool]
  · rw [Exp.mean, Int.toNat_of_nonneg h3]
    rw [Finset.sum_congr rfl (g := fun w : Int => if w ≤ ⌊p * 2 ^ 64⌋ then (0 : ℚ) else 1)]
    · rw [Exp.mean_draw_le (by omega) (by omega)]
      push_cast
      ring
    · intro w _
      by_cases hw : w ≤ ⌊p * 2 ^ 64⌋ <;> simp [Exp.mean, hit, hw, shrinkBool]
  · rw [lt_div_iff₀ (by norm_num)]; exact h5
  · rw [div_le_iff₀ (by norm_num), add_mul]
    norm_num at h6 ⊢
    linarith

/-- C139. Probability 1. -/
theorem C139_bool_one : threshold (.fin 1) = .ok none ∧
    Chance (fun _ R s => arbiBool R none s) (fun t => t.value = true) 1 :=
  ⟨rfl, .ret (.ok (shrinkBool true)), ⟨trivial, fun _ _ _ => rfl⟩, rfl⟩

/-- C139 is violated, if only by 2^-64: a fair coin is not quite fair, and `true` has a positive probability
although 0 was asked for. -/
theorem C139_violated : Chance (fun _ R s => arbiBool R half s) (fun t => t.value = true) (1 / 2 + 1 / 2 ^ 64) ∧
    threshold (.fin 0) = .ok (some 0) ∧
    Chance (fun _ R s => arbiBool R (some 0) s) (fun t => t.value = true) (1 / 2 ^ 64) := by
  refine ⟨?_, by decide +kernel, ?_⟩
  · have := chance_true (2 ^ 63) (by norm_num)
    norm_num at this ⊢
    exact this
  · have := chance_true 0 (by norm_num)
    norm_num at this ⊢
    exact this

/-- A coin that shows `true` in three of four cases. -/
example : ∃ k q, threshold (.fin (3 / 4)) = .ok (some k) ∧
    Chance (fun _ R s => arbiBool R (some k) s) (fun t => t.value = true) q ∧ |q - 3 / 4| ≤ 1 / 2 ^ 64 := by
  obtain ⟨k, q, h1, h2, -, h3, h4⟩ := C139_bool_partial (3 / 4) (by norm_num) (by norm_num)
  exact ⟨k, q, h1, h2, by rw [abs_le]; constructor <;> linarith⟩

end Verif
