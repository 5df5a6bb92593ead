import Verif.Lemmas.Integral
/-
C17-C22, C75-C77: integer and bool generators. `R : Rng σ` is any random engine, `s` any engine state.
-/
namespace Verif
open Shr BinSearch Random Integral IntType
variable {σ : Type}

/-- `z` is the point of `[min, max]` nearest to zero. -/
def Nearest0 (min max z : Int) : Prop :=
  min ≤ z ∧ z ≤ max ∧ ∀ y, min ≤ y → y ≤ max → z.natAbs ≤ y.natAbs

/-- What a user expects from a generator of numbers of `[min, max]`: the value, everything reachable by
shrinking is in the range, every step moves strictly closer to the point nearest to zero, and that point
is reachable. -/
def GoodInt (min max : Int) (t : Shr Int) : Prop :=
  (∀ w, Reach t w → min ≤ w ∧ w ≤ max) ∧
  ∀ z, Nearest0 min max z →
    (∀ u c, Desc t u → c ∈ u.shrinks → (c.value - z).natAbs < (u.value - z).natAbs) ∧
    (∀ w, Reach t w ↔ (z ≤ w ∧ w ≤ t.value) ∨ (t.value ≤ w ∧ w ≤ z))

theorem nearest0_unique {min max z : Int} (h : Nearest0 min max z) : z = near0 min max := by
  obtain ⟨h1, h2, h3⟩ := h
  unfold near0
  split
  · have := h3 min (by omega) (by omega); omega
  · split
    · have := h3 max (by omega) (by omega); omega
    · have := h3 0 (by omega) (by omega); omega

theorem good_of_eq {min max v : Int} {t : Shr Int} (h2 : min ≤ v) (h3 : v ≤ max)
    (h : (near0 min max ≤ v ∧ t = (bsNat (v - near0 min max).natAbs).map
        (fun x : Nat => near0 min max + (x : Int))) ∨
      (v ≤ near0 min max ∧ t = (bsNat (v - near0 min max).natAbs).map
        (fun x : Nat => near0 min max - (x : Int)))) : t.value = v ∧ GoodInt min max t := by
  have hr : ∀ w, Reach t w ↔
      (near0 min max ≤ w ∧ w ≤ v) ∨ (v ≤ w ∧ w ≤ near0 min max) := by
    intro w
    rcases h with ⟨hle, rfl⟩ | ⟨hle, rfl⟩
    all_goals
      rw [reach_map]
      constructor
      · rintro ⟨x, hx, rfl⟩
        have := (bsNat_reach _ x).mp hx
        omega
      · intro hw
        refine ⟨(w - near0 min max).natAbs, (bsNat_reach _ _).mpr (by omega), by omega⟩
  have hv : t.value = v := by
    rcases h with ⟨hle, rfl⟩ | ⟨hle, rfl⟩
    all_goals simp [bsNat_value]; omega
  have hn : min ≤ near0 min max ∧ near0 min max ≤ max := by
    unfold near0; split
    · omega
    · split <;> omega
  refine ⟨hv, fun w hw => by rw [hr] at hw; omega, fun z hz => ?_⟩
  have hz := nearest0_unique hz
  subst hz
  refine ⟨fun u c hu hc => ?_, fun w => by rw [hr, hv]⟩
  rcases h with ⟨hle, rfl⟩ | ⟨hle, rfl⟩
  all_goals
    obtain ⟨u', hu', rfl⟩ := desc_map.mp hu
    simp only [shrinks_map, List.mem_map] at hc
    obtain ⟨c', hc', rfl⟩ := hc
    have := (bsNat_desc _ hu').2 c' hc'
    simp only [value_map]
    omega

theorem generateInteger_good (R : Rng σ) {T : IntType} (hT : T ∈ all) {min max : Int} (s : σ)
    (h1 : T.lo ≤ min) (h2 : min ≤ max) (h3 : max ≤ T.hi) :
    ∃ t s', generateInteger R T min max s = .ok (t, s') ∧ GoodInt min max t := by
  obtain ⟨v, s', e, hv1, hv2⟩ := drawValue_ok R hT (boundary_mem hT) (boundary_length hT) s h1 h2 h3
  have hs := shrinkableOf_eq hT h1 hv1 hv2 h3
  have : ∃ t, shrinkableOf T min max v = .ok t := by
    rcases hs with ⟨_, h⟩ | ⟨_, h⟩ <;> exact ⟨_, h⟩
  obtain ⟨t, ht⟩ := this
  refine ⟨t, s', ?_, (good_of_eq hv1 hv2 ?_).2⟩
  · unfold generateInteger; rw [e, Outcome.ok_bind]; simp only [ht]; rfl
  · rcases hs with ⟨hle, h⟩ | ⟨hle, h⟩
    · rw [h] at ht; cases ht; exact .inl ⟨hle, rfl⟩
    · rw [h] at ht; cases ht; exact .inr ⟨hle, rfl⟩

/-! ### C17 -/

/-- C17. `interval<T>(min, max)` with a non-empty range of the type always succeeds with a good shrinkable
(see `GoodInt`). -/
theorem C17_interval (R : Rng σ) (T : IntType) (hT : T ∈ all) (min max : Int) (s : σ)
    (h1 : T.lo ≤ min) (h2 : min ≤ max) (h3 : max ≤ T.hi) :
    ∃ t s', interval R T min max s = .ok (t, s') ∧ GoodInt min max t :=
  generateInteger_good R hT s h1 h2 h3

/-- C17. No value of the range is excluded: for each there is a sequence of draws producing it. -/
theorem C17_every_value_possible (T : IntType) (hT : T ∈ all) (min max v : Int)
    (h1 : T.lo ≤ min) (h2 : min ≤ v) (h3 : v ≤ max) (h4 : max ≤ T.hi) :
    ∃ s t s', interval script T min max s = .ok (t, s') ∧ t.value = v := by
  have hr : ∀ r, getRandomT script T min max (v :: r) = .ok (v, r) := by
    intro r
    unfold getRandomT uniform
    rw [wrap_id hT h1 (by omega), wrap_id hT (by omega) h4, if_pos (by omega)]
    simp [script, h2, h3, wrap_id hT (x := v) (by omega) (by omega)]
  have hd : ∃ s, drawValue script T (boundaryValues T) (getRandomT script T) min max s = .ok (v, []) := by
    by_cases hf : min = T.lo ∧ max = T.hi
    · refine ⟨[2^64 - 1, v], ?_⟩
      unfold drawValue
      rw [if_pos hf]
      have e1 : getRandomBool script half [2^64 - 1, v] = (false, [v]) := rfl
      rw [e1]
      exact hr []
    · refine ⟨[v], ?_⟩
      unfold drawValue
      rw [if_neg hf]
      exact hr []
  obtain ⟨s, hd⟩ := hd
  have hs := shrinkableOf_eq hT h1 h2 h3 h4
  have : ∃ t, shrinkableOf T min max v = .ok t := by
    rcases hs with ⟨_, h⟩ | ⟨_, h⟩ <;> exact ⟨_, h⟩
  obtain ⟨t, ht⟩ := this
  refine ⟨s, t, [], ?_, (good_of_eq h2 h3 ?_).1⟩
  · unfold interval generateInteger; rw [hd, Outcome.ok_bind]; simp only [ht]; rfl
  · rcases hs with ⟨hle, h⟩ | ⟨hle, h⟩
    · rw [h] at ht; cases ht; exact .inl ⟨hle, rfl⟩
    · rw [h] at ht; cases ht; exact .inr ⟨hle, rfl⟩

example : i8 ∈ all ∧ i8.lo ≤ -100 ∧ (-100 : Int) ≤ -3 ∧ (-3 : Int) ≤ i8.hi ∧ Nearest0 (-100) (-3) (-3) := by
  refine ⟨by simp [all], by decide, by decide, by decide, by decide, by decide, ?_⟩
  intro y h1 h2; omega
example : interval script u8 3 5 [5] = .ok (node 5 [leaf 3, leaf 4], []) := by rfl
example : interval script i8 (-5) (-3) [-5] = .ok (node (-5) [leaf (-3), leaf (-4)], []) := by
  have hs : shrinkableOf i8 (-5) (-3) (-5) = .ok (node (-5) [leaf (-3), leaf (-4)]) := rfl
  unfold interval generateInteger
  rw [show drawValue script i8 (boundaryValues i8) (getRandomT script i8) (-5) (-3) [-5] =
    .ok (-5, []) by decide, Outcome.ok_bind]
  simp only [hs]; rfl

/-! ### C18 -/

/-- C18. `inRange(from, to)` stays in `[from, to - 1]`. -/
theorem C18_inRange (R : Rng σ) (T : IntType) (hT : T ∈ all) (frm to : Int) (s : σ)
    (h1 : T.lo ≤ frm) (h2 : frm < to) (h3 : to ≤ T.hi) :
    ∃ t s', inRange R T frm to s = .ok (t, s') ∧ GoodInt frm (to - 1) t := by
  unfold inRange
  rw [arith_ok hT (by omega) (by omega), Outcome.ok_bind, wrap_id hT (by omega) (by omega)]
  exact generateInteger_good R hT s h1 (by omega) (by omega)

/-- C18. `integers(start, count)` stays in `[start, start + count - 1]`. -/
theorem C18_integers (R : Rng σ) (T : IntType) (hT : T ∈ all) (start count : Int) (s : σ)
    (h1 : T.lo ≤ start) (h2 : 1 ≤ count) (h3 : start + count ≤ T.hi) :
    ∃ t s', integers R T start count s = .ok (t, s') ∧ GoodInt start (start + count - 1) t := by
  unfold integers
  rw [arith_ok hT (by omega) (by omega), Outcome.ok_bind, arith_ok hT (by omega) (by omega),
    Outcome.ok_bind, wrap_id hT (by omega) (by omega)]
  exact generateInteger_good R hT s h1 (by omega) (by omega)

/-- C18. `natural(max)` stays in `[1, max]`. -/
theorem C18_natural (R : Rng σ) (T : IntType) (hT : T ∈ all) (max : Int) (s : σ)
    (h2 : 1 ≤ max) (h3 : max ≤ T.hi) :
    ∃ t s', natural R T max s = .ok (t, s') ∧ GoodInt 1 max t := by
  have := lo_le_hi hT
  exact generateInteger_good R hT s (by omega) h2 h3

/-- C18. `nonNegative(max)` stays in `[0, max]`. -/
theorem C18_nonNegative (R : Rng σ) (T : IntType) (hT : T ∈ all) (max : Int) (s : σ)
    (h2 : 0 ≤ max) (h3 : max ≤ T.hi) :
    ∃ t s', nonNegative R T max s = .ok (t, s') ∧ GoodInt 0 max t := by
  have := lo_le_hi hT
  exact generateInteger_good R hT s (by omega) h2 h3

example : u16 ∈ all ∧ u16.lo ≤ 7 ∧ (7 : Int) < 10 ∧ (10 : Int) ≤ u16.hi := by
  refine ⟨by simp [all], ?_⟩; decide
example : inRange script u16 7 10 [9] = .ok (node 9 [leaf 7, leaf 8], []) := by rfl
example : natural script u16 100 [4] = .ok (node 4 [leaf 1, node 2 [], leaf 3], []) := by rfl

/-- C18. No value of the documented ranges is excluded: for each there is a sequence of draws producing it. -/
theorem C18_every_value_possible (T : IntType) (hT : T ∈ all) (v : Int) :
    (∀ frm to, T.lo ≤ frm → to ≤ T.hi → frm ≤ v → v < to →
      ∃ s t s', inRange script T frm to s = .ok (t, s') ∧ t.value = v) ∧
    (∀ start count, T.lo ≤ start → start + count ≤ T.hi → start ≤ v → v < start + count →
      ∃ s t s', integers script T start count s = .ok (t, s') ∧ t.value = v) ∧
    (∀ max, max ≤ T.hi → 1 ≤ v → v ≤ max → ∃ s t s', natural script T max s = .ok (t, s') ∧ t.value = v) ∧
    (∀ max, max ≤ T.hi → 0 ≤ v → v ≤ max → ∃ s t s', nonNegative script T max s = .ok (t, s') ∧ t.value = v) := by
  have hl := lo_le_hi hT
  refine ⟨fun frm to h1 h2 h3 h4 => ?_, fun start count h1 h2 h3 h4 => ?_, fun max h1 h2 h3 => ?_,
    fun max h1 h2 h3 => ?_⟩
  · unfold inRange
    simp only [arith_ok hT (x := to - 1) (by omega) (by omega), Outcome.ok_bind,
      wrap_id hT (x := to - 1) (by omega) (by omega)]
    exact C17_every_value_possible T hT frm (to - 1) v h1 h3 (by omega) (by omega)
  · unfold integers
    simp only [arith_ok hT (x := start + count) (by omega) (by omega), Outcome.ok_bind,
      arith_ok hT (x := start + count - 1) (by omega) (by omega),
      wrap_id hT (x := start + count - 1) (by omega) (by omega)]
    exact C17_every_value_possible T hT start (start + count - 1) v h1 h3 (by omega) (by omega)
  · exact C17_every_value_possible T hT 1 max v (by omega) h2 h3 h1
  · exact C17_every_value_possible T hT 0 max v (by omega) h2 h3 h1

example : ∃ s t s', inRange script u16 7 10 s = .ok (t, s') ∧ t.value = 9 :=
  (C18_every_value_possible u16 (by simp [all]) 9).1 7 10 (by decide) (by decide) (by decide) (by decide)

/-! ### C19 -/

/-- C19. With `min > max` no value is returned: the draw itself is undefined. -/
theorem C19_empty_interval (R : Rng σ) (T : IntType) (hT : T ∈ all) (min max : Int) (s : σ)
    (h1 : T.lo ≤ max) (h2 : max < min) (h3 : min ≤ T.hi) :
    interval R T min max s = .ub := by
  unfold interval generateInteger drawValue getRandomT uniform
  rw [if_neg (by omega), wrap_id hT (by omega) h3, wrap_id hT h1 (by omega), if_neg (by omega)]
  rfl

/-- C19. `natural` and `nonNegative` with a negative (or zero) maximum likewise. -/
theorem C19_empty_natural (R : Rng σ) (T : IntType) (hT : T ∈ all) (max : Int) (s : σ)
    (h1 : T.lo ≤ max) : (max < 1 → natural R T max s = .ub) ∧ (max < 0 → nonNegative R T max s = .ub) := by
  have := lo_le_hi hT
  exact ⟨fun h => C19_empty_interval R T hT 1 max s h1 h (by omega),
    fun h => C19_empty_interval R T hT 0 max s h1 h (by omega)⟩

/-- C19. Even an engine that ignores its bounds could not make an out-of-range value pass. -/
theorem C19_out_of_range_throws (T : IntType) (min max v : Int) (h : v < min ∨ max < v) :
    shrinkableOf T min max v = .throws .runtimeError := by
  unfold shrinkableOf; rw [if_pos h]

example : i8.lo ≤ -5 ∧ (-5 : Int) < 5 ∧ (5 : Int) ≤ i8.hi := by decide

/-! ### C75 -/

/-- C75 is violated: `inRange<uint8_t>(0, 0)` returns every `uint8_t`. -/
theorem C75_inRange_violated (v : Int) (h1 : 0 ≤ v) (h2 : v ≤ 255) :
    ∃ s t s', inRange script u8 0 0 s = .ok (t, s') ∧ t.value = v :=
  C17_every_value_possible u8 (by simp [all]) 0 255 v (by decide) h1 h2 (by decide)

/-- C75 is violated: `integers<int8_t>(-128, 0)` returns every `int8_t`. -/
theorem C75_integers_violated (v : Int) (h1 : -128 ≤ v) (h2 : v ≤ 127) :
    ∃ s t s', integers script i8 (-128) 0 s = .ok (t, s') ∧ t.value = v :=
  C17_every_value_possible i8 (by simp [all]) (-128) 127 v (by decide) h1 h2 (by decide)

/-- C75, the part that holds: an empty range yields no value when its inclusive end is representable.
Missing: `to = min of the type` (and `start + count - 1 < min of the type`). -/
theorem C75_empty_partial (R : Rng σ) (T : IntType) (hT : T ∈ all) (s : σ) :
    (∀ frm to, T.lo < to → to ≤ frm → frm ≤ T.hi → inRange R T frm to s = .ub) ∧
    (∀ start count, count ≤ 0 → T.lo < start + count → start ≤ T.hi →
      integers R T start count s = .ub) := by
  refine ⟨fun frm to h1 h2 h3 => ?_, fun start count h1 h2 h3 => ?_⟩
  · unfold inRange
    rw [arith_ok hT (by omega) (by omega), Outcome.ok_bind, wrap_id hT (by omega) (by omega)]
    exact C19_empty_interval R T hT _ _ s (by omega) (by omega) h3
  · unfold integers
    rw [arith_ok hT (by omega) (by omega), Outcome.ok_bind, arith_ok hT (by omega) (by omega),
      Outcome.ok_bind, wrap_id hT (by omega) (by omega)]
    exact C19_empty_interval R T hT _ _ s (by omega) (by omega) h3

example : u8.lo < 3 ∧ (3 : Int) ≤ 7 ∧ (7 : Int) ≤ u8.hi := by decide

/-! ### C76 -/

/-- C76 is violated: for `int32_t`, `integers(1, INT32_MAX)` is undefined although `[1, INT32_MAX]` is
representable. -/
theorem C76_integers_violated (R : Rng σ) (s : σ) :
    1 + 2147483647 - 1 = i32.hi ∧ integers R i32 1 2147483647 s = .ub := ⟨by decide, by rfl⟩

/-- C76, the part that holds: narrow and unsigned types. Missing: `int32_t` and `int64_t` with
`start + count - 1` equal to the maximum (the other cases of these types are `C18_integers`). -/
theorem C76_integers_partial (R : Rng σ) (T : IntType) (hT : T ∈ all) (hw : T ≠ i32 ∧ T ≠ i64)
    (start count : Int) (s : σ) (h1 : T.lo ≤ start) (h2 : 1 ≤ count) (h3 : start + count - 1 ≤ T.hi) :
    ∃ t s', integers R T start count s = .ok (t, s') ∧ GoodInt start (start + count - 1) t := by
  have key : ∃ e, (T.arith (start + count) >>= fun a => T.arith (a - 1)) = .ok e ∧
      T.wrap e = start + count - 1 := by
    obtain ⟨hw1, hw2⟩ := hw
    have hx : T.wrap (start + count - 1) = start + count - 1 := wrap_id hT (by omega) (by omega)
    rcases cases8 hT with rfl | rfl | rfl | rfl | rfl | rfl | rfl | rfl
    · exact ⟨start + count - 1, rfl, hx⟩
    · exact ⟨start + count - 1, rfl, hx⟩
    · exact absurd rfl hw1
    · exact absurd rfl hw2
    · exact ⟨start + count - 1, rfl, hx⟩
    · exact ⟨start + count - 1, rfl, hx⟩
    · refine ⟨u32.wrap (u32.wrap (start + count) - 1), rfl, ?_⟩
      rw [u32_wrap] at hx
      simp only [u32_wrap]; omega
    · refine ⟨u64.wrap (u64.wrap (start + count) - 1), rfl, ?_⟩
      rw [u64_wrap] at hx
      simp only [u64_wrap]; omega
  obtain ⟨e, he, hx⟩ := key
  unfold integers
  rw [Outcome.bind_eq_ok] at he
  obtain ⟨a, ha, he⟩ := he
  rw [ha, Outcome.ok_bind, he, Outcome.ok_bind, hx]
  exact generateInteger_good R hT s h1 (by omega) h3

example : (u32 ≠ i32 ∧ u32 ≠ i64) ∧ u32.lo ≤ 1 ∧ (1 : Int) + 4294967295 - 1 ≤ u32.hi := by decide

/-! ### C20 -/

/-- C20. `Arbi<T>` always succeeds; every value reachable by shrinking is a value of the type and zero is
always reachable. -/
theorem C20_arbi (R : Rng σ) (T : IntType) (hT : T ∈ all) (s : σ) :
    ∃ t s', arbiInt R T s = .ok (t, s') ∧ (∀ w, Reach t w → T.lo ≤ w ∧ w ≤ T.hi) ∧ Reach t 0 ∧
      ∀ u c, Desc t u → c ∈ u.shrinks → c.value.natAbs < u.value.natAbs := by
  have hl := lo_le_hi hT
  obtain ⟨t, s', e, hg⟩ := generateInteger_good R hT s (Int.le_refl _) (by omega) (Int.le_refl _)
  have hz : Nearest0 T.lo T.hi 0 := ⟨by omega, by omega, fun y _ _ => by simp⟩
  obtain ⟨h1, h2⟩ := hg
  obtain ⟨h2, h3⟩ := h2 0 hz
  refine ⟨t, s', e, h1, (h3 0).mpr (by omega), fun u c hu hc => ?_⟩
  have := h2 u c hu hc
  simpa using this

/-- C20. Every entry of the boundary table is a value of the type, and each can be returned. -/
theorem C20_table (T : IntType) (hT : T ∈ all) (v : Int) (hv : v ∈ boundaryValues T) :
    T.lo ≤ v ∧ v ≤ T.hi ∧ ∃ s t s', arbiInt script T s = .ok (t, s') ∧ t.value = v := by
  have hb := boundary_mem hT v hv
  obtain ⟨i, hi, hiv⟩ := List.getElem_of_mem hv
  have hlen := boundary_length hT
  refine ⟨hb.1, hb.2, ?_⟩
  have hd : drawValue script T (boundaryValues T) (getRandomT script T) T.lo T.hi [0, i] = .ok (v, []) := by
    unfold drawValue
    rw [if_pos ⟨rfl, rfl⟩]
    have e1 : getRandomBool script half [0, (i : Int)] = (true, [(i : Int)]) := rfl
    have e2 : getRandomSize script 0 (boundaryValues T).length [(i : Int)] = .ok ((i : Int), []) := by
      unfold getRandomSize getRandomT uniform
      have e : u64.wrap (((boundaryValues T).length : Int) - 1) = ((boundaryValues T).length : Int) - 1 :=
        wrap_id (by simp [all]) (by rw [u64_lo]; omega) (by rw [u64_hi]; omega)
      have e' : u32.wrap (((boundaryValues T).length : Int) - 1) = ((boundaryValues T).length : Int) - 1 :=
        wrap_id (by simp [all]) (by rw [u32_lo]; omega) (by rw [u32_hi]; omega)
      have e0 : u32.wrap ((0 : Nat) : Int) = 0 := rfl
      rw [e, e', e0, if_pos (by omega)]
      have ei : u32.wrap (i : Int) = i :=
        wrap_id (by simp [all]) (by rw [u32_lo]; omega) (by rw [u32_hi]; omega)
      have hc : (0 : Int) ≤ i ∧ (i : Int) ≤ ((boundaryValues T).length : Int) - 1 := by omega
      simp only [script, if_pos hc, Outcome.ok_bind, ei, Outcome.pure_eq]
    rw [e1]
    simp only [if_true]
    rw [e2, Outcome.ok_bind]
    simp [hi, hiv]
  have hs := shrinkableOf_eq hT (Int.le_refl _) hb.1 hb.2 (Int.le_refl _)
  have : ∃ t, shrinkableOf T T.lo T.hi v = .ok t := by
    rcases hs with ⟨_, h⟩ | ⟨_, h⟩ <;> exact ⟨_, h⟩
  obtain ⟨t, ht⟩ := this
  refine ⟨[0, i], t, [], ?_, (good_of_eq (min := T.lo) (max := T.hi) hb.1 hb.2 ?_).1⟩
  · unfold arbiInt generateInteger; rw [hd, Outcome.ok_bind]; simp only [ht]; rfl
  · rcases hs with ⟨hle, h⟩ | ⟨hle, h⟩
    · rw [h] at ht; cases ht; exact .inl ⟨hle, rfl⟩
    · rw [h] at ht; cases ht; exact .inr ⟨hle, rfl⟩

/-- C20. The boundary table has the limits of the type and of all narrower integer types, signed or not, and what comes
right before and right after each of them, as far as these are values of the type. -/
theorem C20_limits (T : IntType) (hT : T ∈ all) (T' : IntType) (hT' : T' ∈ all) (hw : T'.bits < T.bits ∨ T' = T)
    (v : Int) (hv : v - T'.lo = -1 ∨ v = T'.lo ∨ v - T'.lo = 1 ∨ v - T'.hi = -1 ∨ v = T'.hi ∨ v - T'.hi = 1)
    (h1 : T.lo ≤ v) (h2 : v ≤ T.hi) : v ∈ boundaryValues T := by
  have key : ∀ T ∈ all, ∀ T' ∈ all, (T'.bits < T.bits ∨ T' = T) →
      ∀ v ∈ [T'.lo - 1, T'.lo, T'.lo + 1, T'.hi - 1, T'.hi, T'.hi + 1], T.lo ≤ v → v ≤ T.hi → v ∈ boundaryValues T := by
    decide +kernel
  refine key T hT T' hT' hw v ?_ h1 h2
  simp only [List.mem_cons, List.not_mem_nil, or_false]
  omega

/-- 65536 comes right after the limit of the unsigned 16 bit type. -/
example : (65536 : Int) ∈ boundaryValues i64 :=
  C20_limits i64 (by decide) u16 (by decide) (by decide) 65536 (by decide) (by decide) (by decide)

/-- C20. Every value of the type can be returned. -/
theorem C20_every_value_possible (T : IntType) (hT : T ∈ all) (v : Int) (h1 : T.lo ≤ v) (h2 : v ≤ T.hi) :
    ∃ s t s', arbiInt script T s = .ok (t, s') ∧ t.value = v :=
  C17_every_value_possible T hT T.lo T.hi v (by omega) h1 h2 (by omega)

example : i16.lo ≤ -12345 ∧ (-12345 : Int) ≤ i16.hi := by decide
example : (-9223372036854775807 : Int) ∈ boundaryValues i64 := by decide

/-! ### C21 -/

/-- C21 is violated on platforms with signed `char`: whenever the coin flip decides against the boundary
table, the draw from 128..127 is undefined. -/
theorem C21_char_violated (R : Rng σ) (s : σ) (h : (getRandomBool R half s).1 = false) :
    arbiChar R s = .ub := by
  unfold arbiChar drawValue
  rw [if_pos (by decide)]
  cases hb : getRandomBool R half s with
  | mk b s' =>
    rw [hb] at h
    simp only at h
    subst h
    rfl

example : (getRandomBool script half [2^63 + 1]).1 = false := by decide

/-- C21, the part that holds: with signed `char` the boundary table's 0 is returned when the coin flip
says so; with unsigned `char` generation always succeeds with a value of the type. Missing: the other
half of the draws with signed `char`. -/
theorem C21_char_partial (R : Rng σ) (s : σ) :
    ((getRandomBool R half s).1 = true → ∃ s', arbiChar R s = .ok (leaf 0, s')) ∧
    ∃ t s', arbiCharUnsigned R s = .ok (t, s') ∧ GoodInt 0 255 t := by
  refine ⟨fun h => ?_, ?_⟩
  · unfold arbiChar drawValue
    rw [if_pos (by decide)]
    cases hb : getRandomBool R half s with
    | mk b s' =>
      rw [hb] at h
      simp only at h
      subst h
      obtain ⟨i, s'', e, h1, h2⟩ := getRandomSize_ok R (a := 0) (b := 1) s' (by omega) (by omega)
      have hi : i = 0 := by omega
      subst hi
      refine ⟨s'', ?_⟩
      have hb : binarySearchShrinkable (i64.wrap 0) = .ok (leaf 0) := by
        rw [show i64.wrap 0 = 0 by decide]; rfl
      have hs : shrinkableOf i8 (-128) 127 0 = .ok (leaf 0) := by
        unfold shrinkableOf
        rw [if_neg (by decide), if_neg (by decide), if_neg (by decide), hb, Outcome.ok_bind, map_leaf]
        rfl
      simp only [if_true, List.length_singleton]
      rw [e]
      simp [hs]
  · have hT : u8 ∈ all := by simp [all]
    obtain ⟨v, s', e, hv1, hv2⟩ := drawValue_ok R hT (table := [0]) (by decide) (by decide)
      (min := 0) (max := 255) s (by decide) (by decide) (by decide)
    have hs := shrinkableOf_eq hT (min := 0) (max := 255) (by decide) hv1 hv2 (by decide)
    have : ∃ t, shrinkableOf u8 0 255 v = .ok t := by
      rcases hs with ⟨_, h⟩ | ⟨_, h⟩ <;> exact ⟨_, h⟩
    obtain ⟨t, ht⟩ := this
    refine ⟨t, s', ?_, (good_of_eq hv1 hv2 ?_).2⟩
    · unfold arbiCharUnsigned; rw [e, Outcome.ok_bind]; simp only [ht]; rfl
    · rcases hs with ⟨hle, h⟩ | ⟨hle, h⟩
      · rw [h] at ht; cases ht; exact .inl ⟨hle, rfl⟩
      · rw [h] at ht; cases ht; exact .inr ⟨hle, rfl⟩

example : (getRandomBool script half [5]).1 = true := by decide

/-! ### C22, C77 -/

/-- C22. `Arbi<bool>` always succeeds; a generated `true` offers exactly the shrink `false` (which offers
nothing), a generated `false` offers nothing. -/
theorem C22_bool (R : Rng σ) (thr : Option Nat) (s : σ) :
    ∃ b s', arbiBool R thr s = .ok (b, s') ∧
      (b = node true [node false []] ∨ b = node false []) := by
  cases h : getRandomBool R thr s with
  | mk b s' =>
    refine ⟨shrinkBool b, s', by simp [arbiBool, h], ?_⟩
    cases b
    · right; rfl
    · left; rfl

/-- C22. Both values are possible with the default probability. -/
theorem C22_bool_both (b : Bool) : ∃ s t s', arbiBool script half s = .ok (t, s') ∧ t.value = b := by
  cases b
  · exact ⟨[2^64 - 1], _, [], rfl, rfl⟩
  · exact ⟨[0], _, [], rfl, rfl⟩

/-- C77 is violated for probability 0: an engine drawing 0 yields `true`. -/
theorem C77_bool_violated : ∃ s t s', arbiBool script (some 0) s = .ok (t, s') ∧ t.value = true :=
  ⟨[0], _, [], rfl, rfl⟩

/-- C77, the part that holds: probability 1 always yields `true`; probability 0 yields `true` only if the
64-bit draw is 0. Missing: that one draw. -/
theorem C77_bool_partial (R : Rng σ) (s : σ) :
    (∃ s', arbiBool R none s = .ok (node true [leaf false], s')) ∧
    ((next8U R s).1 ≠ 0 → ∃ s', arbiBool R (some 0) s = .ok (leaf false, s')) := by
  refine ⟨⟨s, rfl⟩, fun h => ⟨(next8U R s).2, ?_⟩⟩
  have hm := R.draw_mem s 0 (2^64 - 1) (by omega)
  unfold next8U at h
  simp only [arbiBool, getRandomBool, next8U]
  have : ¬ ((R.draw s 0 (2^64 - 1)).1 ≤ ((0 : Nat) : Int)) := by omega
  simp only [this, decide_false]
  rfl

example : (next8U script [17]).1 ≠ 0 := by decide

end Verif
