import Verif.Props.Containers
/-
C118: the sizes of generated containers, for all bounds a `size_t` can hold.
-/
namespace Verif
open Shr Random ListLike Containers IntType
variable {σ α β κ : Type}

/-- The size that is drawn: both bounds are reduced modulo `2^32`. -/
theorem getRandomSize_any (R : Rng σ) {a b : Nat} (hb : b < 2^64) (s : σ) :
    (b % 2^32 < a % 2^32 ∧ getRandomSize R a (b + 1) s = .ub) ∨
    (∃ v s', getRandomSize R a (b + 1) s = .ok (v, s') ∧ ((a % 2^32 : Nat) : Int) ≤ v ∧ v ≤ ((b % 2^32 : Nat) : Int)) := by
  have e1 : u64.wrap (((b + 1 : Nat) : Int) - 1) = b := by
    rw [wrap_id (by simp [all]) (by rw [u64_lo]; omega) (by rw [u64_hi]; omega)]; omega
  have w : ∀ n : Nat, u32.wrap (n : Int) = ((n % 2^32 : Nat) : Int) := by
    intro n
    unfold IntType.wrap
    rw [u32_lo]
    have : u32.bits = 32 := rfl
    rw [this]
    omega
  unfold getRandomSize getRandomT
  rw [e1, w, w]
  unfold uniform
  by_cases h : ((a % 2^32 : Nat) : Int) ≤ ((b % 2^32 : Nat) : Int)
  · right
    have hm := R.draw_mem s _ _ h
    rw [if_pos h]
    refine ⟨(R.draw s ((a % 2^32 : Nat) : Int) ((b % 2^32 : Nat) : Int)).1,
      (R.draw s ((a % 2^32 : Nat) : Int) ((b % 2^32 : Nat) : Int)).2, ?_, hm⟩
    simp only [Outcome.ok_bind, Outcome.pure_eq]
    rw [wrap_id (by simp [all]) (by rw [u32_lo]; omega) (by rw [u32_hi]; omega)]
  · left
    rw [if_neg h]
    exact ⟨by omega, rfl⟩

/-- C118, the part that holds: with a maximum size below `2^32` the sizes of generated vectors (and lists), sets, maps and
strings are within the bounds. Missing: larger bounds, see `C118_..._violated`. -/
theorem C118_sizes_partial [LinearOrder α] [LinearOrder κ] (R : Rng σ) (g : Gen σ α) (kg : Gen σ κ) (eg : Gen σ β)
    (minSize maxSize fuel : Nat) (h : minSize ≤ maxSize) (hb : maxSize < 2^32) (s s' : σ) :
    (∀ t, arbiVector R g minSize maxSize s = .ok (t, s') → minSize ≤ t.value.length ∧ t.value.length ≤ maxSize) ∧
    (∀ t, arbiSet R g minSize maxSize fuel s = .ok (t, s') → minSize ≤ t.value.length ∧ t.value.length ≤ maxSize) ∧
    (∀ t, arbiMap R kg eg minSize maxSize fuel s = .ok (t, s') → minSize ≤ t.value.length ∧ t.value.length ≤ maxSize) ∧
    (∀ t, arbiString R g minSize maxSize s = .ok (t, s') → minSize ≤ t.value.length ∧ t.value.length ≤ maxSize) := by
  refine ⟨fun t e => ?_, fun t e => ?_, fun t e => ?_, fun t e => ?_⟩
  · obtain ⟨xs, _, _, _, h1, h2, h3, _⟩ := C27_vector R g minSize maxSize h hb s s' t e
    rw [h3, List.length_map]
    exact ⟨h1, h2⟩
  · obtain ⟨_, h1, h2, _⟩ := C29_generated R g minSize maxSize fuel h hb s s' t e
    exact ⟨h1, h2⟩
  · obtain ⟨_, h1, h2, _⟩ := C30_generated R kg eg minSize maxSize fuel h hb s s' t e
    exact ⟨h1, h2⟩
  · obtain ⟨h1, h2, _⟩ := C31_generated R g minSize maxSize h hb s s' t e
    exact ⟨h1, h2⟩

example : ∃ t s', arbiString Random.script (fun | x :: s => .ok (leaf x, s) | [] => .throws .runtimeError)
    2 (2^32 - 1) [3, 7, 7, 9] = .ok (t, s') ∧ t.value = [7, 7, 9] := ⟨_, _, rfl, rfl⟩

/-- C118 is violated: a string asked to have `2^32` characters or more (and at most what a `size_t` can hold) has fewer than
`2^32`, whatever is drawn. -/
theorem C118_string_violated (R : Rng σ) (g : Gen σ α) (minSize maxSize : Nat) (h : 2^32 ≤ minSize) (hb : maxSize < 2^64)
    (s s' : σ) (t : Shr (List α)) (e : arbiString R g minSize maxSize s = .ok (t, s')) :
    t.value.length < 2^32 ∧ t.value.length < minSize := by
  unfold arbiString at e
  rcases getRandomSize_any R (a := minSize) hb s with ⟨_, e1⟩ | ⟨v, s1, e1, h1, h2⟩
  · rw [e1] at e
    simp at e
  · rw [e1] at e
    simp only [Outcome.ok_bind, Outcome.bind_eq_ok] at e
    obtain ⟨⟨xs, s2⟩, e2, e4⟩ := e
    simp at e4
    obtain ⟨rfl, rfl⟩ := e4
    obtain ⟨hl, -⟩ := drawMany_ok g _ _ _ _ e2
    have hv : (shrinkString (xs.map Shr.value) minSize).value = xs.map Shr.value := by
      simp only [shrinkString, value_concat, shrinkRear, value_map, BinSearch.bsNat_value]
      rw [List.take_of_length_le]; simp; omega
    rw [hv, List.length_map, hl]
    have := Nat.mod_lt maxSize (show 0 < 2^32 by omega)
    omega

example : ∃ t s', arbiString Random.script (fun | x :: s => .ok (leaf x, s) | [] => .throws .runtimeError)
    (2^32 + 1) (2^32 + 4) [3, 7, 7, 9] = .ok (t, s') ∧ t.value = [7, 7, 9] := ⟨_, _, rfl, rfl⟩

/-- C118 is violated: asked for up to `k * 2^32` characters, elements or entries, the generators only make empty strings,
vectors, sets and maps, whatever is drawn. -/
theorem C118_always_empty_violated [LinearOrder α] [LinearOrder κ] (R : Rng σ) (g : Gen σ α) (kg : Gen σ κ) (eg : Gen σ β)
    (k fuel : Nat) (hk : k < 2^32) (s : σ) :
    (∃ t s', arbiVector R g 0 (k * 2^32) s = .ok (t, s') ∧ t.value = []) ∧
    (∃ t s', arbiSet R g 0 (k * 2^32) fuel s = .ok (t, s') ∧ t.value = []) ∧
    (∃ t s', arbiMap R kg eg 0 (k * 2^32) fuel s = .ok (t, s') ∧ t.value = []) ∧
    (∃ t s', arbiString R g 0 (k * 2^32) s = .ok (t, s') ∧ t.value = []) := by
  have hz : ∃ s', getRandomSize R 0 (k * 2^32 + 1) s = .ok (0, s') := by
    rcases getRandomSize_any R (a := 0) (b := k * 2^32) (by omega) s with ⟨h, _⟩ | ⟨v, s1, e1, h1, h2⟩
    · omega
    · have : v = 0 := by
        have : k * 2^32 % 2^32 = 0 := Nat.mul_mod_left k _
        omega
      subst this
      exact ⟨s1, e1⟩
  obtain ⟨s1, e1⟩ := hz
  have hf : ∀ {δ : Type} [LinearOrder δ] (g : Gen σ δ), fillSet g (Int.toNat 0) fuel [] s1 = .ok ([], s1) := by
    intro δ _ g
    cases fuel <;> simp [fillSet]
  have hm : ∃ t, membershipwise ([] : List (Shr α)) 0 = .ok t ∧ t.value = [] := by
    obtain ⟨t, e⟩ := (C24_defined ([] : List (Shr α)) 0).1.mpr (by simp)
    exact ⟨t, e, (C24_defined ([] : List (Shr α)) 0).2 t e⟩
  obtain ⟨t, et, ht⟩ := hm
  refine ⟨?_, ?_, ?_, ?_⟩
  · refine ⟨_, s1, by simp only [arbiVector, e1, Outcome.ok_bind, Int.toNat_zero, drawMany, listLike, et, Outcome.pure_eq]; rfl, ?_⟩
    rw [value_flatMap]
    simp [ht]
  · refine ⟨_, s1, by simp only [arbiSet, e1, Outcome.ok_bind, hf, shrinkSet, et, Outcome.pure_eq]; rfl, ?_⟩
    rw [value_flatMap]
    simp [ht, insertAll]
  · refine ⟨_, s1, by simp only [arbiMap, e1, Outcome.ok_bind, hf, List.length_nil, drawMany, Outcome.pure_eq]; rfl, ?_⟩
    simp only [List.zip_nil_left, shrinkMap, value_flatMap, insertAll, List.foldl_nil]
    split <;> simp
  · refine ⟨_, s1, by simp only [arbiString, e1, Outcome.ok_bind, Int.toNat_zero, drawMany, Outcome.pure_eq]; rfl, ?_⟩
    simp [shrinkString, shrinkRear]

/-- C118 is violated: with a minimum size not above the maximum, but above it modulo `2^32`, the behaviour is undefined. -/
theorem C118_undefined_violated [LinearOrder α] [LinearOrder κ] (R : Rng σ) (g : Gen σ α) (kg : Gen σ κ) (eg : Gen σ β)
    (minSize maxSize fuel : Nat) (hb : maxSize < 2^64) (h : maxSize % 2^32 < minSize % 2^32) (s : σ) :
    arbiVector R g minSize maxSize s = .ub ∧ arbiSet R g minSize maxSize fuel s = .ub ∧
    arbiMap R kg eg minSize maxSize fuel s = .ub ∧ arbiString R g minSize maxSize s = .ub := by
  rcases getRandomSize_any R (a := minSize) hb s with ⟨_, e1⟩ | ⟨v, s1, e1, h1, h2⟩
  · simp [arbiVector, arbiSet, arbiMap, arbiString, e1]
  · omega

example : (5 : Nat) ≤ 2^32 + 3 ∧ (2^32 + 3) % 2^32 < 5 % 2^32 ∧ 2^32 + 3 < 2^64 := by omega

end Verif
