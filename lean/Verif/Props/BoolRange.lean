import Verif.Model.BoolRange
import Verif.Props.Chance
/-!
C160: numbers given to `Arbi<bool>` that are no probabilities.
-/
namespace Verif
open Comb Integral Random
variable {σ : Type}

/-- C160, violated: a call of `Arbi<bool>(p)` is undefined for exactly these numbers (the cast in `getRandomBool` is),
whatever the engine; the constructor accepts them. -/
theorem C160_undefined_violated (R : Rng σ) (p : Dbl) (s : σ) :
    arbiBoolOf R p s = .ub ↔ p = .nan ∨ (∃ n, p = .inf n) ∨ ∃ q, p = .fin q ∧ (q ≤ -1 / 2^64 ∨ 1 < q) := by
  unfold arbiBoolOf
  cases p with
  | nan => simp [threshold]
  | inf n => simp [threshold]
  | fin q =>
    by_cases h1 : q = 1
    · subst h1
      simp [threshold, arbiBool]
      norm_num
    · by_cases h2 : q ≤ -1 / 2^64 ∨ 1 < q
      · simp [threshold, h1, h2]
      · simp [threshold, h1, h2, arbiBool]

/-- Two and minus one half are no probabilities. -/
example (R : Rng σ) (s : σ) : arbiBoolOf R (.fin 2) s = .ub ∧ arbiBoolOf R (.fin (-1 / 2)) s = .ub :=
  ⟨(C160_undefined_violated R _ s).2 (.inr (.inr ⟨_, rfl, .inr (by norm_num)⟩)),
    (C160_undefined_violated R _ s).2 (.inr (.inr ⟨_, rfl, .inl (by norm_num)⟩))⟩

/-- C160, the part that holds: for the numbers from 0 to 1 a call returns a value, `true` if 1 was given. -/
theorem C160_probability_partial (R : Rng σ) (q : ℚ) (h0 : 0 ≤ q) (h1 : q ≤ 1) (s : σ) :
    ∃ b s', arbiBoolOf R (.fin q) s = .ok (shrinkBool b, s') ∧ (q = 1 → b = true) := by
  unfold arbiBoolOf
  by_cases h : q = 1
  · subst h
    exact ⟨true, s, by simp [threshold, arbiBool, getRandomBool], fun _ => rfl⟩
  · have h2 : ¬ (q ≤ -1 / 2^64 ∨ 1 < q) := by
      rintro (h | h)
      · have : (-1 : ℚ) / 2^64 < 0 := by norm_num
        linarith
      · linarith
    refine ⟨_, _, by simp only [threshold, if_neg h, if_neg h2, Outcome.ok_bind, arbiBool]; rfl, fun e => absurd e h⟩

example (R : Rng σ) (s : σ) : ∃ b s', arbiBoolOf R (.fin (3 / 4)) s = .ok (shrinkBool b, s') := by
  obtain ⟨b, s', h, _⟩ := C160_probability_partial R (3 / 4) (by norm_num) (by norm_num) s
  exact ⟨b, s', h⟩

/-- C160: a negative number so small that it is not refused acts as 0. -/
theorem C160_tiny_partial (R : Rng σ) (q : ℚ) (h0 : -1 / 2^64 < q) (h1 : q ≤ 0) (s : σ) :
    arbiBoolOf R (.fin q) s = arbiBoolOf R (.fin 0) s := by
  have hq : ⌊q * 2^64⌋.toNat = 0 := by
    have : ⌊q * 2^64⌋ ≤ 0 := by
      have := Int.floor_le (q * 2^64)
      by_contra hc
      have h3 : (1 : ℤ) ≤ ⌊q * 2^64⌋ := by omega
      have h4 : (1 : ℚ) ≤ ⌊q * 2^64⌋ := by exact_mod_cast h3
      linarith
    omega
  have e : threshold (.fin q) = threshold (.fin 0) := by
    have h2 : ¬ (q ≤ -1 / 2^64 ∨ 1 < q) := by
      rintro (h | h) <;> linarith
    have h3 : q ≠ 1 := by rintro rfl; linarith
    rw [threshold, if_neg h3, if_neg h2, hq]
    decide +kernel
  unfold arbiBoolOf
  rw [e]

example : (-1 : ℚ) / 2^64 < -1 / 2^70 := by norm_num

end Verif
