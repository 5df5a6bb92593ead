import Verif.Model.Seed
import Verif.Lemmas.PrintingFloat
import Verif.Lemmas.Integral
/-
C121: a reported seed reproduces the run when it is given in the environment.
-/
namespace Verif
open Printing Random Seed IntType

theorem leading_dec (n : Nat) (r : Text) (hr : ∀ c, r.head? = some c → isDigit c = false) : leading (dec n ++ r) = n := by
  unfold leading
  have h : (dec n ++ r).takeWhile isDigit = dec n :=
    (takeWhile_stop (fun c hc => by have := dec_digit n c hc; simp [isDigit]; omega) hr).1
  rw [h]
  exact natOf_dec n

theorem dropWhile_nonblank {p : Nat → Bool} {c : Nat} {r : Text} (h : p c = false) : (c :: r).dropWhile p = c :: r := by
  simp [h]

theorem dec_cons (n : Nat) : ∃ c r, dec n = c :: r ∧ 48 ≤ c ∧ c ≤ 57 := by
  cases h : dec n with
  | nil => exact absurd h (dec_ne_nil n)
  | cons c r => exact ⟨c, r, rfl, dec_digit n c (by rw [h]; simp)⟩

theorem atoll_dec (n : Nat) (r : Text) (hr : ∀ c, r.head? = some c → isDigit c = false) :
    atoll (dec n ++ r) = if n < 2^63 then .ok n else .ub := by
  have hl := leading_dec n r hr
  obtain ⟨c, d, e, h1, h2⟩ := dec_cons n
  unfold atoll
  rw [e] at hl ⊢
  rw [List.cons_append] at hl ⊢
  rw [dropWhile_nonblank (by simp [isSpace]; omega)]
  split
  · rename_i heq
    have h := (List.cons.inj heq).1
    omega
  · rename_i heq
    have h := (List.cons.inj heq).1
    omega
  · rw [hl]
    by_cases h : n < 2^63
    · rw [if_pos (by omega), if_pos h]
    · rw [if_neg (by omega), if_neg h]

/-- C121, the part that holds: a reported seed below `2^63`, given in `PROPTEST_SEED`, is the seed of the next run, whatever
the time is. Blanks before and other text after it do not matter. Missing: larger seeds, see `C121_large_violated`. -/
theorem C121_reported_partial (seed : Nat) (h : seed < 2^63) (time : Int) (blanks rest : Text)
    (hb : ∀ c ∈ blanks, c = 32 ∨ (9 ≤ c ∧ c ≤ 13)) (hr : ∀ c, rest.head? = some c → c < 48 ∨ 57 < c) :
    getGlobalSeed (some (blanks ++ reported seed ++ rest)) time = .ok seed := by
  have hdrop : (blanks ++ reported seed ++ rest).dropWhile isSpace = (reported seed ++ rest).dropWhile isSpace := by
    induction blanks with
    | nil => rfl
    | cons c b ih =>
      have := hb c (by simp)
      rw [List.cons_append, List.cons_append, List.dropWhile_cons_of_pos (by simp [isSpace]; omega)]
      exact ih fun d hd => hb d (List.mem_cons_of_mem _ hd)
  have ha : atoll (blanks ++ reported seed ++ rest) = atoll (reported seed ++ rest) := by
    unfold atoll
    rw [hdrop]
  unfold getGlobalSeed
  simp only []
  rw [ha, reported, atoll_dec seed rest (fun c hc => by have := hr c hc; simp [isDigit]; omega), if_pos h, Outcome.ok_bind,
    wrap_id (by simp [all]) (by rw [u64_lo]; omega) (by rw [u64_hi]; omega)]

example : getGlobalSeed (some ([32, 9] ++ reported 1700000000 ++ [10])) 5 = .ok 1700000000 := by decide +kernel

/-- C121, the part that holds: without `PROPTEST_SEED` the seed is the time, which is reported and can be given back. -/
theorem C121_time_partial (time : Int) (h0 : 0 ≤ time) (h1 : time < 2^63) (later : Int) :
    ∃ seed : Nat, getGlobalSeed none time = .ok seed ∧ getGlobalSeed (some (reported seed)) later = .ok seed := by
  refine ⟨time.toNat, ?_, ?_⟩
  · unfold getGlobalSeed
    simp only []
    rw [wrap_id (by simp [all]) (by rw [u64_lo]; omega) (by rw [u64_hi]; omega)]
    congr 1
    omega
  · have := C121_reported_partial time.toNat (by omega) later [] [] (by simp) (by simp)
    simpa using this

/-- C121 is violated: giving back a reported seed of `2^63` or more is undefined. -/
theorem C121_large_violated (seed : Nat) (h : 2^63 ≤ seed) (time : Int) :
    getGlobalSeed (some (reported seed)) time = .ub := by
  unfold getGlobalSeed reported
  simp only []
  have := atoll_dec seed [] (by simp)
  rw [List.append_nil] at this
  rw [this, if_neg (by omega)]
  rfl

/-- C121: such seeds occur, and can be obtained from a negative number: the seed is reported as `seed`, but only
`seed - 2^64` reproduces it. -/
theorem C121_negative (seed : Nat) (h : 2^63 ≤ seed) (h2 : seed < 2^64) (time : Int) :
    getGlobalSeed (some (45 :: dec (2^64 - seed))) time = .ok seed := by
  have hl := leading_dec (2^64 - seed) [] (by simp)
  rw [List.append_nil] at hl
  have : atoll (45 :: dec (2^64 - seed)) = .ok (-((2^64 - seed : Nat) : Int)) := by
    unfold atoll
    rw [dropWhile_nonblank (by decide)]
    simp only [hl]
    rw [if_pos (by omega)]
  unfold getGlobalSeed
  simp only []
  rw [this, Outcome.ok_bind]
  congr 1
  unfold IntType.wrap
  rw [u64_lo]
  have : u64.bits = 64 := rfl
  rw [this]
  omega

example : getGlobalSeed (some [45, 49]) 5 = .ok (2^64 - 1) ∧ getGlobalSeed (some (reported (2^64 - 1))) 5 = .ub := by
  decide +kernel

/-- C121: texts that do not start with a number, for instance the empty one, all stand for the seed 0; the time is not used
instead, and no error is reported. -/
theorem C121_not_a_number (t : Text) (h : ∀ c, t.head? = some c → ¬(c = 32 ∨ (9 ≤ c ∧ c ≤ 13)) ∧ c ≠ 45 ∧ c ≠ 43 ∧
    (c < 48 ∨ 57 < c)) (time : Int) : getGlobalSeed (some t) time = .ok 0 := by
  have hz : leading t = 0 := by
    cases t with
    | nil => rfl
    | cons c r =>
      have := (h c rfl).2.2.2
      unfold leading
      rw [List.takeWhile_cons_of_neg (by simp [isDigit]; omega)]
      rfl
  have ha : atoll t = .ok 0 := by
    unfold atoll
    cases t with
    | nil => rfl
    | cons c r =>
      have hc := h c rfl
      rw [dropWhile_nonblank (by simp [isSpace]; omega)]
      split
      · rename_i heq
        have h' := (List.cons.inj heq).1
        omega
      · rename_i heq
        have h' := (List.cons.inj heq).1
        omega
      · rw [hz]; simp
  unfold getGlobalSeed
  simp only []
  rw [ha]
  rfl

example : getGlobalSeed (some [114, 97, 110, 100, 111, 109]) 5 = .ok 0 :=
  C121_not_a_number _ (fun c hc => by simp at hc; omega) 5

end Verif
