import Verif.Lemmas.ChanceTest
import Verif.Props.ChanceComb
import Mathlib.Tactic.FinCases
/-
C148: how likely a test finds a failure.
-/
namespace Verif
namespace Engine
open PairTuple Integral IntType
variable {n : Nat} {A : Fin n → Type}

/-- A failure is reported exactly where the verdict is false. -/
theorem found_verdict (r : Report A) : r.found.isSome = !r.verdict := by cases r <;> rfl

/-- C148. The arguments are drawn independently of each other: the probability that every argument is in a given set is
the product of the probabilities. -/
theorem C148_arguments (c : AnyTest A) (order : List (Fin n)) (hnd : order.Nodup) (hall : ∀ i, i ∈ order)
    (gens : (i : Fin n) → Src (Shr (A i))) (hc : ∀ σ R, (c σ R).orderRun = order ∧ (c σ R).gens = fun i => gens i σ R)
    (E : (i : Fin n) → A i → Bool) (p : Fin n → ℚ) (hp : ∀ i, Chance (gens i) (fun t => E i t.value) (p i)) :
    Chance (argsDraw c) (fun a => decide (∀ i, E i (a i) = true)) (∏ i, p i) := by
  obtain ⟨e, he, hm⟩ := C141_tuple order hnd hall gens E p hp
  refine ⟨e.andThen fun t => .ret (.ok t.value), ?_, ?_⟩
  · refine (he.bind (g := fun t _ _ s => .ok (t.value, s)) fun t => Follows.pure t.value).congr fun σ R s => ?_
    unfold argsDraw
    rw [(hc σ R).1, (hc σ R).2]
    unfold tupleOf
    cases Gen.drawTuple (fun i => gens i σ R) order s with
    | ok r =>
      obtain ⟨ts, s'⟩ := r
      show Outcome.ok _ = Outcome.ok _
      have : (shrinkTuple ts).value = fun i => (ts i).value := funext fun i => C23_tuple_value ts i
      rw [this]
    | throws x => rfl
    | ub => rfl
    | diverges => rfl
  · rw [hit_eq] at hm ⊢
    rw [mean_andThen]
    exact hm

section
variable {c : AnyTest A} {f : Args A → Ev Bool} {N : Nat} (h : Searches c f N)
  {fails : Args A → Bool} (hfails : ∀ a, fails a = true ↔ (f a).Fails) {p : ℚ}
include h hfails

theorem some_bound (d : ℚ) (hd1 : d < 1) {e : Exp (Outcome (Args A))} (he : Follows (argsDraw c) e)
    (hp : e.mean (hit fails) = p) (hde : e.mean (hit fun a => (f a).discarded) = d) (m : Nat) :
    |(testExp f e m N 0).mean (hit fun r => r.isSome) - (1 - (1 - p / (1 - d)) ^ N)| ≤ p / (1 - d) * N ^ 2 * d ^ m := by
  obtain ⟨-, -, h0, hd0, hs⟩ := mean_three h hfails he hp hde 0 fun _ => true
  have hpos : 0 < 1 - d := by linarith
  obtain ⟨h1, h2, -⟩ := mean_three h hfails he hp hde m fun _ => true
  rw [mean_testExp_any f e (not_both h), h1, h2, powers_eq hd1.ne]
  simp only [Bool.and_true]
  rw [hp]
  have ha : (1 - p - d) / (1 - d) = 1 - p / (1 - d) := by field_simp; ring
  have ha0 : 0 ≤ 1 - p / (1 - d) := by rw [← ha]; exact div_nonneg (by linarith) hpos.le
  have ha1 : 1 - p / (1 - d) ≤ 1 := by have := div_nonneg h0 hpos.le; linarith
  have hdm : d ^ m ≤ 1 := pow_le_one₀ hd0 hd1.le
  have hdm0 : 0 ≤ d ^ m := pow_nonneg hd0 m
  have key := powers_near ha0 ha1 (x := 1 - d ^ m) (δ := d ^ m) (by linarith) (by linarith) (by linarith) N
  have e1 : (1 - p - d) * ((1 - d ^ m) / (1 - d)) = (1 - p / (1 - d)) * (1 - d ^ m) := by rw [← ha]; ring
  have e2 : p * ((1 - d ^ m) / (1 - d)) * powers ((1 - p / (1 - d)) * (1 - d ^ m)) N -
      (1 - (1 - p / (1 - d)) ^ N) =
      p / (1 - d) * (powers ((1 - p / (1 - d)) * (1 - d ^ m)) N * (1 - d ^ m) - powers (1 - p / (1 - d)) N) := by
    rw [← powers_mul (1 - p / (1 - d)) N]; ring
  rw [e1, e2, abs_mul, abs_of_nonneg (div_nonneg h0 hpos.le), mul_assoc]
  exact mul_le_mul_of_nonneg_left key (div_nonneg h0 hpos.le)

theorem none_bound (d : ℚ) (hd1 : d < 1) {e : Exp (Outcome (Args A))} (he : Follows (argsDraw c) e)
    (hp : e.mean (hit fails) = p) (hde : e.mean (hit fun a => (f a).discarded) = d) (m : Nat) :
    |(testExp f e m N 0).mean (hit fun r => r.isNone) - (1 - p / (1 - d)) ^ N| ≤ |(1 - p / (1 - d)) ^ N| * N * d ^ m := by
  obtain ⟨h1, -, h0, hd0, hs⟩ := mean_three h hfails he hp hde m fun _ => true
  have hpos : 0 < 1 - d := by linarith
  have ha : (1 - p - d) / (1 - d) = 1 - p / (1 - d) := by field_simp; ring
  rw [mean_testExp_none f e (not_both h), h1, powers_eq hd1.ne]
  have hdm : d ^ m ≤ 1 := pow_le_one₀ hd0 hd1.le
  have hdm0 : 0 ≤ d ^ m := pow_nonneg hd0 m
  have key := pow_near (x := 1 - d ^ m) (δ := d ^ m) (by linarith) (by linarith) (by linarith) N
  have e1 : (1 - p - d) * ((1 - d ^ m) / (1 - d)) = (1 - p / (1 - d)) * (1 - d ^ m) := by rw [← ha]; ring
  have e2 : ((1 - p / (1 - d)) * (1 - d ^ m)) ^ N - (1 - p / (1 - d)) ^ N =
      (1 - p / (1 - d)) ^ N * ((1 - d ^ m) ^ N - 1) := by rw [mul_pow]; ring
  rw [e1, e2, abs_mul, mul_assoc]
  exact mul_le_mul_of_nonneg_left key (abs_nonneg _)

end

section
variable {c : AnyTest A} {f : Args A → Ev Bool} {N : Nat} (h : Searches c f N)
  {fails : Args A → Bool} (hfails : ∀ a, fails a = true ↔ (f a).Fails)
  {p : ℚ} (hp : Chance (argsDraw c) fails p)
include h hfails hp

/-- C148. A property that is never discarded and whose arguments fail with probability `p` is reported to be
falsifiable with probability 1 - (1-p)^N in `N` runs. -/
theorem C148_found (hd : ∀ a, (f a).discarded = false) (fuel : Nat) (hfuel : 0 < fuel) :
    Chance (forAllCall c fuel) (fun r => r.isSome) (1 - (1 - p) ^ N) := by
  obtain ⟨e, he, hp⟩ := hp
  obtain ⟨fuel, rfl⟩ : ∃ k, fuel = k + 1 := ⟨fuel - 1, by omega⟩
  have hd0 : e.mean (hit fun a => (f a).discarded) = 0 := by
    simp only [hd]
    refine Eq.trans (congrArg (fun z => e.mean z) ?_) (Exp.mean_const 0 he.1)
    funext o; cases o <;> simp [hit]
  obtain ⟨h1, h2, -⟩ := mean_three h hfails he hp hd0 (fuel + 1) fun _ => true
  refine ⟨_, follows_forAll h he (fuel + 1), ?_⟩
  rw [mean_testExp_any f e (not_both h), h1, h2]
  simp only [Bool.and_true, powers_zero, mul_one]
  rw [hp, ← powers_mul]
  ring_nf

/-- C148. More precisely: the failure is reported in run `k+1` with arguments (before shrinking) in `E` with
probability (1-p)^k times the probability of failing arguments in `E`. -/
theorem C148_reported (hd : ∀ a, (f a).discarded = false) (fuel : Nat) (hfuel : 0 < fuel) (E : Args A → Bool) (b : ℚ)
    (hb : Chance (argsDraw c) (fun a => fails a && E a) b) (k : Nat) (hk : k < N) :
    Chance (forAllCall c fuel) (reports (k + 1) E) ((1 - p) ^ k * b) := by
  obtain ⟨e, he, hp⟩ := hp
  obtain ⟨fuel, rfl⟩ : ∃ k, fuel = k + 1 := ⟨fuel - 1, by omega⟩
  have hd0 : e.mean (hit fun a => (f a).discarded) = 0 := by
    simp only [hd]
    refine Eq.trans (congrArg (fun z => e.mean z) ?_) (Exp.mean_const 0 he.1)
    funext o; cases o <;> simp [hit]
  obtain ⟨h1, h2, -⟩ := mean_three h hfails he hp hd0 (fuel + 1) E
  refine ⟨_, follows_forAll h he (fuel + 1), ?_⟩
  have := mean_testExp_some f e (not_both h) (fuel + 1) E k N 0 hk
  rw [Nat.zero_add] at this
  rw [this, h1, h2, chance_unique ⟨e, he, rfl⟩ hb]
  simp only [powers_zero, mul_one, sub_zero]

/-- C148. If arguments are discarded with probability `d`, less than 1, the same holds for the probability `p / (1 - d)`
that arguments fail if they are not discarded. -/
theorem C148_discards (d : ℚ) (hd : Chance (argsDraw c) (fun a => (f a).discarded) d) (hd1 : d < 1) :
    ChanceLimit (forAllCall c) (fun r => r.isSome) (1 - (1 - p / (1 - d)) ^ N) := by
  obtain ⟨e, he, hp⟩ := hp
  have hde := chance_unique ⟨e, he, rfl⟩ hd
  obtain ⟨-, -, h0, hd0, hs⟩ := mean_three h hfails he hp hde 0 fun _ => true
  exact limit_of_bound hd0 hd1 (fun m => ⟨_, follows_forAll h he m, rfl⟩) fun m => some_bound h hfails d hd1 he hp hde m

/-- C148. Also the run and the arguments reported have the probabilities given that nothing is discarded. -/
theorem C148_discards_reported (d : ℚ) (hd : Chance (argsDraw c) (fun a => (f a).discarded) d) (hd1 : d < 1)
    (E : Args A → Bool) (b : ℚ) (hb : Chance (argsDraw c) (fun a => fails a && E a) b) (k : Nat) (hk : k < N) :
    ChanceLimit (forAllCall c) (reports (k + 1) E) ((1 - p / (1 - d)) ^ k * (b / (1 - d))) := by
  obtain ⟨e, he, hp⟩ := hp
  have hde := chance_unique ⟨e, he, rfl⟩ hd
  have hbe := chance_unique ⟨e, he, rfl⟩ hb
  obtain ⟨-, -, h0, hd0, hs⟩ := mean_three h hfails he hp hde 0 fun _ => true
  have hpos : 0 < 1 - d := by linarith
  have ha : (1 - p - d) / (1 - d) = 1 - p / (1 - d) := by field_simp; ring
  refine limit_of_bound (C := |(1 - p / (1 - d)) ^ k * (b / (1 - d))| * (k + 1)) (ρ := d) hd0 hd1
    (fun m => ⟨_, follows_forAll h he m, rfl⟩) fun m => ?_
  obtain ⟨h1, h2, -⟩ := mean_three h hfails he hp hde m E
  have := mean_testExp_some f e (not_both h) m E k N 0 hk
  rw [Nat.zero_add] at this
  rw [this, h1, h2, hbe, powers_eq hd1.ne]
  have hdm : d ^ m ≤ 1 := pow_le_one₀ hd0 hd1.le
  have hdm0 : 0 ≤ d ^ m := pow_nonneg hd0 m
  have key := pow_near (x := 1 - d ^ m) (δ := d ^ m) (by linarith) (by linarith) (by linarith) (k + 1)
  have e1 : (1 - p - d) * ((1 - d ^ m) / (1 - d)) = (1 - p / (1 - d)) * (1 - d ^ m) := by rw [← ha]; ring
  have e2 : ((1 - p / (1 - d)) * (1 - d ^ m)) ^ k * (b * ((1 - d ^ m) / (1 - d))) -
      (1 - p / (1 - d)) ^ k * (b / (1 - d)) =
      (1 - p / (1 - d)) ^ k * (b / (1 - d)) * ((1 - d ^ m) ^ (k + 1) - 1) := by
    rw [mul_pow, pow_succ (1 - d ^ m)]; ring
  rw [e1, e2, abs_mul, mul_assoc]
  push_cast at key
  exact mul_le_mul_of_nonneg_left key (abs_nonneg _)

/-- C148. In particular `forAll` returns with probability 1. -/
theorem C148_returns (d : ℚ) (hd : Chance (argsDraw c) (fun a => (f a).discarded) d) (hd1 : d < 1) :
    ChanceLimit (forAllCall c) (fun _ => true) 1 := by
  obtain ⟨e, he, hp⟩ := hp
  have hde := chance_unique ⟨e, he, rfl⟩ hd
  obtain ⟨-, -, h0, hd0, hs⟩ := mean_three h hfails he hp hde 0 fun _ => true
  refine limit_of_bound (C := p / (1 - d) * N ^ 2 + |(1 - p / (1 - d)) ^ N| * N) hd0 hd1
    (fun m => ⟨_, follows_forAll h he m, rfl⟩) fun m => ?_
  have h1 := some_bound h hfails d hd1 he hp hde m
  have h2 := none_bound h hfails d hd1 he hp hde m
  have h3 : (testExp f e m N 0).mean (hit fun _ => true) =
      (testExp f e m N 0).mean (hit fun r => r.isSome) + (testExp f e m N 0).mean (hit fun r => r.isNone) := by
    rw [← Exp.mean_add]
    congr 1
    funext o
    cases o with
    | ok r => cases r <;> simp [hit]
    | throws x => simp [hit]
    | ub => simp [hit]
    | diverges => simp [hit]
  rw [h3, add_mul]
  refine le_trans ?_ (add_le_add h1 h2)
  refine le_trans (le_of_eq ?_) (abs_add_le _ _)
  congr 1
  ring

end

/-- A test of two throws of a die, `N` runs, for the examples. -/
def twoDice (N : Nat) (f : Int → Int → Ev Bool) : AnyTest (fun _ : Fin 2 => Int) := fun σ R =>
  { gens := fun _ => die σ R
    orderRun := [1, 0]
    orderShrink := [1, 0]
    orderEach := [0, 1]
    thrown := id
    func := fun _ a => f (a 0) (a 1)
    startup := none
    cleanup := none
    numRuns := N
    maxDurationMs := 0
    clock := fun _ => 0 }

/-- Returns false for two sixes and, with the flag, discards if the first throw is a one. -/
def noSixes (d : Bool) (x y : Int) : Ev Bool :=
  if d && x == 1 then raises .discard else returns (!(x == 6 && y == 6))

theorem die_total {σ : Type} (R : Rng σ) (s : σ) : ∃ r, die σ R s = .ok r := by
  obtain ⟨e, he⟩ := follows_part (T := i32) (by decide) (min := 1) (max := 6) (by decide) (by decide) (by decide) (by decide)
  obtain ⟨h1, h2⟩ := R.draw_mem s 1 6 (by decide)
  obtain ⟨t, ht, -⟩ := shrinkableOf_value (T := i32) (by decide) (min := 1) (max := 6) (by decide) h1 h2 (by decide)
  refine ⟨(t, (R.draw s 1 6).2), (he σ R s).trans ?_⟩
  simp only [Exp.run, ht]
  rfl

theorem twoDice_searches (N : Nat) (d : Bool) : Searches (twoDice N (noSixes d)) (fun a => noSixes d (a 0) (a 1)) N where
  setting := fun σ R => ⟨⟨fun _ h => (by cases h), fun _ h => (by cases h)⟩, rfl, by simp [twoDice], fun s => by
    obtain ⟨r, hr⟩ := die_total R s
    obtain ⟨r', hr'⟩ := die_total R r.2
    simp only [Gen.drawTuple, twoDice, Gen.drawInto, hr, hr', Outcome.ok_bind]
    split <;> simp⟩
  total := fun σ R s => by
    obtain ⟨r, hr⟩ := die_total R s
    obtain ⟨r', hr'⟩ := die_total R r.2
    simp only [Gen.drawTuple, twoDice, Gen.drawInto, hr, hr', Outcome.ok_bind]
    rw [dif_pos (by intro i; fin_cases i <;> rfl)]
    exact ⟨_, rfl⟩
  pure := fun _ _ _ _ => rfl
  out := fun a => by
    unfold noSixes
    split
    · exact .inr ⟨_, rfl, rfl⟩
    · exact .inl ⟨_, rfl⟩
  quiet := fun a _ => by unfold noSixes; split <;> rfl
  runs := fun _ _ => rfl
  noLimit := fun _ _ => rfl

theorem twoDice_draw (N : Nat) (f : Int → Int → Ev Bool) (E : Fin 2 → Int → Bool) (p q : Nat)
    (hp : ((Finset.Icc (1 : Int) 6).filter fun v => E 0 v).card = p) (hq : ((Finset.Icc (1 : Int) 6).filter fun v => E 1 v).card = q) :
    Chance (argsDraw (twoDice N f)) (fun a => decide (∀ i, E i (a i) = true)) (p / 6 * (q / 6)) := by
  have := C148_arguments (twoDice N f) [1, 0] (by decide) (by decide) (fun _ => die) (fun _ _ => ⟨rfl, rfl⟩) E
    (fun i => if i = 0 then p / 6 else q / 6) (fun i => by
      fin_cases i
      · exact die_chance (E 0) p hp
      · exact die_chance (E 1) q hq)
  simpa [Fin.prod_univ_two] using this

theorem noSixes_fails (d : Bool) (a : Args (fun _ : Fin 2 => Int)) :
    decide (∀ i, decide (a i = 6) = true) = true ↔ (noSixes d (a 0) (a 1)).Fails := by
  simp only [decide_eq_true_eq, Fin.forall_fin_two, noSixes]
  by_cases h1 : a 0 = 1
  · cases d <;> simp [h1, raises, returns, Ev.Fails]
  · cases d <;> simp [h1, returns, Ev.Fails]

/-- Two sixes are found in 25 runs with probability 1 - (35/36)^25, which is more than a half. -/
example : Chance (forAllCall (twoDice 25 (noSixes false)) 1) (fun r => r.isSome) (1 - (1 - 1 / 6 * (1 / 6)) ^ 25) ∧
    (1 / 2 : ℚ) < 1 - (1 - 1 / 6 * (1 / 6)) ^ 25 := by
  refine ⟨?_, by norm_num⟩
  have hp := twoDice_draw 25 (noSixes false) (fun _ v => decide (v = 6)) 1 1 (by decide) (by decide)
  have := C148_found (twoDice_searches 25 false) (noSixes_fails false) hp (fun a => by simp [noSixes, returns, Ev.discarded])
    1 (by decide)
  simpa using this

/-- They are found in the fourth run with probability (35/36)^3 / 36. -/
example : Chance (forAllCall (twoDice 25 (noSixes false)) 1) (reports 4 fun _ => true)
    ((1 - 1 / 6 * (1 / 6)) ^ 3 * (1 / 6 * (1 / 6))) := by
  have hp := twoDice_draw 25 (noSixes false) (fun _ v => decide (v = 6)) 1 1 (by decide) (by decide)
  have := C148_reported (twoDice_searches 25 false) (noSixes_fails false) hp (fun a => by simp [noSixes, returns, Ev.discarded])
    1 (by decide) (fun _ => true) _ (by simpa using hp) 3 (by decide)
  simpa using this

theorem noSixes_discards (N : Nat) :
    Chance (argsDraw (twoDice N (noSixes true))) (fun a => (noSixes true (a 0) (a 1)).discarded) (1 / 6) := by
  have := twoDice_draw N (noSixes true) (fun i v => decide (i = 0 → v = 1)) 1 6 (by decide) (by decide)
  refine cast (congrArg₂ (fun E p => Chance _ E p) ?_ (by norm_num)) this
  funext a
  by_cases h1 : a 0 = 1 <;> simp [Fin.forall_fin_two, noSixes, h1, raises, returns, Ev.discarded]

/-- With the discards, one of 30 draws that are not discarded fails. -/
example : ChanceLimit (forAllCall (twoDice 25 (noSixes true))) (fun r => r.isSome) (1 - (1 - 1 / 30) ^ 25) ∧
    ChanceLimit (forAllCall (twoDice 25 (noSixes true))) (reports 4 fun _ => true) ((1 - 1 / 30) ^ 3 * (1 / 30)) ∧
    ChanceLimit (forAllCall (twoDice 25 (noSixes true))) (fun _ => true) 1 := by
  have hp := twoDice_draw 25 (noSixes true) (fun _ v => decide (v = 6)) 1 1 (by decide) (by decide)
  have h1 := C148_discards (twoDice_searches 25 true) (noSixes_fails true) hp _ (noSixes_discards 25) (by norm_num)
  have h2 := C148_discards_reported (twoDice_searches 25 true) (noSixes_fails true) hp _ (noSixes_discards 25) (by norm_num)
    (fun _ => true) _ (by simpa using hp) 3 (by decide)
  have h3 := C148_returns (twoDice_searches 25 true) (noSixes_fails true) hp _ (noSixes_discards 25) (by norm_num)
  refine ⟨?_, ?_, h3⟩
  · refine cast (congrArg (fun p => ChanceLimit _ _ p) ?_) h1
    norm_num
  · refine cast (congrArg (fun p => ChanceLimit _ _ p) ?_) h2
    norm_num

end Engine
end Verif
