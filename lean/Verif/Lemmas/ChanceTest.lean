import Verif.Spec.ChanceTest
import Verif.Lemmas.ChanceSet
import Verif.Props.Verdict
import Mathlib.Tactic.FieldSimp
import Mathlib.Tactic.Ring
import Mathlib.Tactic.LinearCombination
/-
The experiment of a call of `forAll`.
-/
namespace Verif
namespace Engine
open PairTuple
variable {n : Nat} {A : Fin n → Type} {σ : Type}

open Classical in
/-- The experiment of the `do ... while` loop: the arguments that failed, or `none`. -/
noncomputable def runExp (f : Args A → Ev Bool) (e : Exp (Outcome (Args A))) : Nat → Exp (Outcome (Option (Args A)))
  | 0 => .ret .diverges
  | fuel + 1 => e.andThen fun a =>
    if (f a).discarded then runExp f e fuel
    else if (f a).Fails then .ret (.ok (some a)) else .ret (.ok none)

/-- The experiment of the `for` loop. -/
noncomputable def testExp (f : Args A → Ev Bool) (e : Exp (Outcome (Args A))) (fuel : Nat) :
    Nat → Nat → Exp (Outcome (Option (Nat × Args A)))
  | 0, _ => .ret (.ok none)
  | left + 1, i => (runExp f e fuel).andThen fun o =>
    match o with
    | none => testExp f e fuel left (i + 1)
    | some a => .ret (.ok (some (i + 1, a)))

theorem valid_andThen {α β : Type} {k : α → Exp (Outcome β)} (hk : ∀ a, (k a).Valid) {e : Exp (Outcome α)}
    (he : e.Valid) : (e.andThen k).Valid := by
  refine Exp.valid_bind (fun o => ?_) he
  cases o <;> first | exact hk _ | trivial

theorem run_andThen {α β : Type} (R : Rng σ) (k : α → Exp (Outcome β)) (e : Exp (Outcome α)) (s s' : σ) (a : α)
    (h : e.run R s = (.ok a, s')) : (e.andThen k).run R s = (k a).run R s' := by
  unfold Exp.andThen
  rw [Exp.run_bind, h]

theorem valid_runExp (f : Args A → Ev Bool) {e : Exp (Outcome (Args A))} (he : e.Valid) (fuel : Nat) :
    (runExp f e fuel).Valid := by
  induction fuel with
  | zero => trivial
  | succ fuel ih =>
    rw [runExp]
    refine valid_andThen (fun a => ?_) he
    split
    · exact ih
    · split <;> trivial

theorem valid_testExp (f : Args A → Ev Bool) {e : Exp (Outcome (Args A))} (he : e.Valid) (fuel left i : Nat) :
    (testExp f e fuel left i).Valid := by
  induction left generalizing i with
  | zero => trivial
  | succ left ih =>
    rw [testExp]
    refine valid_andThen (fun o => ?_) (valid_runExp f he fuel)
    cases o with
    | none => exact ih _
    | some a => trivial

section
variable {c : Cfg σ A} (hc : Setting c) {f : Args A → Ev Bool} (hf : c.Pure f) (hr : Returns f)
  (hx : ∀ a, (f a).out = .throws .success ∨ (f a).out = .throws .discard → (f a).fails = [])
  {fails : Args A → Bool} (hfails : ∀ a, fails a = true ↔ (f a).Rejects)
  {D : Nat → Tup A} {seed : σ} (hD : ∀ j, ∃ r, Gen.drawTuple c.gens c.orderRun (c.next^[j] seed) = .ok (D j, r))
  {R : Rng σ} {e : Exp (Outcome (Args A))}
  (he : ∀ j, e.run R (c.next^[j] seed) = (.ok (Tup.get (D j)), c.next^[j + 1] seed))
include hc hf hr hfails hD hx he

/-- The `do ... while` loop does what the experiment does. -/
theorem doWhile_exp : ∀ (fuel j i : Nat) (s : St σ A), At c f D seed j i s →
    (∃ s' j', doWhile c fuel s = (.ok none, s') ∧ At c f D seed j' i s' ∧
      (runExp f e fuel).run R (c.next^[j] seed) = (.ok none, c.next^[j'] seed)) ∨
    (∃ j', (runExp f e fuel).run R (c.next^[j] seed) = (.ok (some (Tup.get (D j'))), c.next^[j' + 1] seed) ∧
      ((∃ Q s', doWhile c fuel s = (.ok (some Q), s') ∧ EndsAt c f D seed fails j' i Q s') ∨
      ∃ x s', doWhile c fuel s = (.throws x, s') ∧ x.isStd = true ∧
        ∃ Q s'', shrink c s' = (.ok Q, s'') ∧ EndsAt c f D seed fails j' i Q s'')) ∨
    ((doWhile c fuel s).1 = .diverges ∧ ((runExp f e fuel).run R (c.next^[j] seed)).1 = .diverges) := by
  intro fuel
  induction fuel with
  | zero => intro j i s _; exact .inr (.inr ⟨rfl, rfl⟩)
  | succ fuel ih =>
    intro j i s h
    obtain ⟨ha, hp, hF⟩ := guarded_at hc hf hr hx hfails (hD _) h
    rw [runExp, run_andThen R _ e _ _ _ (he j), doWhile, Eng.bind_apply]
    by_cases hd : (f (Tup.get (D j))).discarded = true
    · obtain ⟨s', h1, h2⟩ := ha hd
      rw [h1, if_pos hd]
      exact ih (j + 1) i s' h2
    · rw [if_neg hd]
      have hd : (f (Tup.get (D j))).discarded = false := by simpa using hd
      by_cases hfl : (f (Tup.get (D j))).Fails
      · rw [if_pos hfl]
        refine .inr (.inl ⟨j, rfl, ?_⟩)
        rcases hF hfl with ⟨Q, s', h1, h2⟩ | ⟨x, s', h1, h2⟩
        · rw [h1]; exact .inl ⟨Q, s', rfl, h2⟩
        · rw [h1]; exact .inr ⟨x, s', rfl, h2⟩
      · rw [if_neg hfl]
        obtain ⟨s', h1, h2⟩ := hp hd hfl
        rw [h1]
        exact .inl ⟨s', j + 1, rfl, h2, rfl⟩

/-- The `for` loop does what the experiment does. -/
theorem forLoop_exp (h0 : c.maxDurationMs = 0) (fuel : Nat) : ∀ (left j i : Nat) (s : St σ A), At c f D seed j i s →
    (∃ s' j', forLoop c fuel left s = (.ok .passed, s') ∧ s'.rand = c.next^[j'] seed ∧
      (testExp f e fuel left i).run R (c.next^[j] seed) = (.ok none, c.next^[j'] seed)) ∨
    (∃ j' i', (testExp f e fuel left i).run R (c.next^[j] seed) =
        (.ok (some (i' + 1, Tup.get (D j'))), c.next^[j' + 1] seed) ∧
      ((∃ Q s', forLoop c fuel left s = (.ok Q, s') ∧ EndsAt c f D seed fails j' i' Q s') ∨
      ∃ x s', forLoop c fuel left s = (.throws x, s') ∧ x.isStd = true ∧
        ∃ Q s'', shrink c s' = (.ok Q, s'') ∧ EndsAt c f D seed fails j' i' Q s'')) ∨
    ((forLoop c fuel left s).1 = .diverges ∧ ((testExp f e fuel left i).run R (c.next^[j] seed)).1 = .diverges) := by
  intro left
  induction left with
  | zero =>
    intro j i s h
    exact .inl ⟨s, j, rfl, h.rand, rfl⟩
  | succ left ih =>
    intro j i s h
    rcases doWhile_exp hc hf hr hx hfails hD he fuel j i s h with
      ⟨s', j', h1, h2, h3⟩ | ⟨j', h1, h2⟩ | ⟨h1, h2⟩
    · rw [forLoop_next hc hf hr hx hfails h0 hD h1, testExp, run_andThen R _ _ _ _ _ h3]
      exact ih j' (i + 1) _ (At.next hc hf hr hx hfails h0 hD h2)
    · rw [testExp, run_andThen R _ _ _ _ _ h1]
      refine .inr (.inl ⟨j', i, rfl, ?_⟩)
      rw [forLoop_succ, if_neg (by simp [h0])]
      rcases h2 with ⟨Q, s', h3, h4⟩ | ⟨x, s', h3, h4⟩
      · rw [h3]; exact .inl ⟨Q, s', rfl, h4⟩
      · rw [h3]; exact .inr ⟨x, s', rfl, h4⟩
    · refine .inr (.inr ⟨?_, ?_⟩)
      · rw [forLoop_succ, if_neg (by simp [h0])]
        cases hm : doWhile c fuel s with
        | mk o s1 => rw [hm] at h1; simp only at h1; subst h1; rfl
      · rw [testExp]
        unfold Exp.andThen
        rw [Exp.run_bind, h2]
        rfl

end

/-- A call of `forAll` does what the experiment does. -/
theorem follows_forAll {c : AnyTest A} {f : Args A → Ev Bool} {N : Nat} (h : Searches c f N)
    {e : Exp (Outcome (Args A))} (he : Follows (argsDraw c) e) (fuel : Nat) :
    Follows (forAllCall c fuel) (testExp f e fuel N 0) := by
  classical
  refine ⟨valid_testExp f he.1 fuel N 0, fun σ R seed => ?_⟩
  choose D hD using fun j => h.total σ R ((c σ R).next^[j] seed)
  have hD' : ∀ j, Gen.drawTuple (c σ R).gens (c σ R).orderRun ((c σ R).next^[j] seed) =
      .ok ((D j).1, (c σ R).next^[j + 1] seed) := by
    intro j
    rw [Function.iterate_succ_apply', Cfg.next, hD j]
  have hrun : ∀ j, e.run R ((c σ R).next^[j] seed) =
      (.ok (Tup.get (D j).1), (c σ R).next^[j + 1] seed) := by
    intro j
    have h1 := he.2 σ R ((c σ R).next^[j] seed)
    unfold argsDraw at h1
    rw [hD' j] at h1
    exact close_ok h1.symm
  have key := forLoop_exp (h.setting σ R) (h.pure σ R) h.out h.quiet (fails := fun a => decide (f a).Rejects) (by simp)
    (fun j => ⟨_, hD' j⟩) hrun (h.noLimit σ R) fuel N 0 0 ⟨seed, seed, 0, [], []⟩ ⟨rfl, rfl, rfl, rfl, rfl⟩
  unfold forAllCall runForAll Eng.withContext Eng.catchStd Eng.tryCatch
  rw [h.runs σ R]
  simp only [Function.iterate_zero, id_eq] at key
  rcases key with ⟨s', j', h1, h2, h3⟩ | ⟨j', i', h1, h2⟩ | ⟨h1, h2⟩
  · simp only [h1, h3, Outcome.bind, Report.found, h2]
  · rw [h1]
    rcases h2 with ⟨Q, s', h3, h4⟩ | ⟨x, s', h3, hs, Q, s'', h4, h5⟩
    · simp only [h3, Outcome.bind, h4.report, Report.found, h4.rand]
      rfl
    · simp only [h3, hs, if_true, h4, Outcome.bind, h5.report, Report.found, h5.rand]
      rfl
  · cases hm : forLoop (c σ R) fuel N ⟨seed, seed, 0, [], []⟩ with
    | mk o s1 =>
      rw [hm] at h1
      simp only at h1
      subst h1
      simp only [h2, Outcome.bind]

/-- An experiment that always returns. -/
theorem mean_returns {α : Type} {g : Src α} {e : Exp (Outcome α)} (he : Follows g e)
    (h : ∀ σ R s, ∃ r, g σ R s = .ok r) : e.mean (hit fun _ => true) = 1 := by
  have h1 : e.mean (hit fun _ => true) = (e.andThen fun _ => .ret (.ok ())).mean (val fun _ => 1) := by
    rw [mean_andThen, hit_eq]; rfl
  have h2 : (e.bind fun _ => Exp.ret (Outcome.ok ())).mean (val fun _ => 1) = 1 := by
    rw [Exp.mean_bind]
    exact Exp.mean_const 1 he.1
  rw [h1]
  refine Eq.trans ?_ h2
  refine mean_unique _ (valid_andThen (k := fun _ => .ret (.ok ())) (fun _ => trivial) he.1)
    (Exp.valid_bind (k := fun _ => .ret (Outcome.ok ())) (fun _ => trivial) he.1) [] fun l => ?_
  obtain ⟨r, hr⟩ := h _ recorder (l, [])
  have := close_ok ((he.2 _ recorder (l, [])).symm.trans hr)
  rw [run_andThen recorder _ e _ _ _ this, Exp.run_bind, this]

/-- The sum of the first powers. -/
def powers (d : ℚ) : Nat → ℚ
  | 0 => 0
  | k + 1 => 1 + d * powers d k

section
open Classical
variable (f : Args A → Ev Bool) (e : Exp (Outcome (Args A)))

theorem mean_runExp (F : Option (Args A) → ℚ) (fuel : Nat) :
    (runExp f e fuel).mean (val F) =
      (e.mean (val fun a => if (f a).discarded then 0 else if (f a).Fails then F (some a) else F none)) *
        powers (e.mean (hit fun a => (f a).discarded)) fuel := by
  induction fuel with
  | zero => simp [runExp, Exp.mean, val, powers]
  | succ fuel ih =>
    rw [runExp, mean_andThen]
    have : (val fun a => (if (f a).discarded then runExp f e fuel
        else if (f a).Fails then .ret (.ok (some a)) else .ret (.ok none)).mean (val F)) =
        fun o => val (fun a => if (f a).discarded then 0 else if (f a).Fails then F (some a) else F none) o +
          (runExp f e fuel).mean (val F) * hit (fun a => (f a).discarded) o := by
      funext o
      cases o with
      | ok a =>
        simp only [val, hit]
        by_cases hd : (f a).discarded = true
        · simp [hd]
        · by_cases hfl : (f a).Fails <;> simp [hd, hfl, Exp.mean, val]
      | throws x => simp [val, hit]
      | ub => simp [val, hit]
      | diverges => simp [val, hit]
    rw [this, Exp.mean_add, Exp.mean_mul, ih, powers]
    ring

/-- The probability that a run passes. -/
noncomputable def passRun (fuel : Nat) : ℚ :=
  e.mean (hit fun a => !(f a).discarded && !decide (f a).Fails) * powers (e.mean (hit fun a => (f a).discarded)) fuel

/-- The probability that a run fails with arguments in `E`. -/
noncomputable def failRun (fuel : Nat) (E : Args A → Bool) : ℚ :=
  e.mean (hit fun a => decide (f a).Fails && E a) * powers (e.mean (hit fun a => (f a).discarded)) fuel

variable (hdf : ∀ a, (f a).discarded = true → ¬ (f a).Fails)
include hdf

theorem mean_testExp_succ (fuel left i : Nat) (G : Option (Nat × Args A) → ℚ) (c : ℚ) (E : Args A → Bool)
    (hG : ∀ a, G (some (i + 1, a)) = if E a then c else 0) :
    (testExp f e fuel (left + 1) i).mean (val G) =
      passRun f e fuel * (testExp f e fuel left (i + 1)).mean (val G) + c * failRun f e fuel E := by
  rw [testExp, mean_andThen, mean_runExp]
  have : (val fun a => if (f a).discarded = true then 0 else if (f a).Fails then
        (fun o : Option (Args A) => (match o with
          | none => testExp f e fuel left (i + 1)
          | some a => .ret (.ok (some (i + 1, a)))).mean (val G)) (some a)
        else (testExp f e fuel left (i + 1)).mean (val G)) =
      fun o => (testExp f e fuel left (i + 1)).mean (val G) * hit (fun a => !(f a).discarded && !decide (f a).Fails) o +
        c * hit (fun a => decide (f a).Fails && E a) o := by
    funext o
    cases o with
    | ok a =>
      simp only [val, hit, Exp.mean, hG]
      by_cases hd : (f a).discarded = true
      · simp [hd, hdf a hd]
      · by_cases hfl : (f a).Fails <;> simp [hd, hfl]
    | throws x => simp [val, hit]
    | ub => simp [val, hit]
    | diverges => simp [val, hit]
  refine Eq.trans (congrArg (fun z => z * powers _ fuel) (congrArg (fun z => e.mean z) this)) ?_
  simp only [Exp.mean_add, Exp.mean_mul, passRun, failRun]
  ring

theorem mean_testExp_late (fuel m : Nat) (E : Args A → Bool) (left i : Nat) (h : m ≤ i) :
    (testExp f e fuel left i).mean (hit (reports m E)) = 0 := by
  rw [hit_eq]
  induction left generalizing i with
  | zero => simp [testExp, Exp.mean, val, reports]
  | succ left ih =>
    rw [mean_testExp_succ f e hdf fuel left i _ 0 (fun _ => false)
      (fun a => by simp [reports]; omega), ih (i + 1) (by omega)]
    simp

/-- The probability that `forAll` reports arguments in `E`, in a given run. -/
theorem mean_testExp_some (fuel : Nat) (E : Args A → Bool) (k : Nat) : ∀ left i, k < left →
    (testExp f e fuel left i).mean (hit (reports (i + k + 1) E)) =
      passRun f e fuel ^ k * failRun f e fuel E := by
  induction k with
  | zero =>
    intro left i hl
    obtain ⟨left, rfl⟩ : ∃ m, left = m + 1 := ⟨left - 1, by omega⟩
    have hz := mean_testExp_late f e hdf fuel (i + 0 + 1) E left (i + 1) (by omega)
    rw [hit_eq] at hz ⊢
    rw [mean_testExp_succ f e hdf fuel left i _ 1 E (fun a => by simp [reports]), hz]
    ring
  | succ k ih =>
    intro left i hl
    obtain ⟨left, rfl⟩ : ∃ m, left = m + 1 := ⟨left - 1, by omega⟩
    have hz := ih left (i + 1) (by omega)
    rw [show i + 1 + k + 1 = i + (k + 1) + 1 by omega] at hz
    rw [hit_eq] at hz ⊢
    rw [mean_testExp_succ f e hdf fuel left i _ 0 (fun _ => false) (fun a => by simp [reports]), hz]
    ring

/-- The probability that `forAll` reports nothing. -/
theorem mean_testExp_none (fuel left i : Nat) :
    (testExp f e fuel left i).mean (hit fun r => r.isNone) = passRun f e fuel ^ left := by
  rw [hit_eq]
  induction left generalizing i with
  | zero => simp [testExp, Exp.mean, val]
  | succ left ih =>
    rw [mean_testExp_succ f e hdf fuel left i _ 0 (fun _ => false) (fun a => by simp), ih]
    ring

/-- The probability that `forAll` reports a failure. -/
theorem mean_testExp_any (fuel : Nat) (left i : Nat) :
    (testExp f e fuel left i).mean (hit fun r => r.isSome) =
      failRun f e fuel (fun _ => true) * powers (passRun f e fuel) left := by
  rw [hit_eq]
  induction left generalizing i with
  | zero => simp [testExp, Exp.mean, val, powers]
  | succ left ih =>
    rw [mean_testExp_succ f e hdf fuel left i _ 1 (fun _ => true) (fun a => by simp), ih, powers]
    ring

end

theorem powers_eq {d : ℚ} (hd : d ≠ 1) (k : Nat) : powers d k = (1 - d ^ k) / (1 - d) := by
  have : 1 - d ≠ 0 := sub_ne_zero.2 hd.symm
  induction k with
  | zero => simp [powers]
  | succ k ih => rw [powers, ih, pow_succ]; field_simp; ring

theorem powers_mul (a : ℚ) (N : Nat) : (1 - a) * powers a N = 1 - a ^ N := by
  induction N with
  | zero => simp [powers]
  | succ N ih =>
    rw [powers, pow_succ]
    linear_combination a * ih

theorem powers_bounds {a : ℚ} (h0 : 0 ≤ a) (h1 : a ≤ 1) (N : Nat) : 0 ≤ powers a N ∧ powers a N ≤ N := by
  induction N with
  | zero => simp [powers]
  | succ N ih =>
    rw [powers]
    push_cast
    constructor
    · have := mul_nonneg h0 ih.1; linarith
    · have : a * powers a N ≤ 1 * powers a N := mul_le_mul_of_nonneg_right h1 ih.1
      linarith

theorem pow_near {x δ : ℚ} (h0 : 0 ≤ x) (h1 : x ≤ 1) (hx : 1 - x ≤ δ) (k : Nat) : |x ^ k - 1| ≤ k * δ := by
  have hk : x ^ k ≤ 1 := pow_le_one₀ h0 h1
  rw [abs_sub_comm, abs_of_nonneg (by linarith)]
  induction k with
  | zero => simp
  | succ k ih =>
    have h2 : x ^ k ≤ 1 := pow_le_one₀ h0 h1
    have h3 := ih h2
    rw [pow_succ]
    push_cast
    have : x ^ k * (1 - x) ≤ 1 * (1 - x) := mul_le_mul_of_nonneg_right h2 (by linarith)
    linarith

theorem powers_near {a x δ : ℚ} (ha : 0 ≤ a) (ha1 : a ≤ 1) (h0 : 0 ≤ x) (h1 : x ≤ 1) (hx : 1 - x ≤ δ) (N : Nat) :
    |powers (a * x) N * x - powers a N| ≤ N ^ 2 * δ := by
  have hδ : 0 ≤ δ := by linarith
  induction N with
  | zero => simp [powers]
  | succ N ih =>
    obtain ⟨hp0, hp1⟩ := powers_bounds ha ha1 N
    have e : powers (a * x) (N + 1) * x - powers a (N + 1) =
        (x - 1) + (a * x * (powers (a * x) N * x - powers a N) + a * powers a N * (x - 1)) := by
      rw [powers, powers]; ring
    rw [e]
    have hax : |a * x| ≤ 1 := by
      rw [abs_of_nonneg (mul_nonneg ha h0)]
      calc a * x ≤ 1 * 1 := mul_le_mul ha1 h1 h0 (by norm_num)
        _ = 1 := by norm_num
    have h2 : |x - 1| ≤ δ := by rw [abs_sub_comm, abs_of_nonneg (by linarith)]; exact hx
    have h3 : |a * x * (powers (a * x) N * x - powers a N)| ≤ N ^ 2 * δ := by
      rw [abs_mul]
      calc |a * x| * _ ≤ 1 * (N ^ 2 * δ) := mul_le_mul hax ih (abs_nonneg _) (by norm_num)
        _ = _ := one_mul _
    have h4 : |a * powers a N * (x - 1)| ≤ N * δ := by
      rw [abs_mul]
      have : |a * powers a N| ≤ N := by
        rw [abs_of_nonneg (mul_nonneg ha hp0)]
        calc a * powers a N ≤ 1 * N := mul_le_mul ha1 hp1 hp0 (by norm_num)
          _ = N := one_mul _
      exact mul_le_mul this h2 (abs_nonneg _) (Nat.cast_nonneg _)
    have h5 := abs_add_le (x - 1) (a * x * (powers (a * x) N * x - powers a N) + a * powers a N * (x - 1))
    have h6 := abs_add_le (a * x * (powers (a * x) N * x - powers a N)) (a * powers a N * (x - 1))
    push_cast
    have hN : (0 : ℚ) ≤ N * δ := mul_nonneg (Nat.cast_nonneg _) hδ
    nlinarith

section
variable {c : AnyTest A} {f : Args A → Ev Bool} {N : Nat} (h : Searches c f N)
  {fails : Args A → Bool} (hfails : ∀ a, fails a = true ↔ (f a).Fails)
include h hfails

omit hfails in
theorem not_both (a : Args A) (hd : (f a).discarded = true) : ¬ (f a).Fails := by
  have ho : (f a).out = .throws .discard := by simpa [Ev.discarded] using hd
  have hq := h.quiet a (.inr ho)
  rintro (h1 | ⟨x, h1, _, h2, _⟩ | h1)
  · rw [ho] at h1; cases h1
  · rw [ho] at h1; cases h1; exact h2 rfl
  · exact h1 hq

/-- The three things that can happen in a run. -/
theorem mean_three {p d : ℚ} {e : Exp (Outcome (Args A))} (he : Follows (argsDraw c) e)
    (hp : e.mean (hit fails) = p) (hd : e.mean (hit fun a => (f a).discarded) = d) (fuel : Nat) (E : Args A → Bool) :
    passRun f e fuel = (1 - p - d) * powers d fuel ∧
    failRun f e fuel E = e.mean (hit fun a => fails a && E a) * powers d fuel ∧ 0 ≤ p ∧ 0 ≤ d ∧ p + d ≤ 1 := by
  classical
  have hf : ∀ a, decide (f a).Fails = fails a := fun a => by
    rw [Bool.eq_iff_iff, hfails]; simp
  have ht : e.mean (hit fun _ => true) = 1 := mean_returns he fun σ R s => by
    obtain ⟨r, hr⟩ := h.total σ R s
    exact ⟨_, by unfold argsDraw; rw [hr]; rfl⟩
  have hsum : e.mean (hit fun a => !(f a).discarded && !decide (f a).Fails) + p + d = 1 := by
    rw [← hp, ← hd, ← Exp.mean_add, ← Exp.mean_add]
    refine Eq.trans ?_ ht
    congr 1
    funext o
    cases o with
    | ok a =>
      simp only [hit, hf]
      by_cases h1 : (f a).discarded = true
      · have : fails a = false := by
          have := not_both h a h1
          rw [← hfails] at this
          simpa using this
        simp [h1, this]
      · cases hb : fails a <;> simp [h1]
    | throws x => simp [hit]
    | ub => simp [hit]
    | diverges => simp [hit]
  have pos : ∀ E : Args A → Bool, 0 ≤ e.mean (hit E) := fun E => by
    have := Exp.mean_le (f := fun _ => 0) (g := hit E) (fun o => by
      cases o <;> simp only [hit] <;> first | exact le_rfl | (split <;> norm_num)) he.1
    rwa [Exp.mean_const 0 he.1] at this
  refine ⟨?_, ?_, hp ▸ pos _, hd ▸ pos _, ?_⟩
  · rw [passRun, hd]; congr 1; linarith
  · rw [failRun, hd]; simp only [hf]
  · have := pos fun a => !(f a).discarded && !decide (f a).Fails
    linarith

end

theorem powers_zero (k : Nat) : powers 0 (k + 1) = 1 := by simp [powers]

end Engine
end Verif
