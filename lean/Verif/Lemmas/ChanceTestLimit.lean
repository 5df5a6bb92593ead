import Verif.Lemmas.ChanceTest
import Mathlib.Topology.Instances.Rat
import Mathlib.Topology.Algebra.Field
import Mathlib.Analysis.SpecificLimits.Basic
/-
The experiment of a call of `forAll`, for generators that may go on forever.
-/
namespace Verif
namespace Engine
open PairTuple
variable {n : Nat} {A : Fin n → Type} {σ : Type}

theorem guarded_diverges {c : Cfg σ A} (hc : Setting c) {s : St σ A}
    (h : Gen.drawTuple c.gens c.orderRun s.rand = .diverges) : (guarded c s).1 = .diverges := by
  unfold guarded Eng.tryCatch
  rw [attempt_quiet hc.quiet, h]

theorem doWhile_stuck {c : Cfg σ A} (hc : Setting c) {s : St σ A} (fuel : Nat)
    (h : Gen.drawTuple c.gens c.orderRun s.rand = .diverges) : (doWhile c fuel s).1 = .diverges := by
  cases fuel with
  | zero => rfl
  | succ fuel =>
    rw [doWhile, Eng.bind_apply]
    have := guarded_diverges hc h
    cases hm : guarded c s with
    | mk o s1 => rw [hm] at this; simp only at this; subst this; rfl

theorem forLoop_stuck {c : Cfg σ A} (h0 : c.maxDurationMs = 0) {s : St σ A} (fuel left : Nat)
    (h : (doWhile c fuel s).1 = .diverges) : (forLoop c fuel (left + 1) s).1 = .diverges := by
  rw [forLoop_succ, if_neg (by simp [h0])]
  cases hm : doWhile c fuel s with
  | mk o s1 => rw [hm] at h; simp only at h; subst h; rfl

theorem run_andThen_diverges {α β : Type} (R : Rng σ) (k : α → Exp (Outcome β)) (e : Exp (Outcome α)) (s : σ)
    (h : (e.run R s).1 = .diverges) : ((e.andThen k).run R s).1 = .diverges := by
  unfold Exp.andThen
  rw [Exp.run_bind, h]
  rfl

theorem runExp_stuck {f : Args A → Ev Bool} {e : Exp (Outcome (Args A))} {R : Rng σ} {s : σ} (fuel : Nat)
    (h : (e.run R s).1 = .diverges) : ((runExp f e fuel).run R s).1 = .diverges := by
  cases fuel with
  | zero => rfl
  | succ fuel => rw [runExp]; exact run_andThen_diverges R _ e s h

section
variable {c : Cfg σ A} (hc : Setting c) {f : Args A → Ev Bool} (hf : c.Pure f) (hr : Returns f)
  (hx : ∀ a, (f a).out = .throws .success ∨ (f a).out = .throws .discard → (f a).fails = [])
  {fails : Args A → Bool} (hfails : ∀ a, fails a = true ↔ (f a).Rejects)
  {D : Nat → Tup A} {seed : σ} {R : Rng σ} {e : Exp (Outcome (Args A))}
  (hD : ∀ j, ((∃ r, Gen.drawTuple c.gens c.orderRun (c.next^[j] seed) = .ok (D j, r)) ∧
      e.run R (c.next^[j] seed) = (.ok (Tup.get (D j)), c.next^[j + 1] seed)) ∨
    (Gen.drawTuple c.gens c.orderRun (c.next^[j] seed) = .diverges ∧ (e.run R (c.next^[j] seed)).1 = .diverges))
include hc hf hr hfails hD hx

/-- The `do ... while` loop does what the experiment does. -/
theorem doWhile_exp' : ∀ (fuel j i : Nat) (s : St σ A), At c f D seed j i s →
    (∃ s' j', doWhile c fuel s = (.ok none, s') ∧ At c f D seed j' i s' ∧
      (runExp f e fuel).run R (c.next^[j] seed) = (.ok none, c.next^[j'] seed)) ∨
    (∃ j', (runExp f e fuel).run R (c.next^[j] seed) = (.ok (some (Tup.get (D j'))), c.next^[j' + 1] seed) ∧
      ((∃ Q s', doWhile c fuel s = (.ok (some Q), s') ∧ EndsAt c f D seed fails j' i Q s') ∨
      ∃ x s', doWhile c fuel s = (.throws x, s') ∧ x.isStd = true ∧
        ∃ Q s'', shrink c s' = (.ok Q, s'') ∧ EndsAt c f D seed fails j' i Q s'')) ∨
    ((doWhile c fuel s).1 = .diverges ∧ ((runExp f e fuel).run R (c.next^[j] seed)).1 = .diverges) := by
  intro fuel
  induction fuel with
  | zero => intro j i s _; exact .inr (.inr ⟨rfl, rfl⟩)
  | succ fuel ih =>
    intro j i s h
    rcases hD j with ⟨hDj, he⟩ | ⟨hDj, he⟩
    · obtain ⟨ha, hp, hF⟩ := guarded_at hc hf hr hx hfails hDj h
      rw [runExp, run_andThen R _ e _ _ _ he, doWhile, Eng.bind_apply]
      by_cases hd : (f (Tup.get (D j))).discarded = true
      · obtain ⟨s', h1, h2⟩ := ha hd
        rw [h1, if_pos hd]
        exact ih (j + 1) i s' h2
      · rw [if_neg hd]
        have hd : (f (Tup.get (D j))).discarded = false := by simpa using hd
        by_cases hfl : (f (Tup.get (D j))).Fails
        · rw [if_pos hfl]
          refine .inr (.inl ⟨j, rfl, ?_⟩)
          rcases hF hfl with ⟨Q, s', h1, h2⟩ | ⟨x, s', h1, h2⟩
          · rw [h1]; exact .inl ⟨Q, s', rfl, h2⟩
          · rw [h1]; exact .inr ⟨x, s', rfl, h2⟩
        · rw [if_neg hfl]
          obtain ⟨s', h1, h2⟩ := hp hd hfl
          rw [h1]
          exact .inl ⟨s', j + 1, rfl, h2, rfl⟩
    · exact .inr (.inr ⟨doWhile_stuck hc _ (by rw [h.rand]; exact hDj), runExp_stuck _ he⟩)

/-- The `for` loop does what the experiment does. -/
theorem forLoop_exp' (h0 : c.maxDurationMs = 0) (fuel : Nat) : ∀ (left j i : Nat) (s : St σ A), At c f D seed j i s →
    (∃ s' j', forLoop c fuel left s = (.ok .passed, s') ∧ s'.rand = c.next^[j'] seed ∧
      (testExp f e fuel left i).run R (c.next^[j] seed) = (.ok none, c.next^[j'] seed)) ∨
    (∃ j' i', (testExp f e fuel left i).run R (c.next^[j] seed) =
        (.ok (some (i' + 1, Tup.get (D j'))), c.next^[j' + 1] seed) ∧
      ((∃ Q s', forLoop c fuel left s = (.ok Q, s') ∧ EndsAt c f D seed fails j' i' Q s') ∨
      ∃ x s', forLoop c fuel left s = (.throws x, s') ∧ x.isStd = true ∧
        ∃ Q s'', shrink c s' = (.ok Q, s'') ∧ EndsAt c f D seed fails j' i' Q s'')) ∨
    ((forLoop c fuel left s).1 = .diverges ∧ ((testExp f e fuel left i).run R (c.next^[j] seed)).1 = .diverges) := by
  intro left
  induction left with
  | zero =>
    intro j i s h
    exact .inl ⟨s, j, rfl, h.rand, rfl⟩
  | succ left ih =>
    intro j i s h
    rcases doWhile_exp' hc hf hr hx hfails hD fuel j i s h with
      ⟨s', j', h1, h2, h3⟩ | ⟨j', h1, h2⟩ | ⟨h1, h2⟩
    · rw [forLoop_succ, if_neg (by simp [h0]), h1, testExp, run_andThen R _ _ _ _ _ h3]
      exact ih j' (i + 1) _ ⟨h2.rand, by simp [h2.i], h2.fails, h2.runs, h2.shrinks⟩
    · rw [testExp, run_andThen R _ _ _ _ _ h1]
      refine .inr (.inl ⟨j', i, rfl, ?_⟩)
      rw [forLoop_succ, if_neg (by simp [h0])]
      rcases h2 with ⟨Q, s', h3, h4⟩ | ⟨x, s', h3, h4⟩
      · rw [h3]; exact .inl ⟨Q, s', rfl, h4⟩
      · rw [h3]; exact .inr ⟨x, s', rfl, h4⟩
    · refine .inr (.inr ⟨forLoop_stuck h0 fuel left h1, ?_⟩)
      rw [testExp]
      exact run_andThen_diverges R _ _ _ h2

end

/-- A call of `forAll` does what the experiment does. -/
theorem follows_forAll' {c : AnyTest A} {f : Args A → Ev Bool} {N : Nat} (h : Searching c f N)
    {e : Exp (Outcome (Args A))} (he : Follows (argsDraw c) e) (fuel : Nat) :
    Follows (forAllCall c fuel) (testExp f e fuel N 0) := by
  classical
  refine ⟨valid_testExp f he.1 fuel N 0, fun σ R seed => ?_⟩
  have hdiv : ∀ s, Gen.drawTuple (c σ R).gens (c σ R).orderRun s = .diverges → (e.run R s).1 = .diverges := by
    intro s hs
    have h1 := he.2 σ R s
    unfold argsDraw at h1
    rw [hs] at h1
    cases ho : (e.run R s).1 with
    | diverges => rfl
    | ok a => rw [ho] at h1; cases h1
    | throws a => rw [ho] at h1; cases h1
    | ub => rw [ho] at h1; cases h1
  have key : (∃ s' x, forLoop (c σ R) fuel N ⟨seed, seed, 0, [], []⟩ = (.ok .passed, s') ∧ s'.rand = x ∧
        (testExp f e fuel N 0).run R seed = (.ok none, x)) ∨
      (∃ D : Nat → Tup A, ∃ j' i', (testExp f e fuel N 0).run R seed =
          (.ok (some (i' + 1, Tup.get (D j'))), (c σ R).next^[j' + 1] seed) ∧
        ((∃ Q s', forLoop (c σ R) fuel N ⟨seed, seed, 0, [], []⟩ = (.ok Q, s') ∧
          EndsAt (c σ R) f D seed (fun a => decide (f a).Rejects) j' i' Q s') ∨
        ∃ x s', forLoop (c σ R) fuel N ⟨seed, seed, 0, [], []⟩ = (.throws x, s') ∧ x.isStd = true ∧
          ∃ Q s'', shrink (c σ R) s' = (.ok Q, s'') ∧
            EndsAt (c σ R) f D seed (fun a => decide (f a).Rejects) j' i' Q s'')) ∨
      ((forLoop (c σ R) fuel N ⟨seed, seed, 0, [], []⟩).1 = .diverges ∧
        ((testExp f e fuel N 0).run R seed).1 = .diverges) := by
    rcases h.draws σ R seed with ⟨⟨ts, r⟩, hs⟩ | hs
    · have hD : ∀ j, ∃ t : Tup A, ((∃ r, Gen.drawTuple (c σ R).gens (c σ R).orderRun ((c σ R).next^[j] seed) = .ok (t, r)) ∧
            e.run R ((c σ R).next^[j] seed) = (.ok (Tup.get t), (c σ R).next^[j + 1] seed)) ∨
          (Gen.drawTuple (c σ R).gens (c σ R).orderRun ((c σ R).next^[j] seed) = .diverges ∧
            (e.run R ((c σ R).next^[j] seed)).1 = .diverges) := by
        intro j
        rcases h.draws σ R ((c σ R).next^[j] seed) with ⟨⟨t, r⟩, hj⟩ | hj
        · refine ⟨t, .inl ⟨⟨r, hj⟩, ?_⟩⟩
          have h1 := he.2 σ R ((c σ R).next^[j] seed)
          unfold argsDraw at h1
          rw [hj] at h1
          rw [Function.iterate_succ_apply', Cfg.next, hj]
          exact close_ok h1.symm
        · exact ⟨ts, .inr ⟨hj, hdiv _ hj⟩⟩
      choose D hD using hD
      have key := forLoop_exp' (h.setting σ R) (h.pure σ R) h.out h.quiet (fails := fun a => decide (f a).Rejects)
        (by simp) hD (h.noLimit σ R) fuel N 0 0 ⟨seed, seed, 0, [], []⟩ ⟨rfl, rfl, rfl, rfl, rfl⟩
      simp only [Function.iterate_zero, id_eq] at key
      rcases key with ⟨s', j', h1, h2, h3⟩ | ⟨j', i', h1, h2⟩ | h1
      · exact .inl ⟨s', _, h1, h2, h3⟩
      · exact .inr (.inl ⟨D, j', i', h1, h2⟩)
      · exact .inr (.inr h1)
    · cases N with
      | zero => exact .inl ⟨_, _, rfl, rfl, rfl⟩
      | succ N =>
        refine .inr (.inr ⟨forLoop_stuck (h.noLimit σ R) fuel N (doWhile_stuck (h.setting σ R) fuel hs), ?_⟩)
        rw [testExp]
        exact run_andThen_diverges R _ _ _ (runExp_stuck _ (hdiv _ hs))
  unfold forAllCall runForAll Eng.withContext Eng.catchStd Eng.tryCatch
  rw [h.runs σ R]
  rcases key with ⟨s', j', h1, h2, h3⟩ | ⟨D, j', i', h1, h2⟩ | ⟨h1, h2⟩
  · simp only [h1, h3, Outcome.bind, Report.found, h2]
  · rw [h1]
    rcases h2 with ⟨Q, s', h3, h4⟩ | ⟨x, s', h3, hs, Q, s'', h4, h5⟩
    · simp only [h3, Outcome.bind, h4.report, Report.found, h4.rand]
      rfl
    · simp only [h3, hs, if_true, h4, Outcome.bind, h5.report, Report.found, h5.rand]
      rfl
  · cases hm : forLoop (c σ R) fuel N ⟨seed, seed, 0, [], []⟩ with
    | mk o s1 =>
      rw [hm] at h1
      simp only at h1
      subst h1
      simp only [h2, Outcome.bind]

theorem not_both' {c : AnyTest A} {f : Args A → Ev Bool} {N : Nat} (h : Searching c f N) (a : Args A)
    (hd : (f a).discarded = true) : ¬ (f a).Fails := by
  have ho : (f a).out = .throws .discard := by simpa [Ev.discarded] using hd
  have hq := h.quiet a (.inr ho)
  rintro (h1 | ⟨x, h1, _, h2, _⟩ | h1)
  · rw [ho] at h1; cases h1
  · rw [ho] at h1; cases h1; exact h2 rfl
  · exact h1 hq

end Engine
end Verif
