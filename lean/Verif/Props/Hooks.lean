import Verif.Lemmas.Hooks
import Verif.Props.Property
/-
C122, C123: what the verdict of `forAll` means when the startup and cleanup hooks may do anything.
-/
namespace Verif
namespace Engine
open PairTuple
variable {n : Nat} {A : Fin n → Type} {σ : Type}

/-- Whatever the hooks, the generators and the property function do (also when they have memory): `forAll` returns
false only if, in a run and not merely while shrinking, the property function returned false, or something the user
wrote threw a `std::exception` other than Discard and Success or recorded a failed expectation. -/
theorem C122_false_means_something_failed (c : Cfg σ A) (fuel : Nat) (seed : σ) (r : Report A) (tr : Trace A)
    (h : forAll c fuel seed [] = (.ok r, tr)) (hv : r.verdict = false) : ∃ ev ∈ tr, ev.Failing :=
  forAll_bad h hv

/-- In particular: when the hooks and generators never fail, it is the property function that failed in a run. -/
theorem C122_property_function_failed (c : Cfg σ A) (fuel : Nat) (seed : σ) (r : Report A) (tr : Trace A)
    (h : forAll c fuel seed [] = (.ok r, tr)) (hv : r.verdict = false)
    (hs : ∀ ph e, .startup ph e ∈ tr → ¬ e.HookFails) (hc : ∀ ph e, .cleanup ph e ∈ tr → ¬ e.HookFails)
    (hg : ∀ ph x, .genThrew ph x ∈ tr → ¬ Exn.IsError x) :
    ∃ x ∈ calls .run tr, x.2.Fails := by
  obtain ⟨ev, h1, h2⟩ := forAll_bad h hv
  cases ev with
  | startup ph e => cases ph <;> first | exact absurd h2 (hs _ _ h1) | exact h2.elim
  | cleanup ph e => cases ph <;> first | exact absurd h2 (hc _ _ h1) | exact h2.elim
  | genThrew ph e => cases ph <;> first | exact absurd h2 (hg _ _ h1) | exact h2.elim
  | call ph a e =>
    cases ph with
    | run =>
      refine ⟨(a, e), ?_, h2⟩
      unfold calls
      rw [List.mem_filterMap]
      exact ⟨_, List.mem_reverse.2 h1, by simp [Event.call?]⟩
    | shrink => exact h2.elim
    | single => exact h2.elim

/-- the startup hook fails an expectation in the second run -/
def badStart : Cfg Nat (fun _ : Fin 1 => Nat) :=
  { demo (fun k => Shr.leaf k) (fun _ => returns true) 5 with
    startup := some (fun tr => if tr = [] then ⟨[], .ok ()⟩ else ⟨["ready"], .ok ()⟩) }

-- The theorem applies: `forAll` returns false after two runs although the property function returned true in both.
example : shown (forAll badStart 5 0 []) = (.ok false, some (2, 1, 1), [0, 1], []) := by decide +kernel

/-- If `forAll` returns true, then Discard or Success was thrown during it, or every run (`numRuns` of them, or as many
as reported when the time limit was hit) consisted of a startup hook that returned, a call that returned true and a
cleanup hook that returned, none of which recorded a failed expectation, and nothing else happened.

Partial: C123 asks that no run failed also when Discard or Success is thrown; this is false, see
`C123_success_in_cleanup_hides_failures_violated`. -/
theorem C123_true_means_nothing_failed_partial (c : Cfg σ A) (fuel : Nat) (seed : σ) (r : Report A) (tr : Trace A)
    (h : forAll c fuel seed [] = (.ok r, tr)) (hv : r.verdict = true) :
    (∃ ev ∈ tr, ev.Interrupts) ∨ ∃ as : List (Args A), tr.reverse = as.flatMap c.goodRun ∧
      (r = .passed ∧ as.length = c.numRuns ∨ r = .timedOut as.length ∧ as.length < c.numRuns) :=
  forAll_good h hv

-- The theorem applies, with both hooks: three runs, in each the startup hook (0), a call (1) and the cleanup hook (2).
example : shown (forAll (hooked (fun k => Shr.leaf k) (fun _ => returns true) 3) 5 0 []) =
      (.ok true, none, [0, 1, 2], []) ∧
    kinds (forAll (hooked (fun k => Shr.leaf k) (fun _ => returns true) 3) 5 0 []).2.reverse =
      [0, 1, 2, 0, 1, 2, 0, 1, 2] := by decide +kernel

/-- C123 is violated, whatever the property is: when the cleanup hook uses PROP_SUCCESS, `forAll` returns true after
`numRuns` runs although every call of the property function may have returned false. -/
theorem C123_success_in_cleanup_hides_failures_violated {c : Cfg σ A}
    (hst : QuietHook c.startup) (hcl : c.cleanup = some (fun _ => ⟨[], .throws .success⟩)) (hg : c.GensTotal)
    (hf : ∀ tr a, ∃ b, (c.func tr a).out = .ok b) (h0 : c.maxDurationMs = 0) (fuel : Nat) (seed : σ) :
    (forAll c (fuel + 1) seed []).1 = .ok .passed := by
  have hgd : ∀ s : St σ A, ∃ s', guarded c s = (.ok .pass, s') := by
    intro s
    obtain ⟨⟨ts, r⟩, hd⟩ := hg s.rand
    obtain ⟨b, hb⟩ := hf (suEv c .run ++ s.trace) (Tup.get ts)
    unfold guarded Eng.tryCatch attempt invokeWithGenTuple assertToProperty
    simp only [Eng.bind_apply, Eng.modify, runStartup_quiet hst, drawRun_apply, hd, Eng.tryCatch, callFunc_apply, hb,
      runCleanup_some _ hcl, record]
    exact ⟨_, rfl⟩
  have hloop : ∀ (left : Nat) (s : St σ A), (forLoop c (fuel + 1) left s).1 = .ok .passed := by
    intro left
    induction left with
    | zero => intro s; rfl
    | succ left ih =>
      intro s
      obtain ⟨s', hs'⟩ := hgd s
      rw [forLoop_succ, if_neg (by simp [h0]), doWhile, Eng.bind_apply, hs']
      exact ih _
  unfold forAll runForAll Eng.withContext Eng.catchStd Eng.tryCatch
  have := hloop c.numRuns ⟨seed, seed, 0, [], []⟩
  cases hm : forLoop c (fuel + 1) c.numRuns ⟨seed, seed, 0, [], []⟩ with
  | mk o s1 =>
    rw [hm] at this
    simp only at this
    subst this
    simp only [hm]

-- The property function returns false on every argument, `forAll` returns true.
example : shown (forAll { demo (fun k => Shr.leaf k) (fun _ => returns false) 3 with
      cleanup := some (fun _ => ⟨[], .throws .success⟩) } 5 0 []) = (.ok true, none, [0, 1, 2], []) := by
  decide +kernel

end Engine
end Verif
