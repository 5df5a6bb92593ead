import Verif.Spec.Property
import Verif.Spec.Tree
import Mathlib.Tactic.SplitIfs
import Verif.Lemmas.PropertyLoop
/-
Tests whose functions agree where it matters.
-/
namespace Verif
namespace Engine
open PairTuple
variable {n : Nat} {A : Fin n → Type} {σ : Type}

/-- The shrinkables have only values in `T`. -/
def Within (T : (i : Fin n) → A i → Prop) (ts : Tup A) : Prop := ∀ i v, Reach (ts i) v → T i v

theorem Within.value {T : (i : Fin n) → A i → Prop} {ts : Tup A} (h : Within T ts) (i : Fin n) : T i (ts i).value :=
  h i _ ⟨_, .refl _, rfl⟩

theorem Within.update {T : (i : Fin n) → A i → Prop} {ts : Tup A} (h : Within T ts) (N : Fin n) {u : Shr (A N)}
    (hu : ∀ v, Reach u v → T N v) : Within T (Function.update ts N u) := by
  intro i v hv
  by_cases hi : i = N
  · subst hi
    rw [Function.update_self] at hv
    exact hu v hv
  · rw [Function.update_of_ne hi] at hv
    exact h i v hv

section
variable {c : Cfg σ A} {f' : Trace A → Args A → Ev Bool} {T : (i : Fin n) → A i → Prop}
  (hf : ∀ tr a, (∀ i, T i (a i)) → c.func tr a = f' tr a)
include hf

theorem callFunc_congr (ph : Phase) (a : Args A) (ha : ∀ i, T i (a i)) :
    callFunc c ph a = callFunc { c with func := f' } ph a := by
  funext s
  unfold callFunc
  rw [hf _ _ ha]

theorem test_congr {vals : Tup A} (hv : Within T vals) (N : Fin n) {next : Shr (A N)} (hn : ∀ v, Reach next v → T N v) :
    test c vals N next = test { c with func := f' } vals N next := by
  unfold test
  rw [callFunc_congr hf .shrink _ fun i => ?_]
  · rfl
  · have := (hv.update N hn).value i
    by_cases hi : i = N
    · subst hi; simpa using this
    · simpa [Function.update_of_ne hi, Tup.get] using this

mutual
theorem shrinkN_congr (N : Fin n) : ∀ (t : Shr (A N)) (vals : Tup A) (_ : Within T vals) (_ : ∀ v, Reach t v → T N v) (s : St σ A),
    shrinkN c vals N t s = shrinkN { c with func := f' } vals N t s ∧
      ∀ w s', shrinkN c vals N t s = (.ok w, s') → Within T w
  | .node v ss, vals, hv, ht, s => by
    rw [shrinkN, shrinkN]
    exact shrinkNIter_congr N ss vals hv (fun u hu v ⟨x, hx, e⟩ => ht v ⟨x, .step (by simpa using hu) hx, e⟩) _ _
theorem shrinkNIter_congr (N : Fin n) : ∀ (ss : List (Shr (A N))) (vals : Tup A) (_ : Within T vals)
    (_ : ∀ u ∈ ss, ∀ v, Reach u v → T N v) (outer : List String) (s : St σ A),
    shrinkNIter c vals N outer ss s = shrinkNIter { c with func := f' } vals N outer ss s ∧
      ∀ w s', shrinkNIter c vals N outer ss s = (.ok w, s') → Within T w
  | [], vals, hv, _, outer, s => by
    rw [shrinkNIter, shrinkNIter]
    exact ⟨rfl, fun w s' h => by cases h; exact hv⟩
  | next :: rest, vals, hv, hs, outer, s => by
    have hn := hs next (by simp)
    rw [shrinkNIter, shrinkNIter]
    rw [← test_congr hf hv N hn]
    beta_reduce
    generalize test c vals N next s = m
    cases m with
    | mk o s1 =>
      cases o with
      | ok r =>
        simp only
        split_ifs
        · exact shrinkN_congr N next _ (hv.update N hn) hn _
        · exact shrinkNIter_congr N rest vals hv (fun u hu => hs u (by simp [hu])) outer s1
      | throws e => exact ⟨rfl, fun w s' h => by cases h⟩
      | ub => exact ⟨rfl, fun w s' h => by cases h⟩
      | diverges => exact ⟨rfl, fun w s' h => by cases h⟩
end

theorem shrinkEach_congr : ∀ (order : List (Fin n)) (vals : Tup A) (_ : Within T vals),
    shrinkEach c order vals = shrinkEach { c with func := f' } order vals
  | [], _, _ => rfl
  | N :: rest, vals, hv => by
    funext s
    rw [shrinkEach, shrinkEach, Eng.bind_apply, Eng.bind_apply]
    obtain ⟨h1, h2⟩ := shrinkN_congr hf N (vals N) vals hv (hv N) s
    unfold Eng.mk
    rw [← h1]
    cases hm : shrinkN c vals N (vals N) s with
    | mk o s1 =>
      cases o with
      | ok w => simp only; rw [shrinkEach_congr rest w (h2 _ _ hm)]
      | throws e => rfl
      | ub => rfl
      | diverges => rfl

variable (hD : ∀ order, order = c.orderRun ∨ order = c.orderShrink → ∀ s ts r, Gen.drawTuple c.gens order s = .ok (ts, r) → Within T ts)
include hD

theorem shrink_congr : shrink c = shrink { c with func := f' } := by
  funext s
  rw [shrink_apply, shrink_apply]
  cases hm : Gen.drawTuple c.gens c.orderShrink s.saved with
  | ok p =>
    obtain ⟨ts, r⟩ := p
    simp only
    rw [shrinkEach_congr hf _ _ (hD _ (.inr rfl) _ _ _ hm)]
  | throws e => rfl
  | ub => rfl
  | diverges => rfl

theorem invoke_congr : invokeWithGenTuple c = invokeWithGenTuple { c with func := f' } := by
  funext s
  unfold invokeWithGenTuple
  rw [Eng.bind_apply, Eng.bind_apply]
  unfold drawRun
  cases hm : Gen.drawTuple c.gens c.orderRun s.rand with
  | ok p =>
    obtain ⟨ts, r⟩ := p
    simp only
    rw [callFunc_congr hf .run (Tup.get ts) (hD _ (.inl rfl) _ _ _ hm).value]
  | throws e => rfl
  | ub => rfl
  | diverges => rfl

theorem runForAll_congr (fuel : Nat) : runForAll c fuel = runForAll { c with func := f' } fuel := by
  have h1 : attempt c = attempt { c with func := f' } := by
    unfold attempt
    rw [invoke_congr hf hD, shrink_congr hf hD]
    rfl
  have h2 : guarded c = guarded { c with func := f' } := by
    unfold guarded
    rw [h1]
  have h3 : ∀ fuel, doWhile c fuel = doWhile { c with func := f' } fuel := by
    intro fuel
    induction fuel with
    | zero => rfl
    | succ fuel ih => rw [doWhile, doWhile, h2, ih]
  have h4 : ∀ left, forLoop c fuel left = forLoop { c with func := f' } fuel left := by
    intro left
    induction left with
    | zero => rfl
    | succ left ih => rw [forLoop, forLoop, h3, ih]
  unfold runForAll
  rw [h4, shrink_congr hf hD]

end

end Engine
end Verif
