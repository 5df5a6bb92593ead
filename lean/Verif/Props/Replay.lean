import Verif.Props.Matrix
import Verif.Props.Property
/-
C204: what `forAll` reports, given to `example` and `matrix`.
-/
namespace Verif
namespace Engine
open PairTuple
variable {n : Nat} {A : Fin n → Type} {σ : Type}

theorem example_pure {c : Cfg σ A} (hq : c.Quiet) {f : Args A → Ev Bool} (hf : c.Pure f) (args : Args A) (s : St σ A) :
    («example» c args s).1 = match (f args).out with
      | .ok b => .ok b
      | .throws e => if e = .success then .ok true else if e.isStd then .ok false else .throws e
      | .ub => .ub
      | .diverges => .diverges := by
  obtain ⟨cu, _, h⟩ := example_quiet hq args s _ rfl
  rw [h]
  simp only [hf _ args]
  rfl

/-! ### Reported arguments -/

/-- C204, as far as it holds: for a property without memory, without PROP_EXPECT and without PROP_SUCCESS, `example` with
the arguments that `forAll` reported returns false, whenever it is called, and so does it with the arguments shrinking
started from.

Missing: properties that use PROP_EXPECT or PROP_SUCCESS, see the theorems below. -/
theorem C204_example_fails_partial {c : Cfg σ A} (hc : Setting c) {f : Args A → Ev Bool} (hf : c.Pure f)
    (hn : ∀ a, (f a).fails = []) (hs : ∀ a, (f a).out ≠ .throws .success) (fuel : Nat) (seed : σ) (a : Nat)
    (start shrunk : Tup A) (tr : Trace A) (h : forAll c fuel seed [] = (.ok (.falsified a start shrunk), tr))
    (s : St σ A) :
    («example» c (fun i => (shrunk i).value) s).1 = .ok false ∧
      («example» c (fun i => (start i).value) s).1 = .ok false := by
  have key : ∀ b, (f b).Rejects → («example» c b s).1 = .ok false := by
    intro b hb
    rw [example_pure hc.quiet hf]
    rcases hb with h | ⟨x, h, hx⟩ | h
    · rw [h]
    · rw [h]
      have : x ≠ .success := fun e => hs b (by rw [h, e])
      simp [this, hx]
    · exact absurd (hn b) h
  refine ⟨key _ (C48_shrunk_arguments_fail_partial hc hf (fun b _ => hn b) fuel seed a start shrunk tr h).1, key _ ?_⟩
  rcases start_fails hc hf (fun b _ => hn b) fuel seed _ _ _ _ h with h4 | ⟨e, h4, h5, _⟩ | h4
  · exact Or.inl h4
  · exact Or.inr (Or.inl ⟨e, h4, h5⟩)
  · exact Or.inr (Or.inr h4)

/-- A number below 3 is reported, after shrinking. -/
example : shown (forAll (demo (fun k => .node (k + 5) [.leaf k, .leaf 3]) (fun a => returns (decide (a < 3))) 4) 9 0 []) =
      (.ok false, some (1, 5, 3), [5], [0, 3]) ∧
    ∀ a, (returns (decide (a < 3))).fails = [] ∧ (returns (decide (a < 3))).out ≠ .throws .success := by
  refine ⟨by decide +kernel, fun a => ⟨rfl, by simp [returns]⟩⟩

/-- C204 is violated by every property that tells failures by PROP_EXPECT only: `forAll` reports arguments and `example`
returns true for them, as for all others. -/
theorem C204_expectations_violated {c : Cfg σ A} (hc : Setting c) {f : Args A → Ev Bool} (hf : c.Pure f)
    (ht : ∀ a, (f a).out = .ok true) (fuel : Nat) (seed : σ) (a : Nat) (start shrunk : Tup A) (tr : Trace A)
    (h : forAll c fuel seed [] = (.ok (.falsified a start shrunk), tr)) (s : St σ A) :
    (f fun i => (shrunk i).value).fails ≠ [] ∧ («example» c (fun i => (shrunk i).value) s).1 = .ok true := by
  refine ⟨?_, by rw [example_pure hc.quiet hf, ht]⟩
  have hx := (C48_shrunk_arguments_fail_partial hc hf
    (fun b hb => by rw [ht] at hb; rcases hb with hb | hb <;> cases hb) fuel seed a start shrunk tr h).1
  rcases hx with h | ⟨x, h, _⟩ | h
  · rw [ht] at h; cases h
  · rw [ht] at h; cases h
  · exact h

/-- The instance: an expectation fails from 3 on. -/
example : shown (forAll (demo (fun k => .node (k + 5) [.leaf k, .leaf 3])
      (fun a => ⟨if a < 3 then [] else ["a < 3"], .ok true⟩) 4) 9 0 []) =
    (.ok false, some (1, 5, 3), [5], [0, 3]) := by decide +kernel

/-- C204 is violated by properties that use PROP_SUCCESS: a candidate for which the property ends with PROP_SUCCESS is
taken for a counterexample by shrinking (see C51) and passes in `example`. -/
theorem C204_success_violated :
    ∃ (f : Nat → Ev Bool) (tree : Nat → Shr Nat) (start shrunk : Tup (fun _ : Fin 1 => Nat)) (tr : Trace _),
      (∀ a, (f a).fails = []) ∧
      forAll (demo tree f 4) 9 0 [] = (.ok (.falsified 1 start shrunk), tr) ∧
      ∀ s, («example» (demo tree f 4) (fun i => (shrunk i).value) s).1 = .ok true := by
  have h : shown (forAll (demo (fun k => .node (k + 5) [.leaf 0])
      (fun a => if a = 0 then ⟨[], .throws .success⟩ else ⟨[], .ok false⟩) 4) 9 0 []) =
    (.ok false, some (1, 5, 0), [5], [0]) := by decide +kernel
  obtain ⟨start, shrunk, tr, h1, _, h3⟩ := shown_falsified h
  refine ⟨_, _, start, shrunk, tr, fun a => ?_, h1, fun s => ?_⟩
  · by_cases ha : a = 0 <;> simp [ha]
  · rw [example_pure (demo_setting _ _ _).quiet
      (f := fun a => if a 0 = 0 then ⟨[], .throws .success⟩ else ⟨[], .ok false⟩) (fun _ _ => rfl)]
    simp [h3]

/-- C204 is violated by `matrix` for all properties whose calls return or throw a std::exception: called with nothing but
the reported arguments, which fail, it returns true. -/
theorem C204_matrix_violated {c : Cfg σ A} (hc : Setting c) {f : Args A → Ev Bool} (hf : c.Pure f)
    (ho : ∀ a, (∃ b, (f a).out = .ok b) ∨ ∃ x, (f a).out = .throws x ∧ x.isStd = true)
    (hq : ∀ a, (f a).out = .throws .success ∨ (f a).out = .throws .discard → (f a).fails = []) (fuel : Nat) (seed : σ)
    (a : Nat) (start shrunk : Tup A) (tr : Trace A)
    (h : forAll c fuel seed [] = (.ok (.falsified a start shrunk), tr)) (s : St σ A)
    (hs : calls .single s.trace = []) (fuel' : Nat) :
    (f fun i => (shrunk i).value).Rejects ∧
      (matrix c (fun i => [(shrunk i).value]) (fuel' + 1) s).1 = .ok true := by
  refine ⟨(C48_shrunk_arguments_fail_partial hc hf hq fuel seed a start shrunk tr h).1, ?_⟩
  obtain ⟨r, s', _, h1, _⟩ := C56_matrix_covers_product hc.quiet (fun tr a => by rw [hf]; exact ho a)
    (fun i => [(shrunk i).value]) (by simp) (fuel' + 1) (by simp) s hs
  rw [h1, C57_matrix_always_true_violated c _ _ s r s' h1]

/-- The reported number as the only combination. -/
example : (matrix (pairProp (fun a b => ⟨[], .ok (decide (a < b))⟩)) (fun i => if i = 0 then [4] else [3]) 6 fresh).1 =
    .ok true := by decide +kernel

/-! ### Arguments of runs that passed -/

/-- C204: after a test that passed, `example` with the arguments of any of its runs returns true, unless the run was
discarded: then it returns false, though the test did not count the run as failed. -/
theorem C204_passed_runs {c : Cfg σ A} (hc : Setting c) {f : Args A → Ev Bool} (hf : c.Pure f) (fuel : Nat) (seed : σ)
    (tr : Trace A) (h : forAll c fuel seed [] = (.ok .passed, tr)) (s : St σ A) :
    ∀ x ∈ calls .run tr, («example» c x.1 s).1 = .ok (!x.2.discarded) := by
  intro x hx
  have hfx : x.2 = f x.1 := run_calls_pure hc hf fuel seed _ tr h x hx
  rw [example_pure hc.quiet hf, ← hfx]
  by_cases hd : x.2.out = .throws .discard
  · simp [hd, Ev.discarded, Exn.isStd]
  · rcases (C43_true_means_every_run_passed hc fuel seed tr h).2 x hx hd with h | ⟨h, _⟩
    · simp [h, Ev.discarded]
    · simp [h, Ev.discarded]

/-- Three runs count, two are discarded. -/
example : shown (forAll (demo (fun k => .leaf k) (fun a => if a % 2 = 0 then returns true else raises .discard) 3) 9 0
    []) = (.ok true, none, [0, 1, 2, 3, 4], []) := by decide +kernel

end Engine
end Verif
