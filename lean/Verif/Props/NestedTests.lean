import Verif.Props.MapTest
import Verif.Props.Process
/-
C202: tests can be nested, the property of one test being another test.
-/
namespace Verif
namespace Engine
open PairTuple Shr Process
variable {n m : Nat} {A : Fin n → Type} {B : Fin m → Type} {σ τ : Type}

/-- The property function `[](args...) { return forAll(inner...); }` whose body is another test that may depend on the arguments. The
inner test has its own context and its own engine, made from the seed, and the context of the outer test is in force again afterwards
(/repo/proptest/PropertyContext.cpp:17-25, C58), hence no failed expectation of the inner test gets into the outer one. -/
def nested (inner : Args A → Cfg τ B) (fuel : Nat) (seed : Args A → τ) (a : Args A) : Ev Bool :=
  ⟨[], over Report.verdict (forAll (inner a) fuel (seed a) []).1⟩

theorem nested_ok {inner : Args A → Cfg τ B} {fuel : Nat} {seed : Args A → τ} {a : Args A} {b : Bool}
    (h : (nested inner fuel seed a).out = .ok b) :
    ∃ r, forAll (inner a) fuel (seed a) [] = (.ok r, (forAll (inner a) fuel (seed a) []).2) ∧ r.verdict = b := by
  unfold nested at h
  simp only at h
  cases ho : (forAll (inner a) fuel (seed a) []).1 with
  | ok r => rw [ho] at h; simp only [over, Outcome.ok.injEq] at h; exact ⟨r, by rw [← ho], h⟩
  | throws e => rw [ho] at h; cases h
  | ub => rw [ho] at h; cases h
  | diverges => rw [ho] at h; cases h

theorem nested_throws {inner : Args A → Cfg τ B} {fuel : Nat} {seed : Args A → τ} {a : Args A} {e : Exn}
    (h : (nested inner fuel seed a).out = .throws e) : (forAll (inner a) fuel (seed a) []).1 = .throws e := by
  unfold nested at h
  simp only at h
  cases ho : (forAll (inner a) fuel (seed a) []).1 with
  | ok r => rw [ho] at h; cases h
  | throws e' => rw [ho] at h; simp only [over, Outcome.throws.injEq] at h; rw [h]
  | ub => rw [ho] at h; cases h
  | diverges => rw [ho] at h; cases h

/-- C202 (true). The property of a test is another test, which may depend on the arguments. When the outer test passes, the inner
test has been made on as many arguments as there are runs and, on each of these, with as many arguments as it has runs, and each of
these calls of the inner property function passed: those which the inner function discarded are not counted. (The inner tests have no time limit,
and their exceptions are not Discard or Success.) -/
theorem C202_true {c : Cfg σ A} (hc : Setting c) {inner : Args A → Cfg τ B} (hi : ∀ a, Setting (inner a)) {innerFuel : Nat}
    {innerSeed : Args A → τ} (hf : c.Pure (nested inner innerFuel innerSeed))
    (hx : ∀ a, (forAll (inner a) innerFuel (innerSeed a) []).1 ≠ .throws .discard ∧
      (forAll (inner a) innerFuel (innerSeed a) []).1 ≠ .throws .success)
    (ht : ∀ a k, (forAll (inner a) innerFuel (innerSeed a) []).1 ≠ .ok (.timedOut k))
    (fuel : Nat) (seed : σ) (tr : Trace A) (h : forAll c fuel seed [] = (.ok .passed, tr)) :
    (calls .run tr).length = c.numRuns ∧
    ∀ x ∈ calls .run tr, ∃ tr', forAll (inner x.1) innerFuel (innerSeed x.1) [] = (.ok .passed, tr') ∧
      ((calls .run tr').filter (fun y => y.2.out ≠ .throws .discard)).length = (inner x.1).numRuns ∧
      ∀ y ∈ calls .run tr', y.2.out ≠ .throws .discard →
        y.2.out = .throws .success ∨ (y.2.out = .ok true ∧ y.2.fails = []) := by
  obtain ⟨h1, h2⟩ := C43_true_means_every_run_passed hc fuel seed tr h
  have hp := run_calls_pure hc hf fuel seed _ tr h
  have hnd : ∀ x ∈ calls .run tr, x.2.out ≠ .throws .discard := by
    intro x hm hd
    rw [hp x hm] at hd
    exact (hx x.1).1 (nested_throws hd)
  refine ⟨?_, fun x hm => ?_⟩
  · rw [List.filter_eq_self.mpr (fun x hm => by simpa using hnd x hm)] at h1
    exact h1
  · rcases h2 x hm (hnd x hm) with h3 | ⟨h3, _⟩
    · rw [hp x hm] at h3
      exact absurd (nested_throws h3) (hx x.1).2
    · rw [hp x hm] at h3
      obtain ⟨r, h4, h5⟩ := nested_ok h3
      cases r with
      | passed =>
        refine ⟨_, h4, ?_⟩
        exact C43_true_means_every_run_passed (hi x.1) innerFuel (innerSeed x.1) _ h4
      | timedOut k => exact absurd (congrArg Prod.fst h4) (ht x.1 k)
      | falsified k s t => simp [Report.verdict] at h5

/-- C202 (false). When the outer test fails, the arguments it reports are arguments on which the inner test fails: made again on them,
it calls the inner property function with arguments for which this function fails, or an exception leaves it. -/
theorem C202_false {c : Cfg σ A} (hc : Setting c) {inner : Args A → Cfg τ B} (hi : ∀ a, Setting (inner a)) {innerFuel : Nat}
    {innerSeed : Args A → τ} (hf : c.Pure (nested inner innerFuel innerSeed)) (fuel : Nat) (seed : σ) (k : Nat)
    (start shrunk : Tup A) (tr : Trace A) (h : forAll c fuel seed [] = (.ok (.falsified k start shrunk), tr)) :
    (∃ r tr', forAll (inner fun i => (shrunk i).value) innerFuel (innerSeed fun i => (shrunk i).value) [] = (.ok r, tr') ∧
      r.verdict = false ∧ ∃ y ∈ calls .run tr', y.2.Fails) ∨
    ∃ e, (forAll (inner fun i => (shrunk i).value) innerFuel (innerSeed fun i => (shrunk i).value) []).1 = .throws e ∧
      e.isStd = true := by
  obtain ⟨h1, _⟩ := C48_shrunk_arguments_fail_partial hc hf (fun a _ => rfl) fuel seed k start shrunk tr h
  rcases h1 with h1 | ⟨e, h1, h2⟩ | h1
  · obtain ⟨r, h3, h4⟩ := nested_ok h1
    exact .inl ⟨r, _, h3, h4, C44_false_means_some_run_failed (hi _) innerFuel _ r _ h3 h4⟩
  · exact .inr ⟨e, nested_throws h1, h2⟩
  · exact absurd rfl h1

/-- C202 fails: further runs of the outer test do not make the inner test try further inputs. When the inner generators do not depend
on the outer arguments and the inner tests have no seed of their own (all of them get the seed of the process, C178), the inputs tried
by the inner test in one run of the outer test begin with those tried in another one. -/
theorem C202_inner_inputs_violated {inner : Args A → Cfg τ B} (gens : (i : Fin m) → Gen τ (B i)) (order : List (Fin m))
    (hg : ∀ a, (inner a).gens = gens) (ho : ∀ a, (inner a).orderRun = order) (hi : ∀ a, Setting (inner a))
    (ht : ∀ a, (inner a).GensTotal) (innerFuel : Nat) (s : τ) (a a' : Args A) :
    inputs (forAll (inner a) innerFuel s []) <+: inputs (forAll (inner a') innerFuel s []) ∨
    inputs (forAll (inner a') innerFuel s []) <+: inputs (forAll (inner a) innerFuel s []) := by
  obtain ⟨D, hD⟩ := drawn_ex (ht a) s
  have hn : (inner a').next = (inner a).next := by
    funext s
    unfold Cfg.next
    rw [hg, hg, ho, ho]
  have hD' : (inner a').Drawn s D := by
    intro j
    rw [hn, hg, ho, ← hg a, ← ho a]
    exact hD j
  have key1 := inputs_drawn (hi a).quiet (hi a).nodup (ht a) innerFuel s D hD
  have key2 := inputs_drawn (hi a').quiet (hi a').nodup (ht a') innerFuel s D hD'
  rcases Nat.le_total (inputs (forAll (inner a) innerFuel s [])).length (inputs (forAll (inner a') innerFuel s [])).length
    with hl | hl
  · exact .inl (prefix_of key1 key2 hl)
  · exact .inr (prefix_of key2 key1 hl)

/-- An inner test of two runs on 3, 4, ...: the sum of both arguments is less than `bound`. -/
def sums (bound : Nat) (a : Args (fun _ : Fin 1 => Nat)) : Cfg Nat (fun _ : Fin 1 => Nat) :=
  demo (fun k => .leaf k) (fun b => returns (a 0 + b < bound)) 2

/-- The outer test, of three runs on 0, 1, 2, each of which shrinks to the smaller ones. -/
def outer (bound : Nat) : Cfg Nat (fun _ : Fin 1 => Nat) :=
  { demo (fun k => .node k ((List.range k).map .leaf)) (fun _ => returns true) 3 with
    func := fun _ a => nested (sums bound) 9 (fun _ => 3) a }

theorem outer_setting (bound : Nat) : Setting (outer bound) where
  quiet := (demo_setting (fun k => .node k ((List.range k).map .leaf)) (fun _ => returns true) 3).quiet
  order := (demo_setting (fun k => .node k ((List.range k).map .leaf)) (fun _ => returns true) 3).order
  nodup := (demo_setting (fun k => .node k ((List.range k).map .leaf)) (fun _ => returns true) 3).nodup
  gens := (demo_setting (fun k => .node k ((List.range k).map .leaf)) (fun _ => returns true) 3).gens

/-- All six sums are less than 7. -/
example : (∀ a, Setting (sums 7 a)) ∧ (outer 7).Pure (nested (sums 7) 9 fun _ => 3) ∧
    shown (forAll (outer 7) 9 0 []) = (.ok true, none, [0, 1, 2], []) ∧
    (inputs (forAll (sums 7 fun _ => 2) 9 3 [])).map (· 0) = [3, 4] :=
  ⟨fun _ => demo_setting _ _ _, fun _ _ => rfl, by decide +kernel, by decide +kernel⟩

/-- Not all of them are less than 5: the run on 1 fails, as 1 + 4 is 5, and 1 is reported since the inner test passes on 0. -/
example : (∀ a, Setting (sums 5 a)) ∧ (outer 5).Pure (nested (sums 5) 9 fun _ => 3) ∧
    shown (forAll (outer 5) 9 0 []) = (.ok false, some (2, 1, 1), [0, 1], [0]) ∧
    shown (forAll (sums 5 fun _ => 1) 9 3 []) = (.ok false, some (2, 4, 4), [3, 4], []) :=
  ⟨fun _ => demo_setting _ _ _, fun _ _ => rfl, by decide +kernel, by decide +kernel⟩

/-- The inner test tries 3 and 4 in a run that passes, in one that fails it stops earlier. -/
example : (∀ a, (sums 5 a).GensTotal) ∧ (inputs (forAll (sums 5 fun _ => 0) 9 3 [])).map (· 0) = [3, 4] ∧
    (inputs (forAll (sums 5 fun _ => 2) 9 3 [])).map (· 0) = [3] :=
  ⟨fun _ s => ⟨_, demo_draw _ _ _ s⟩, by decide +kernel, by decide +kernel⟩

end Engine
end Verif
