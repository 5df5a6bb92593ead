import Verif.Lemmas.PropertyLoop
/-
C43-C54 and C88: `Property::forAll`.
-/
namespace Verif
namespace Engine
open PairTuple
variable {n : Nat} {A : Fin n → Type} {σ : Type}

/-! Sample properties of one argument for the examples: run number k draws the tree `tree k`. -/

/-- A property of one number; the engine state counts the draws. -/
def demo (tree : Nat → Shr Nat) (f : Nat → Ev Bool) (runs : Nat) : Cfg Nat (fun _ : Fin 1 => Nat) where
  gens := fun _ s => .ok (tree s, s + 1)
  orderRun := [0]
  orderShrink := [0]
  orderEach := [0]
  thrown := id
  func := fun _ a => f (a 0)
  startup := none
  cleanup := none
  numRuns := runs
  maxDurationMs := 0
  clock := fun _ => 0

/-- `return b` without failed expectation. -/
def returns (b : Bool) : Ev Bool := ⟨[], .ok b⟩

/-- A call that throws. -/
def raises (e : Exn) : Ev Bool := ⟨[], .throws e⟩

theorem demo_draw (tree : Nat → Shr Nat) (f : Nat → Ev Bool) (runs s : Nat) :
    Gen.drawTuple (demo tree f runs).gens (demo tree f runs).orderRun s = .ok ((fun _ => tree s), s + 1) := by
  unfold Gen.drawTuple
  simp only [demo, Gen.drawInto, Outcome.ok_bind]
  rw [dif_pos (by intro i; obtain rfl : i = 0 := Subsingleton.elim _ _; rfl)]
  congr 2
  funext i
  obtain rfl : i = 0 := Subsingleton.elim _ _
  rfl

theorem demo_setting (tree : Nat → Shr Nat) (f : Nat → Ev Bool) (runs : Nat) : Setting (demo tree f runs) where
  quiet := ⟨fun k h => by simp [demo] at h, fun k h => by simp [demo] at h⟩
  order := rfl
  nodup := by simp [demo]
  gens := fun s => by rw [demo_draw]; simp

/-- 3, 2, 1, 0 one after the other -/
def chain3 : Shr Nat := .node 3 [.node 2 [.node 1 [.node 0 []]]]

/-- What the user sees of a run of a property of one number: the verdict, the counterexample ("after" count,
start, shrunk), and the arguments of the calls in the two phases. -/
def shown (r : Outcome (Report (fun _ : Fin 1 => Nat)) × Trace (fun _ : Fin 1 => Nat)) :
    Outcome Bool × Option (Nat × Nat × Nat) × List Nat × List Nat :=
  (match r.1 with
    | .ok R => .ok R.verdict
    | .throws e => .throws e
    | .ub => .ub
    | .diverges => .diverges,
   match r.1 with
    | .ok (.falsified a s t) => some (a, (s 0).value, (t 0).value)
    | _ => none,
   (calls .run r.2).map (fun x => x.1 0), (calls .shrink r.2).map (fun x => x.1 0))

theorem shown_falsified {r a s t v c d} (h : shown r = (v, some (a, s, t), c, d)) :
    ∃ start shrunk tr, r = (.ok (.falsified a start shrunk), tr) ∧ (start 0).value = s ∧ (shrunk 0).value = t := by
  obtain ⟨o, tr⟩ := r
  cases o with
  | ok R =>
    cases R with
    | passed => simp [shown] at h
    | timedOut k => simp [shown] at h
    | falsified a' s' t' =>
      simp [shown] at h
      obtain ⟨_, ⟨rfl, h2, h3⟩, _⟩ := h
      exact ⟨s', t', tr, rfl, h2, h3⟩
  | throws e => simp [shown] at h
  | ub => simp [shown] at h
  | diverges => simp [shown] at h

theorem shown_passed {r c d} (h : shown r = (.ok true, none, c, d)) (hm : ∀ k, r.1 ≠ .ok (.timedOut k)) :
    ∃ tr, r = (.ok .passed, tr) ∧ (calls .run tr).map (fun x => x.1 0) = c := by
  obtain ⟨o, tr⟩ := r
  cases o with
  | ok R =>
    cases R with
    | passed => simp [shown] at h; exact ⟨tr, rfl, h.2.1⟩
    | timedOut k => exact absurd rfl (hm k)
    | falsified a' s' t' => simp [shown] at h
  | throws e => simp [shown] at h
  | ub => simp [shown] at h
  | diverges => simp [shown] at h

/-! ### C43 -/

/-- If `forAll` returns true without hitting the time limit then exactly `numRuns` calls of the property function
were not discarded, and each of them returned true without a failed expectation or ended with PROP_SUCCESS. -/
theorem C43_true_means_every_run_passed {c : Cfg σ A} (hc : Setting c) (fuel : Nat) (seed : σ) (tr : Trace A)
    (h : forAll c fuel seed [] = (.ok .passed, tr)) :
    ((calls .run tr).filter (fun x => x.2.out ≠ .throws .discard)).length = c.numRuns ∧
    ∀ x ∈ calls .run tr, x.2.out ≠ .throws .discard →
      x.2.out = .throws .success ∨ (x.2.out = .ok true ∧ x.2.fails = []) := by
  have hr := forAll_result hc fuel seed
  rw [h] at hr
  obtain ⟨s, hs, hi⟩ := hr.passed rfl
  subst hs
  constructor
  · rw [← hi.count]
    congr 1
    refine List.filter_congr fun x _ => ?_
    simp [kept, Ev.discarded]
  · intro x hx hd
    exact (hi.good x hx).resolve_left hd

/-- When the time limit is hit after `k` tests, the same holds for `k` calls. -/
theorem C43_time_limit {c : Cfg σ A} (hc : Setting c) (fuel : Nat) (seed : σ) (tr : Trace A) (k : Nat)
    (h : forAll c fuel seed [] = (.ok (.timedOut k), tr)) :
    k < c.numRuns ∧ ((calls .run tr).filter (fun x => x.2.out ≠ .throws .discard)).length = k ∧
    ∀ x ∈ calls .run tr, x.2.out ≠ .throws .discard →
      x.2.out = .throws .success ∨ (x.2.out = .ok true ∧ x.2.fails = []) := by
  have hr := forAll_result hc fuel seed
  rw [h] at hr
  obtain ⟨s, hs, hi, hk⟩ := hr.timedOut k rfl
  subst hs
  refine ⟨hk, ?_, ?_⟩
  · rw [← hi.count]
    congr 1
    refine List.filter_congr fun x _ => ?_
    simp [kept, Ev.discarded]
  · intro x hx hd
    exact (hi.good x hx).resolve_left hd

/-- a property that discards 1: the second run is repeated with 2 -/
def skips1 : Nat → Ev Bool := fun a => if a = 1 then raises .discard else returns true

example : shown (forAll (demo (fun k => Shr.leaf k) skips1 2) 5 0 []) = (.ok true, none, [0, 1, 2], []) := by
  decide +kernel

/-! ### C44 -/

/-- If `forAll` returns false then the property function, called on some generated arguments, returned false, threw
a std::exception other than Discard/Success, or recorded a failed expectation. -/
theorem C44_false_means_some_run_failed {c : Cfg σ A} (hc : Setting c) (fuel : Nat) (seed : σ) (r : Report A)
    (tr : Trace A) (h : forAll c fuel seed [] = (.ok r, tr)) (hv : r.verdict = false) :
    ∃ x ∈ calls .run tr, x.2.Fails := by
  have hr := forAll_result hc fuel seed
  rw [h] at hr
  cases r with
  | passed => simp [Report.verdict] at hv
  | timedOut k => simp [Report.verdict] at hv
  | falsified a start shrunk =>
    obtain ⟨i, _, hst⟩ := hr.stop a start shrunk rfl
    obtain ⟨pre, x, _, _, _, _, _, ⟨h1, _, _, h4⟩, _⟩ := hst.ex
    rw [h1]
    rcases h4 with h4 | h4 | ⟨_, y, hy, h4⟩
    · exact ⟨x, by simp, Or.inl h4⟩
    · exact ⟨x, by simp, Or.inr (Or.inl h4)⟩
    · exact ⟨y, hy, Or.inr (Or.inr h4)⟩

/-- fails from 2 on -/
def below2 : Nat → Ev Bool := fun a => returns (decide (a < 2))

example : shown (forAll (demo (fun _ => chain3) below2 10) 5 0 []) = (.ok false, some (1, 3, 2), [3], [2, 1]) := by
  decide +kernel

/-! ### C45 -/

/-- The first failing call is the last call made before shrinking; the earlier calls discarded, succeeded early or
passed, and the number of tests reported is one more than the number of earlier calls that were not discarded; it is
at most `numRuns`. -/
theorem C45_stops_at_first_failure {c : Cfg σ A} (hc : Setting c) (fuel : Nat) (seed : σ) (a : Nat)
    (start shrunk : Tup A) (tr : Trace A) (h : forAll c fuel seed [] = (.ok (.falsified a start shrunk), tr)) :
    ∃ pre x, calls .run tr = pre ++ [x] ∧
      a = (pre.filter (fun y => y.2.out ≠ .throws .discard)).length + 1 ∧ a ≤ c.numRuns ∧
      (∀ y ∈ pre, y.2.out = .throws .discard ∨ y.2.out = .throws .success ∨
        (y.2.out = .ok true ∧ y.2.fails = [])) ∧
      (x.2.Fails ∨ ∃ y ∈ pre, y.2.fails ≠ []) := by
  have hr := forAll_result hc fuel seed
  rw [h] at hr
  obtain ⟨i, hi, hst⟩ := hr.stop a start shrunk rfl
  obtain ⟨pre, x, s', t', _, _, hR, ⟨h1, h2, h3, h4⟩, _⟩ := hst.ex
  cases hR
  refine ⟨pre, x, h1, ?_, hi, h3, ?_⟩
  · rw [← h2]
    congr 2
    refine List.filter_congr fun x _ => ?_
    simp [kept, Ev.discarded]
  · rcases h4 with h4 | h4 | ⟨_, y, hy, h4⟩
    · exact Or.inl (Or.inl h4)
    · exact Or.inl (Or.inr (Or.inl h4))
    · rcases List.mem_append.mp hy with hy | hy
      · exact Or.inr ⟨y, hy, h4⟩
      · simp at hy; subst hy; exact Or.inl (Or.inr (Or.inr h4))

/-- Every call, also the repetition of a discarded one, uses fresh arguments: the k-th call uses what the generators
yield in the k-th state of the random engine. This holds however the whole ends. -/
theorem C45_fresh_arguments {c : Cfg σ A} (hq : c.Quiet) (hn : c.orderEach.Nodup) (hg : c.GensTotal) (fuel : Nat)
    (seed : σ) (k : Nat) (x : Args A × Ev Bool) (h : (calls .run (forAll c fuel seed []).2)[k]? = some x) :
    ∃ ts r, Gen.drawTuple c.gens c.orderRun (c.next^[k] seed) = .ok (ts, r) ∧ x.1 = Tup.get ts := by
  obtain ⟨r, hr⟩ := forAll_inv (P := Fresh c seed) (fun s h => fresh_attempt hq hn hg seed s h)
    (fun s h => fresh_shrink hn seed s h) fuel seed [] ⟨rfl, fun k x h => by simp at h⟩
  exact hr.2 k x h

/-- discards 0 and 2, fails on 3 -/
def fails3 : Nat → Ev Bool := fun a =>
  if a = 0 ∨ a = 2 then raises .discard else if a = 3 then raises .assertFailed else returns true

example : shown (forAll (demo (fun k => Shr.leaf k) fails3 7) 5 0 []) =
    (.ok false, some (2, 3, 3), [0, 1, 2, 3], []) := by decide +kernel

example : (demo (fun k => Shr.leaf k) fails3 7).GensTotal := fun s => ⟨_, demo_draw _ _ _ s⟩

/-! ### C46 -/

/-- Two calls of `forAll` with the same seed, without time limit, of a property whose functions have no memory, end
the same way (verdict, arguments, shrunk arguments) and add the same events, whatever happened before each of
them. -/
theorem C46_same_seed_same_runs {c : Cfg σ A} {f : Args A → Ev Bool} (hc : NoMemory c f)
    (h0 : c.maxDurationMs = 0) (fuel : Nat) (seed : σ) :
    ∃ (o : Outcome (Report A)) (new : Trace A), ∀ tr, forAll c fuel seed tr = (o, new ++ tr) := by
  obtain ⟨o, s', new, h⟩ := frame_runForAll hc h0 fuel ⟨seed, seed, 0, [], []⟩
  refine ⟨o, new, fun tr => ?_⟩
  have := h tr
  unfold forAll
  simp only at this
  simp only [this]

example : NoMemory (demo (fun k => Shr.leaf k) fails3 7) (fun a => fails3 (a 0)) :=
  ⟨fun _ _ => rfl, fun k h => by simp [demo] at h, fun k h => by simp [demo] at h⟩

/-- A property function that remembers (here: fails at its second call) is not covered: the same seed gives another
verdict when something was called before. -/
example : shown (forAll { demo (fun k => Shr.leaf k) below2 1 with func := fun tr _ => returns tr.isEmpty } 5 0 [])
      = (.ok true, none, [0], []) ∧
    (shown (forAll { demo (fun k => Shr.leaf k) below2 1 with func := fun tr _ => returns tr.isEmpty } 5 0
      [.call .single (fun _ => 0) (returns true)])).1 = .ok false := by decide +kernel

/-! ### C47 -/

/-- Shrinking starts from the arguments of the failing run, the last call made before shrinking. -/
theorem C47_shrinking_starts_from_the_failing_arguments {c : Cfg σ A} (hc : Setting c) (fuel : Nat) (seed : σ)
    (a : Nat) (start shrunk : Tup A) (tr : Trace A)
    (h : forAll c fuel seed [] = (.ok (.falsified a start shrunk), tr)) :
    ∃ x, (calls .run tr).getLast? = some x ∧ ∀ i, x.1 i = (start i).value := by
  have hr := forAll_result hc fuel seed
  rw [h] at hr
  obtain ⟨i, hi, hst⟩ := hr.stop a start shrunk rfl
  obtain ⟨pre, x, s', t', _, _, hR, ⟨h1, _⟩, hx, _⟩ := hst.ex
  cases hR
  refine ⟨x, by rw [h1]; simp, fun i => by rw [hx]; rfl⟩

example : Setting (demo (fun _ => chain3) below2 10) := demo_setting _ _ _

/-- If the compiler drew the arguments in one order and regenerated them in another, shrinking would start elsewhere:
the run sees (0,1), shrinking starts from (1,0). -/
example : ∃ (c : Cfg Nat (fun _ : Fin 2 => Nat)), c.orderShrink ≠ c.orderRun ∧
    (match (forAll c 1 0 []) with
      | (.ok (.falsified _ s _), tr) =>
        ((calls .run tr).map (fun x => (x.1 0, x.1 1)), some ((s 0).value, (s 1).value))
      | _ => ([], none)) = ([(0, 1)], some (1, 0)) :=
  ⟨{ gens := fun _ s => .ok (Shr.leaf s, s + 1), orderRun := [0, 1], orderShrink := [1, 0], orderEach := [0, 1],
     thrown := id, func := fun _ _ => returns false, startup := none, cleanup := none, numRuns := 1,
     maxDurationMs := 0, clock := fun _ => 0 }, by decide, by decide +kernel⟩

/-! ### C48 -/

/-- Every call of a property function without memory has the effect of that function on its arguments. -/
theorem run_calls_pure {c : Cfg σ A} (hc : Setting c) {f : Args A → Ev Bool} (hf : c.Pure f) (fuel : Nat) (seed : σ)
    (o : Outcome (Report A)) (tr : Trace A) (h : forAll c fuel seed [] = (o, tr)) :
    ∀ z ∈ calls .run tr, z.2 = f z.1 := by
  have hinv := forAll_inv (c := c) (P := fun _ tr => ∀ z ∈ calls .run tr, z.2 = f z.1)
    (fun s hs => by
      rw [attempt_quiet hc.quiet]
      cases hd : Gen.drawTuple c.gens c.orderRun s.rand with
      | ub => simpa using hs
      | diverges => simpa using hs
      | throws e => simpa [calls_cons, Event.call?] using hs
      | ok p =>
        obtain ⟨ts, r⟩ := p
        have hstep : ∀ cu : Trace A, (∀ ph, calls ph cu = []) → ∀ z ∈ calls .run (cu ++ .call .run (Tup.get ts)
            (c.func (suEv c .run ++ s.trace) (Tup.get ts)) :: (suEv c .run ++ s.trace)), z.2 = f z.1 := by
          intro cu hcu z hz
          rw [calls_run_step c cu hcu] at hz
          rcases List.mem_append.mp hz with hz | hz
          · exact hs z hz
          · simp at hz; subst hz; exact hf _ _
        simp only
        cases ho : (c.func (suEv c .run ++ s.trace) (Tup.get ts)).out with
        | ub => exact hstep [] (fun _ => rfl)
        | diverges => exact hstep [] (fun _ => rfl)
        | throws e => exact hstep [] (fun _ => rfl)
        | ok b =>
          simp only
          split
          · exact hstep _ (fun _ => calls_cuEv _ _ _)
          · refine shrinkBind_inv (P := fun _ tr => ∀ z ∈ calls .run tr, z.2 = f z.1) ?_ _
              (hstep _ (fun _ => calls_cuEv _ _ _)) Step.stop
            intro s hs
            exact shrink_inv (P := fun tr => ∀ z ∈ calls .run tr, z.2 = f z.1)
              (fun N vals next s hs => by rw [(test_bounded c vals N next s).runs]; exact hs)
              (fun e tr hs => by simpa [calls_cons, Event.call?] using hs) s hs)
    (fun s hs => shrink_inv (P := fun tr => ∀ z ∈ calls .run tr, z.2 = f z.1)
      (fun N vals next s hs => by rw [(test_bounded c vals N next s).runs]; exact hs)
      (fun e tr hs => by simpa [calls_cons, Event.call?] using hs) s hs)
    fuel seed [] (by simp)
  obtain ⟨_, hinv⟩ := hinv
  rw [h] at hinv
  exact hinv

/-- The arguments shrinking starts from fail, if discarded and early-succeeding calls record no failed expectation. -/
theorem start_fails {c : Cfg σ A} (hc : Setting c) {f : Args A → Ev Bool} (hf : c.Pure f)
    (hq : ∀ a, (f a).out = .throws .success ∨ (f a).out = .throws .discard → (f a).fails = [])
    (fuel : Nat) (seed : σ) (a : Nat) (start shrunk : Tup A) (tr : Trace A)
    (h : forAll c fuel seed [] = (.ok (.falsified a start shrunk), tr)) :
    (f (fun i => (start i).value)).Fails := by
  have hr := forAll_result hc fuel seed
  rw [h] at hr
  obtain ⟨i, hi, hst⟩ := hr.stop a start shrunk rfl
  obtain ⟨pre, x, s', t', s1, s2, hR, ⟨h1, _, h3, h4⟩, hx, ⟨tr', _, hfx⟩, _, _, _, hsp, rfl⟩ := hst.ex
  cases hR
  rw [hf] at hfx
  have hx' : x.1 = fun i => (start i).value := hx
  rw [← hx', ← hfx]
  rcases h4 with h4 | h4 | ⟨hok, y, hy, h4⟩
  · exact Or.inl h4
  · exact Or.inr (Or.inl h4)
  · rcases List.mem_append.mp hy with hy | hy
    · exfalso
      have hy2 : ∃ a, y.2 = f a := by
        -- every call is a call of `f`
        have hall : ∀ z ∈ calls .run s2.trace, z.2 = f z.1 := run_calls_pure hc hf fuel seed _ _ h
        exact ⟨_, hall y (by rw [h1]; exact List.mem_append_left _ hy)⟩
      obtain ⟨ay, hay⟩ := hy2
      rcases h3 y hy with hg | hg | ⟨_, hg⟩
      · exact h4 (by rw [hay]; exact hq ay (Or.inr (by rw [← hay]; exact hg)))
      · exact h4 (by rw [hay]; exact hq ay (Or.inl (by rw [← hay]; exact hg)))
      · exact h4 hg
    · simp at hy; subst hy
      exact Or.inr (Or.inr h4)

/-- The reported tuple fails: for a property without memory, whose discarded and early-succeeding calls record no
failed expectation, the reported arguments make it return false, throw, or record a failed expectation; every
component is a descendant of the generated one in its shrink tree.

Partial: without the condition on discarded and early-succeeding calls this is false, see
`C48_leftover_failure_violated`. -/
theorem C48_shrunk_arguments_fail_partial {c : Cfg σ A} (hc : Setting c) {f : Args A → Ev Bool} (hf : c.Pure f)
    (hq : ∀ a, (f a).out = .throws .success ∨ (f a).out = .throws .discard → (f a).fails = [])
    (fuel : Nat) (seed : σ) (a : Nat) (start shrunk : Tup A) (tr : Trace A)
    (h : forAll c fuel seed [] = (.ok (.falsified a start shrunk), tr)) :
    (f (fun i => (shrunk i).value)).Rejects ∧ ∀ i, Desc (start i) (shrunk i) := by
  have hr := forAll_result hc fuel seed
  rw [h] at hr
  obtain ⟨i, hi, hst⟩ := hr.stop a start shrunk rfl
  obtain ⟨pre, x, s', t', s1, s2, hR, ⟨h1, _, h3, h4⟩, hx, ⟨tr', _, hfx⟩, _, _, _, hsp, rfl⟩ := hst.ex
  cases hR
  refine ⟨?_, hsp.desc⟩
  rcases hsp.fails with e | ⟨tr2, _, e⟩
  · rw [e]
    rcases start_fails hc hf hq fuel seed _ _ _ _ h with h4 | ⟨e, h4, h5, _⟩ | h4
    · exact Or.inl h4
    · exact Or.inr (Or.inl ⟨e, h4, h5⟩)
    · exact Or.inr (Or.inr h4)
  · rw [hf] at e
    exact e

/-- For property functions with memory: either nothing simpler was found, or the reported arguments were seen to
fail during shrinking. -/
theorem C48_observed {c : Cfg σ A} (hc : Setting c) (fuel : Nat) (seed : σ) (a : Nat) (start shrunk : Tup A)
    (tr : Trace A) (h : forAll c fuel seed [] = (.ok (.falsified a start shrunk), tr)) :
    (shrunk = start ∨ ∃ e, .call .shrink (fun i => (shrunk i).value) e ∈ tr ∧ e.Rejects) ∧
    ∀ i, Desc (start i) (shrunk i) := by
  have hr := forAll_result hc fuel seed
  rw [h] at hr
  obtain ⟨i, hi, hst⟩ := hr.stop a start shrunk rfl
  obtain ⟨pre, x, s', t', s1, s2, hR, _, _, _, _, _, _, hsp, rfl⟩ := hst.ex
  cases hR
  refine ⟨?_, hsp.desc⟩
  rcases hsp.fails with e | ⟨tr2, h1, h2⟩
  · exact Or.inl e
  · exact Or.inr ⟨_, h1, h2⟩

/-- succeeds early on 0 after a failed expectation, returns true otherwise -/
def leftover : Nat → Ev Bool := fun a => if a = 0 then ⟨["a > 0"], .throws .success⟩ else returns true

/-- C48 in full is violated: the failed expectation of a call that ended with PROP_SUCCESS is blamed on the next
call; the reported argument 1 does not fail. -/
theorem C48_leftover_failure_violated :
    ∃ start shrunk tr,
      forAll (demo (fun k => Shr.leaf k) leftover 2) 5 0 [] = (.ok (.falsified 2 start shrunk), tr) ∧
      (shrunk 0).value = 1 ∧ leftover 1 = returns true ∧ ¬ (leftover 1).Rejects := by
  have h : shown (forAll (demo (fun k => Shr.leaf k) leftover 2) 5 0 []) =
      (.ok false, some (2, 1, 1), [0, 1], []) := by decide +kernel
  obtain ⟨start, shrunk, tr, h1, _, h3⟩ := shown_falsified h
  refine ⟨start, shrunk, tr, h1, h3, rfl, ?_⟩
  rintro (h | ⟨x, h, _⟩ | h) <;> simp [leftover, returns] at h

example : ∀ a, (below2 a).out = .throws .success ∨ (below2 a).out = .throws .discard → (below2 a).fails = [] := by
  intro a h; rfl

/-! ### C49 -/

/-- When shrinking of argument `N` ended, the arguments shrunk after it (`post`) were as generated and the others as
reported; no shrink offered for the reported `N`-th argument fails together with those. -/
theorem C49_locally_minimal {c : Cfg σ A} (hc : Setting c) {f : Args A → Ev Bool} (hf : c.Pure f)
    (fuel : Nat) (seed : σ) (a : Nat) (start shrunk : Tup A) (tr : Trace A)
    (h : forAll c fuel seed [] = (.ok (.falsified a start shrunk), tr)) (pre post : List (Fin n)) (N : Fin n)
    (hN : c.orderEach = pre ++ N :: post) (child : Shr (A N)) (hchild : child ∈ (shrunk N).shrinks) :
    ¬ (f (Function.update (fun j => if j ∈ post then (start j).value else (shrunk j).value) N child.value)).Rejects := by
  have hr := forAll_result hc fuel seed
  rw [h] at hr
  obtain ⟨i, hi, hst⟩ := hr.stop a start shrunk rfl
  obtain ⟨_, x, s', t', s1, s2, hR, _, _, _, _, _, _, hsp, rfl⟩ := hst.ex
  cases hR
  obtain ⟨tr2, _, h2⟩ := hsp.minimal pre N post hN child hchild
  rw [hf] at h2
  have e : Tup.get (fun j => if j ∈ post then start j else shrunk j) =
      (fun j => if j ∈ post then (start j).value else (shrunk j).value) := by
    funext j
    unfold Tup.get
    by_cases hj : j ∈ post <;> simp [hj]
  rwa [e] at h2

/-- In particular a property of one argument: no shrink offered for the reported value fails. -/
theorem C49_single_argument {α : Type} {c : Cfg σ (fun _ : Fin 1 => α)} (hc : Setting c) (ho : c.orderEach = [0])
    {f : Args (fun _ : Fin 1 => α) → Ev Bool} (hf : c.Pure f) (fuel : Nat) (seed : σ) (a : Nat)
    (start shrunk : Tup (fun _ : Fin 1 => α)) (tr : Trace (fun _ : Fin 1 => α))
    (h : forAll c fuel seed [] = (.ok (.falsified a start shrunk), tr)) (child : Shr α)
    (hchild : child ∈ (shrunk 0).shrinks) : ¬ (f (fun _ => child.value)).Rejects := by
  have := C49_locally_minimal hc hf fuel seed a start shrunk tr h [] [] 0 (by rw [ho]; rfl) child hchild
  have e : (Function.update (fun j : Fin 1 => if j ∈ ([] : List (Fin 1)) then (start j).value else (shrunk j).value)
      0 child.value) = fun _ => child.value := by
    funext i
    obtain rfl : i = 0 := Subsingleton.elim _ _
    simp
  rwa [e] at this

example : shown (forAll (demo (fun _ => chain3) below2 10) 5 0 []) = (.ok false, some (1, 3, 2), [3], [2, 1]) := by
  decide +kernel

/-! ### C88 -/

/-- The two argument version of the sample: draws the trees 1 → 0 for both. -/
def demo2 (f : Nat → Nat → Ev Bool) : Cfg Nat (fun _ : Fin 2 => Nat) where
  gens := fun _ s => .ok (.node 1 [.node 0 []], s + 1)
  orderRun := [0, 1]
  orderShrink := [0, 1]
  orderEach := [0, 1]
  thrown := id
  func := fun _ a => f (a 0) (a 1)
  startup := none
  cleanup := none
  numRuns := 1
  maxDurationMs := 0
  clock := fun _ => 0

/-- C88 is violated: with two arguments the reported tuple need not be minimal in each argument. The property
"a < b" fails for (1,1); shrinking reports (1,0), although (0,0) is offered and fails. -/
theorem C88_minimal_in_each_argument_violated :
    ∃ start shrunk tr child,
      forAll (demo2 (fun a b => returns (decide (a < b)))) 1 0 [] = (.ok (.falsified 1 start shrunk), tr) ∧
      child ∈ (shrunk 0).shrinks ∧ (returns (decide (child.value < (shrunk 1).value))).Rejects := by
  have h : (match (forAll (demo2 (fun a b => returns (decide (a < b)))) 1 0 []) with
      | (.ok (.falsified a _ t), _) =>
        some (a, (t 0).shrinks.map Shr.value, (t 1).value)
      | _ => none) = some (1, [0], 0) := by decide +kernel
  revert h
  cases forAll (demo2 (fun a b => returns (decide (a < b)))) 1 0 [] with
  | mk o tr =>
    cases o with
    | throws e => simp
    | ub => simp
    | diverges => simp
    | ok R =>
      cases R with
      | passed => simp
      | timedOut k => simp
      | falsified a s t =>
        simp only [Option.some.injEq, Prod.mk.injEq]
        rintro ⟨rfl, h1, h2⟩
        have : (0 : Nat) ∈ (t 0).shrinks.map Shr.value := by rw [h1]; simp
        obtain ⟨child, hc, hv⟩ := List.mem_map.mp this
        refine ⟨s, t, tr, child, ⟨rfl, rfl⟩, hc, ?_⟩
        rw [hv, h2]
        exact Or.inl rfl

/-- What remains of C88: the argument shrunk last is minimal together with the other reported arguments.

Partial: C88 asks this of every argument, which is false by `C88_minimal_in_each_argument_violated`. -/
theorem C88_last_argument_partial {c : Cfg σ A} (hc : Setting c) {f : Args A → Ev Bool} (hf : c.Pure f)
    (fuel : Nat) (seed : σ) (a : Nat) (start shrunk : Tup A) (tr : Trace A)
    (h : forAll c fuel seed [] = (.ok (.falsified a start shrunk), tr)) (N : Fin n)
    (hN : c.orderEach.getLast? = some N) (child : Shr (A N)) (hchild : child ∈ (shrunk N).shrinks) :
    ¬ (f (Function.update (fun j => (shrunk j).value) N child.value)).Rejects := by
  obtain ⟨pre, hpre⟩ := List.getLast?_eq_some_iff.mp hN
  have := C49_locally_minimal hc hf fuel seed a start shrunk tr h pre [] N hpre child hchild
  simpa using this

example : (demo2 (fun a b => returns (decide (a < b)))).orderEach.getLast? = some 1 := rfl

/-! ### C50 -/

/-- Shrinking ends: if the user supplied functions do, so does the shrink phase, from every state. -/
theorem C50_shrinking_terminates {c : Cfg σ A} (hc : Terminating c) (s : St σ A) : (shrink c s).1 ≠ .diverges :=
  noDiv_shrink hc s

/-- The shrink phase evaluates the property at most once for each proper descendant in each argument's tree. -/
theorem C50_evaluations_bounded {c : Cfg σ A} (hc : Setting c) (fuel : Nat) (seed : σ) (a : Nat)
    (start shrunk : Tup A) (tr : Trace A) (h : forAll c fuel seed [] = (.ok (.falsified a start shrunk), tr)) :
    (calls .shrink tr).length ≤ (c.orderEach.map (fun N => (start N).values.length - 1)).sum := by
  have hr := forAll_result hc fuel seed
  rw [h] at hr
  obtain ⟨i, hi, hst⟩ := hr.stop a start shrunk rfl
  obtain ⟨_, x, s', t', s1, s2, hR, _, _, _, _, h0, hb, _, rfl⟩ := hst.ex
  cases hR
  have := hb.count
  have hle : (c.orderEach.map fun N => (start N).cost).sum ≤
      (c.orderEach.map (fun N => (start N).values.length - 1)).sum := by
    induction c.orderEach with
    | nil => simp
    | cons N l ih =>
      have := Shr.cost_le_values (start N)
      simp only [List.map_cons, List.sum_cons]; omega
  omega

example : Terminating (demo (fun _ => chain3) below2 10) where
  func := fun _ _ => by simp [demo, below2, returns]
  startup := fun k h => by simp [demo] at h
  cleanup := fun k h => by simp [demo] at h
  gens := fun s => by
    have := demo_draw (fun _ => chain3) below2 10 s
    rw [show (demo (fun _ => chain3) below2 10).orderShrink = (demo (fun _ => chain3) below2 10).orderRun from rfl, this]
    simp

/-! ### C51 -/

/-- Candidates that fail are adopted, and if the property neither discards nor succeeds early on tuples reachable by
shrinking then the reported tuple is a genuine counterexample.

Partial: C51 asks this of every property; see `C51_discarded_candidate_adopted_violated`. -/
theorem C51_counterexample_without_discard_partial {c : Cfg σ A} (hc : Setting c) {f : Args A → Ev Bool}
    (hf : c.Pure f)
    (fuel : Nat) (seed : σ) (a : Nat) (start shrunk : Tup A) (tr : Trace A)
    (h : forAll c fuel seed [] = (.ok (.falsified a start shrunk), tr))
    (hq : ∀ b, (f b).out = .throws .success ∨ (f b).out = .throws .discard → (f b).fails = [])
    (hd : ∀ t : Tup A, (∀ i, Desc (start i) (t i)) →
      (f (fun i => (t i).value)).out ≠ .throws .discard ∧ (f (fun i => (t i).value)).out ≠ .throws .success) :
    (f (fun i => (shrunk i).value)).Fails := by
  obtain ⟨h1, h2⟩ := C48_shrunk_arguments_fail_partial hc hf hq fuel seed a start shrunk tr h
  obtain ⟨d1, d2⟩ := hd shrunk h2
  rcases h1 with h1 | ⟨x, hx, hs⟩ | h1
  · exact Or.inl h1
  · refine Or.inr (Or.inl ⟨x, hx, hs, ?_, ?_⟩)
    · rintro rfl; exact d1 hx
    · rintro rfl; exact d2 hx
  · exact Or.inr (Or.inr h1)

/-- discards 0, fails above 2 -/
def discards0 : Nat → Ev Bool := fun a => if a = 0 then raises .discard else returns (decide (a < 3))

/-- C51 is violated: shrinking adopts a candidate on which the property discards and reports it. -/
theorem C51_discarded_candidate_adopted_violated :
    ∃ start shrunk tr,
      forAll (demo (fun _ => .node 3 [.node 0 []]) discards0 1) 5 0 [] = (.ok (.falsified 1 start shrunk), tr) ∧
      (shrunk 0).value = 0 ∧ discards0 0 = ⟨[], .throws .discard⟩ := by
  have h : shown (forAll (demo (fun _ => .node 3 [.node 0 []]) discards0 1) 5 0 []) =
      (.ok false, some (1, 3, 0), [3], [0]) := by decide +kernel
  obtain ⟨start, shrunk, tr, h1, _, h3⟩ := shown_falsified h
  exact ⟨start, shrunk, tr, h1, h3, rfl⟩

example : ∀ t : Tup (fun _ : Fin 1 => Nat), (∀ i, Desc chain3 (t i)) →
    (below2 (t 0).value).out ≠ .throws .discard ∧ (below2 (t 0).value).out ≠ .throws .success := by
  intro t _; simp [below2, returns]

/-! ### C52 -/

/-- Whatever happens, the startup hook runs directly before every call of the property function (in runs and in
shrinking), and the cleanup hook runs directly after every call that returned.

Partial: C52 asks for the cleanup hook after every call; see `C52_cleanup_skipped_violated`. -/
theorem C52_hooks_paired_partial {c : Cfg σ A} (hq : c.Quiet) (h1 : c.startup.isSome) (h2 : c.cleanup.isSome)
    (hg : ∀ s, Gen.drawTuple c.gens c.orderRun s ≠ .ub ∧ Gen.drawTuple c.gens c.orderRun s ≠ .diverges)
    (fuel : Nat) (seed : σ) : Paired (forAll c fuel seed []).2 := by
  obtain ⟨_, h⟩ := forAll_inv (P := fun _ tr => Paired tr) (fun s h => paired_attempt hq h1 h2 hg s h)
    (fun s h => shrink_inv (fun N vals next s h => paired_test hq h1 h2 N vals next s h)
      (fun e tr h => .genShrink e tr h) s h) fuel seed [] .nil
  exact h

/-- a property with both hooks -/
def hooked (tree : Nat → Shr Nat) (f : Nat → Ev Bool) (runs : Nat) : Cfg Nat (fun _ : Fin 1 => Nat) :=
  { demo tree f runs with
    startup := some (fun _ => ⟨[], .ok ()⟩)
    cleanup := some (fun _ => ⟨[], .ok ()⟩) }

example : (hooked (fun _ => chain3) below2 2).Quiet :=
  ⟨fun k h tr => by simp [hooked] at h; rw [← h], fun k h tr => by simp [hooked] at h; rw [← h]⟩

/-- the kinds of the events: 0 startup, 1 call, 2 cleanup, 3 generator exception -/
def kinds (tr : Trace A) : List Nat := tr.map fun
  | .startup .. => 0
  | .call .. => 1
  | .cleanup .. => 2
  | .genThrew .. => 3

/-- C52 is violated: after a call that discards, the cleanup hook does not run; the next startup hook follows. -/
theorem C52_cleanup_skipped_violated :
    kinds (forAll (hooked (fun k => Shr.leaf k) (fun a => if a = 0 then raises .discard else returns true) 1)
      5 0 []).2.reverse = [0, 1, 0, 1, 2] := by decide +kernel

/-! ### C53 -/

/-- If `forAll` returns true then every call with a failed expectation ended with Discard or Success; in particular
a property that never ends a call that way has no failed expectation in any run.

Partial: C53 asks that no call at all has a failed expectation; see `C53_failed_expect_ignored_violated`. -/
theorem C53_failed_expect_partial {c : Cfg σ A} (hc : Setting c) (fuel : Nat) (seed : σ) (r : Report A)
    (tr : Trace A) (h : forAll c fuel seed [] = (.ok r, tr)) (x : Args A × Ev Bool) (hx : x ∈ calls .run tr)
    (hf : x.2.fails ≠ []) (hd : x.2.out ≠ .throws .discard) (hs : x.2.out ≠ .throws .success) :
    r.verdict = false := by
  have hr := forAll_result hc fuel seed
  rw [h] at hr
  cases r with
  | falsified a s t => rfl
  | passed =>
    obtain ⟨s, rfl, hi⟩ := hr.passed rfl
    rcases hi.good x hx with g | g | ⟨_, g⟩
    · exact absurd g hd
    · exact absurd g hs
    · exact absurd g hf
  | timedOut k =>
    obtain ⟨s, rfl, hi, _⟩ := hr.timedOut k rfl
    rcases hi.good x hx with g | g | ⟨_, g⟩
    · exact absurd g hd
    · exact absurd g hs
    · exact absurd g hf

/-- C53 is violated: a PROP_EXPECT fails in the only run, which then ends with PROP_SUCCESS; `forAll` returns true. -/
theorem C53_failed_expect_ignored_violated :
    shown (forAll (demo (fun k => Shr.leaf k) leftover 1) 5 0 []) = (.ok true, none, [0], []) ∧
      (leftover 0).fails = ["a > 0"] := by decide +kernel

example : shown (forAll (demo (fun k => Shr.leaf k) (fun a => ⟨if a = 2 then ["a != 2"] else [], .ok true⟩) 5) 5 0 []) =
    (.ok false, some (3, 2, 2), [0, 1, 2], []) := by decide +kernel

/-! ### C54 -/

/-- An exception of the property function other than Discard and Success makes `forAll` return false, if it returns.

Partial: C54 is about generators, for which it is false, see `C54_generator_exception_escapes_violated`. -/
theorem C54_property_exception_partial {c : Cfg σ A} (hc : Setting c) (fuel : Nat) (seed : σ) (r : Report A)
    (tr : Trace A) (h : forAll c fuel seed [] = (.ok r, tr)) (x : Args A × Ev Bool) (hx : x ∈ calls .run tr)
    (e : Exn) (he : x.2.out = .throws e) (hd : e ≠ .discard) (hs : e ≠ .success) : r.verdict = false := by
  have hr := forAll_result hc fuel seed
  rw [h] at hr
  have key : GoodCall x → False := by
    rintro (g | g | ⟨g, _⟩) <;> rw [he] at g <;> cases g
    · exact hd rfl
    · exact hs rfl
  cases r with
  | falsified a s t => rfl
  | passed =>
    obtain ⟨s, rfl, hi⟩ := hr.passed rfl
    exact (key (hi.good x hx)).elim
  | timedOut k =>
    obtain ⟨s, rfl, hi, _⟩ := hr.timedOut k rfl
    exact (key (hi.good x hx)).elim

example : shown (forAll (demo (fun k => Shr.leaf k) fails3 7) 5 0 []) =
    (.ok false, some (2, 3, 3), [0, 1, 2, 3], []) := by decide +kernel

/-- C54 is violated for every property: when a generator throws a std::exception other than Discard and Success in
the first run, regenerating the arguments throws it again, out of `forAll`. -/
theorem C54_generator_exception_escapes_violated {c : Cfg σ A} (hc : Setting c) (fuel : Nat) (seed : σ) (e : Exn)
    (he : e.isStd = true) (hd : e ≠ .discard) (hs : e ≠ .success) (hr : 0 < c.numRuns) (h0 : c.maxDurationMs = 0)
    (hg : Gen.drawTuple c.gens c.orderRun seed = .throws e) :
    (forAll c (fuel + 1) seed []).1 = .throws e := by
  have h1 : ∃ s1 : St σ A, forLoop c (fuel + 1) c.numRuns ⟨seed, seed, 0, [], []⟩ = (.throws e, s1) ∧ s1.saved = seed := by
    obtain ⟨m, hm⟩ : ∃ m, c.numRuns = m + 1 := ⟨c.numRuns - 1, by omega⟩
    rw [hm, forLoop_succ, if_neg (fun h => h.1 h0), doWhile, Eng.bind_apply]
    unfold guarded Eng.tryCatch
    rw [attempt_quiet hc.quiet]
    simp only [hg]
    rw [if_neg hs, if_neg hd]
    exact ⟨_, rfl, rfl⟩
  obtain ⟨s1, h1, h2⟩ := h1
  unfold forAll runForAll Eng.withContext Eng.catchStd Eng.tryCatch
  simp only [h1, he, if_true]
  rw [shrink_apply, hc.order, h2, hg]

/-- a property whose generator throws -/
def genFails : Cfg Nat (fun _ : Fin 1 => Nat) :=
  { demo (fun k => Shr.leaf k) below2 3 with gens := fun _ _ => .throws .runtimeError }

example : shown (forAll genFails 5 0 []) = (.throws .runtimeError, none, [], []) := by decide +kernel

example : Setting genFails where
  quiet := ⟨fun k h => by simp [genFails, demo] at h, fun k h => by simp [genFails, demo] at h⟩
  order := rfl
  nodup := by simp [genFails, demo]
  gens := fun s => by simp [genFails, demo, Gen.drawTuple, Gen.drawInto]

end Engine
end Verif
