import Verif.Props.EndToEnd
import Verif.Props.Matrix
/-
C48, C51-C53, C55 and C88, the faults of `Property`: not single cases as in `Props/Property.lean`, but all
properties, generators and seeds that show them.
-/
namespace Verif
namespace Engine
open PairTuple Shr
variable {n : Nat} {A : Fin n → Type} {σ : Type}

/-! ### C48 -/

private theorem accepted_iter {c : Cfg σ A} (hq : c.Quiet) {f : Args A → Ev Bool} (hf : c.Pure f) (N : Fin n)
    (vals : Tup A) (outer : List String) : ∀ (ss : List (Shr (A N))) (s : St σ A) (_ : s.fails = [])
    (_ : ∀ child ∈ ss, f (Function.update (Tup.get vals) N child.value) = ⟨[], .ok true⟩),
    ∃ s', shrinkNIter c vals N outer ss s = (.ok vals, s') ∧ s'.i = s.i
  | [], s, _, _ => ⟨{ s with fails := outer }, by rw [shrinkNIter], rfl⟩
  | next :: rest, s, hs, h => by
    rw [shrinkNIter]; beta_reduce
    obtain ⟨cu, _, ht⟩ := test_quiet hq vals N next s _ rfl
    rw [hf, h next (by simp)] at ht
    simp only at ht
    rw [ht]
    simp only [hs, List.append_nil, List.isEmpty_nil, Bool.not_true, Bool.or_self, Bool.false_eq_true, if_false]
    obtain ⟨s', h1, h2⟩ := accepted_iter hq hf N vals outer rest
      ({ s with fails := [], trace := cu ++ .call .shrink (Function.update (Tup.get vals) N next.value) ⟨[], .ok true⟩ ::
        (suEv c .shrink ++ s.trace) } : St σ A) rfl (fun child hc => h child (by simp [hc]))
    exact ⟨s', h1, h2⟩

private theorem accepted_each {c : Cfg σ A} (hq : c.Quiet) {f : Args A → Ev Bool} (hf : c.Pure f) (vals : Tup A)
    (h : ∀ N, ∀ child ∈ (vals N).shrinks, f (Function.update (Tup.get vals) N child.value) = ⟨[], .ok true⟩) :
    ∀ (order : List (Fin n)) (s : St σ A), ∃ s', shrinkEach c order vals s = (.ok vals, s') ∧ s'.i = s.i
  | [], s => ⟨s, rfl, rfl⟩
  | N :: rest, s => by
    obtain ⟨s1, h1, h2⟩ := accepted_iter hq hf N vals s.fails (vals N).shrinks { s with fails := [] } rfl (h N)
    obtain ⟨s2, h3, h4⟩ := accepted_each hq hf vals h rest s1
    refine ⟨s2, ?_, by rw [h4, h2]⟩
    rw [shrinkEach, Eng.bind_apply, Eng.mk_apply, ← eta (vals N), shrinkN]
    simp only [h1]
    exact h3

/-- C48 is violated by every property one of whose calls ends with PROP_SUCCESS after a failed expectation: if the
next call passes, and so do all candidates offered for its arguments, then these passing arguments are reported as
the simplest counterexample. -/
theorem C48_passing_reported_violated {c : Cfg σ A} (hc : Setting c) {f : Args A → Ev Bool} (hf : c.Pure f)
    (hr : 2 ≤ c.numRuns) (h0 : c.maxDurationMs = 0) (fuel : Nat) (seed s1 s2 : σ) (t0 t1 : Tup A)
    (hd0 : Gen.drawTuple c.gens c.orderRun seed = .ok (t0, s1))
    (hf0 : (f (Tup.get t0)).out = .throws .success) (hne : (f (Tup.get t0)).fails ≠ [])
    (hd1 : Gen.drawTuple c.gens c.orderRun s1 = .ok (t1, s2))
    (hf1 : f (Tup.get t1) = ⟨[], .ok true⟩)
    (hsh : ∀ N, ∀ child ∈ (t1 N).shrinks, f (Function.update (Tup.get t1) N child.value) = ⟨[], .ok true⟩) :
    (forAll c (fuel + 1) seed []).1 = .ok (.falsified 2 t1 t1) ∧ ¬ (f (Tup.get t1)).Rejects := by
  refine ⟨?_, ?_⟩
  · obtain ⟨m, hm⟩ : ∃ m, c.numRuns = m + 2 := ⟨c.numRuns - 2, by omega⟩
    unfold forAll runForAll Eng.withContext Eng.catchStd Eng.tryCatch
    rw [hm, forLoop_succ, if_neg (fun h => h.1 h0), doWhile, Eng.bind_apply]
    unfold guarded Eng.tryCatch
    rw [attempt_quiet hc.quiet]
    simp only [hd0, hf _ _, hf0, List.nil_append]
    rw [if_pos (by decide)]
    simp only [Eng.pure_apply]
    rw [forLoop_succ, if_neg (fun h => h.1 h0), doWhile, Eng.bind_apply]
    unfold guarded Eng.tryCatch
    rw [attempt_quiet hc.quiet]
    simp only [hd1, hf _ _, hf1, List.append_nil, hne, false_and, if_false, Eng.bind_apply]
    rw [shrink_apply, hc.order]
    simp only [hd1]
    obtain ⟨s', h1, h2⟩ := accepted_each hc.quiet hf t1 hsh c.orderEach _
    rw [h1]
    simp only [Eng.pure_apply, h2]
  · rw [hf1]
    rintro (h | ⟨x, h, _⟩ | h) <;> simp at h

/-- a run that succeeds early after a failed expectation, then one that passes, with candidates that pass -/
example : (forAll (demo (fun k => .node k [.node (k + 7) []]) leftover 5) 1 0 []).1 =
      .ok (.falsified 2 (fun _ => .node 1 [.node 8 []]) (fun _ => .node 1 [.node 8 []])) ∧
    ¬ (leftover 1).Rejects := by
  have := C48_passing_reported_violated (demo_setting (fun k => .node k [.node (k + 7) []]) leftover 5)
    (f := fun a => leftover (a 0)) (fun _ _ => rfl) (by decide) rfl 0 0 1 2 _ _
    (demo_draw _ _ _ 0) rfl (by simp [Tup.get, leftover]) (demo_draw _ _ _ 1) rfl
    (fun N child hc => by
      obtain rfl : N = 0 := Subsingleton.elim _ _
      simp only [shrinks_node, List.mem_singleton] at hc
      subst hc
      simp [leftover, returns])
  exact this

/-! ### C51 -/

private theorem greedyEach_untouched (fails : Args A → Bool) (N : Fin n) : ∀ (order : List (Fin n)) (ts : Tup A)
    (_ : N ∉ order), greedyEach fails order ts N = ts N
  | [], _, _ => rfl
  | M :: rest, ts, h => by
    rw [greedyEach, greedyEach_untouched fails N rest _ (fun h' => h (by simp [h']))]
    exact Function.update_of_ne (fun e => h (by simp [e])) _ _

private theorem greedyNodeList_skip {α : Type} (F : α → Bool) (cur child : Shr α) (post : List (Shr α))
    (hc : F child.value = true) : ∀ (pre : List (Shr α)) (_ : ∀ p ∈ pre, F p.value = false),
    greedyNodeList F cur (pre ++ child :: post) = child.greedyNode F
  | [], _ => by rw [List.nil_append, greedyNodeList, if_pos hc]
  | p :: pre, h => by
    rw [List.cons_append, greedyNodeList, h p (by simp)]
    exact greedyNodeList_skip F cur child post hc pre (fun q hq => h q (by simp [hq]))

private theorem greedyNodeList_none {α : Type} (F : α → Bool) (cur : Shr α) :
    ∀ (ss : List (Shr α)) (_ : ∀ p ∈ ss, F p.value = false), greedyNodeList F cur ss = cur
  | [], _ => by rw [greedyNodeList]
  | p :: pre, h => by
    rw [greedyNodeList, h p (by simp)]
    exact greedyNodeList_none F cur pre (fun q hq => h q (by simp [hq]))

mutual
private theorem greedyNode_desc {α : Type} (F : α → Bool) : ∀ t : Shr α, Desc t (t.greedyNode F)
  | .node v ss => by
    rw [greedyNode]
    rcases greedyNodeList_desc F (.node v ss) ss with h | ⟨c, hc, h⟩
    · rw [h]; exact .refl _
    · exact .step (by simpa using hc) h
private theorem greedyNodeList_desc {α : Type} (F : α → Bool) (cur : Shr α) : ∀ ss : List (Shr α),
    greedyNodeList F cur ss = cur ∨ ∃ c ∈ ss, Desc c (greedyNodeList F cur ss)
  | [] => Or.inl (by rw [greedyNodeList])
  | c :: cs => by
    rw [greedyNodeList]
    by_cases h : F c.value = true
    · rw [if_pos h]; exact Or.inr ⟨c, by simp, greedyNode_desc F c⟩
    · rw [if_neg h]
      rcases greedyNodeList_desc F cur cs with h | ⟨d, hd, h⟩
      · exact Or.inl h
      · exact Or.inr ⟨d, by simp [hd], h⟩
end

private theorem first_shrunk {c : Cfg σ A} (hc : Setting c) {f : Args A → Ev Bool} (hf : c.Pure f)
    {N : Fin n} {rest : List (Fin n)} (ho : c.orderEach = N :: rest)
    {fuel : Nat} {seed : σ} {a : Nat} {start shrunk : Tup A} {tr : Trace A}
    (h : forAll c fuel seed [] = (.ok (.falsified a start shrunk), tr)) :
    ∃ F : A N → Bool, (∀ v, F v = true ↔ (f (Function.update (Tup.get start) N v)).Rejects) ∧
      shrunk N = (start N).greedyNode F := by
  classical
  have h1 := (C108_greedy hc hf (fails := fun a => decide (f a).Rejects) (fun a => by simp) fuel seed a start shrunk tr
    h).1
  have hn := hc.nodup
  rw [ho] at h1 hn
  rw [List.nodup_cons] at hn
  refine ⟨fun v => decide (f (Function.update (Tup.get start) N v)).Rejects, fun v => by simp, ?_⟩
  rw [h1, greedyEach, greedyEach_untouched _ _ _ _ hn.1, Function.update_self]
  rfl

/-- C51 is violated by every property that discards, or succeeds early, on the first offered shrink of an argument
that it does not accept: this shrink is adopted. (`N` is the argument shrunk first.) -/
theorem C51_adopted_violated {c : Cfg σ A} (hc : Setting c) {f : Args A → Ev Bool} (hf : c.Pure f)
    (N : Fin n) (rest : List (Fin n)) (ho : c.orderEach = N :: rest)
    (fuel : Nat) (seed : σ) (a : Nat) (start shrunk : Tup A) (tr : Trace A)
    (h : forAll c fuel seed [] = (.ok (.falsified a start shrunk), tr))
    (pre post : List (Shr (A N))) (child : Shr (A N)) (hs : (start N).shrinks = pre ++ child :: post)
    (hpre : ∀ p ∈ pre, ¬ (f (Function.update (Tup.get start) N p.value)).Rejects)
    (hd : (f (Function.update (Tup.get start) N child.value)).out = .throws .discard ∨
      (f (Function.update (Tup.get start) N child.value)).out = .throws .success) :
    Desc child (shrunk N) := by
  obtain ⟨F, hF, h1⟩ := first_shrunk hc hf ho h
  rw [h1, ← eta (start N), greedyNode, hs, greedyNodeList_skip F _ child post _ pre]
  · exact greedyNode_desc F child
  · intro p hp
    rw [Bool.eq_false_iff]
    exact fun h => hpre p hp ((hF _).mp h)
  · refine (hF _).mpr (Or.inr (Or.inl ?_))
    rcases hd with hd | hd
    · exact ⟨_, hd, rfl⟩
    · exact ⟨_, hd, rfl⟩

/-- C51 is violated: if the shrinks of such a discarded candidate are all accepted, then a property of one argument is
reported with the candidate itself, on which it discards or succeeds early. -/
theorem C51_reported_violated {α : Type} {c : Cfg σ (fun _ : Fin 1 => α)} (hc : Setting c) (ho : c.orderEach = [0])
    {f : Args (fun _ : Fin 1 => α) → Ev Bool} (hf : c.Pure f) (fuel : Nat) (seed : σ) (a : Nat)
    (start shrunk : Tup (fun _ : Fin 1 => α)) (tr : Trace (fun _ : Fin 1 => α))
    (h : forAll c fuel seed [] = (.ok (.falsified a start shrunk), tr))
    (pre post : List (Shr α)) (child : Shr α) (hs : (start 0).shrinks = pre ++ child :: post)
    (hpre : ∀ p ∈ pre, ¬ (f fun _ => p.value).Rejects)
    (hd : (f fun _ => child.value).out = .throws .discard ∨ (f fun _ => child.value).out = .throws .success)
    (hgc : ∀ g ∈ child.shrinks, ¬ (f fun _ => g.value).Rejects) :
    shrunk 0 = child := by
  have e : ∀ v, Function.update (Tup.get start) 0 v = fun _ => v := fun v => by
    funext i; obtain rfl : i = 0 := Subsingleton.elim _ _; simp
  obtain ⟨F, hF, h1⟩ := first_shrunk hc hf ho h
  rw [h1, ← eta (start 0), greedyNode, hs, greedyNodeList_skip F _ child post _ pre]
  · conv_lhs => rw [← eta child]
    rw [greedyNode, greedyNodeList_none F _ _ _, eta]
    intro g hg
    rw [Bool.eq_false_iff]
    exact fun h => hgc g hg (by have := (hF _).mp h; rwa [e] at this)
  · intro p hp
    rw [Bool.eq_false_iff]
    exact fun h => hpre p hp (by have := (hF _).mp h; rwa [e] at this)
  · refine (hF _).mpr (Or.inr (Or.inl ?_))
    rw [e]
    rcases hd with hd | hd
    · exact ⟨_, hd, rfl⟩
    · exact ⟨_, hd, rfl⟩

/-- 4 fails, its first shrink 1 passes, the second, 0, is discarded -/
example : ∃ start shrunk tr,
    forAll (demo (fun _ => .node 4 [.node 1 [], .node 0 [.node 2 []], .node 3 []]) discards0 1) 5 0 [] =
      (.ok (.falsified 1 start shrunk), tr) ∧ (shrunk 0).value = 0 := by
  obtain ⟨start, shrunk, tr, h1, _, h3⟩ := shown_falsified (show shown (forAll (demo
    (fun _ => .node 4 [.node 1 [], .node 0 [.node 2 []], .node 3 []]) discards0 1) 5 0 []) =
      (.ok false, some (1, 4, 0), [4], [1, 0, 2]) by decide +kernel)
  exact ⟨start, shrunk, tr, h1, h3⟩

example : ¬ (discards0 1).Rejects ∧ (discards0 0).out = .throws .discard ∧ ¬ (discards0 2).Rejects := by
  refine ⟨?_, rfl, ?_⟩ <;> rintro (h | ⟨x, h, _⟩ | h) <;> simp [discards0, returns] at h

/-! ### C52 -/

/-- Calls that returned. -/
def returnedCalls (tr : Trace A) : Nat := tr.countP fun
  | .call _ _ e => match e.out with
    | .ok _ => true
    | _ => false
  | _ => false

/-- Calls of the property function. -/
def allCalls (tr : Trace A) : Nat := tr.countP fun
  | .call .. => true
  | _ => false

/-- Calls of the startup hook. -/
def startups (tr : Trace A) : Nat := tr.countP fun
  | .startup .. => true
  | _ => false

/-- Calls of the cleanup hook. -/
def cleanups (tr : Trace A) : Nat := tr.countP fun
  | .cleanup .. => true
  | _ => false

/-- Attempts to draw arguments that ended with an exception of a generator. -/
def drawsThrown (tr : Trace A) : Nat := tr.countP fun
  | .genThrew .run _ => true
  | _ => false

private theorem paired_counts {tr : Trace A} (h : Paired tr) :
    cleanups tr = returnedCalls tr ∧ startups tr = allCalls tr + drawsThrown tr := by
  induction h with
  | nil => exact ⟨rfl, rfl⟩
  | returned ph args e0 e2 e1 b tr ho _ ih =>
    simp only [cleanups, returnedCalls, startups, allCalls, drawsThrown, List.countP_cons, ho] at ih ⊢
    simp
    omega
  | threw ph args e0 e1 tr ho _ ih =>
    simp only [cleanups, returnedCalls, startups, allCalls, drawsThrown, List.countP_cons] at ih ⊢
    cases h : e1.out with
    | ok b => exact absurd h (ho b)
    | throws e => simp; omega
    | ub => simp; omega
    | diverges => simp; omega
  | genRun e0 e tr _ ih =>
    simp only [cleanups, returnedCalls, startups, allCalls, drawsThrown, List.countP_cons] at ih ⊢
    simp
    omega
  | genShrink e tr _ ih =>
    simp only [cleanups, returnedCalls, startups, allCalls, drawsThrown, List.countP_cons] at ih ⊢
    simp
    omega

/-- C52 is violated by every call that does not return: with both hooks installed, the cleanup hook runs exactly as
often as calls of the property function return, whereas the startup hook runs for every call (and every failed attempt
to draw the arguments). So for each exception, discard or early success, one cleanup is missing. -/
theorem C52_missing_cleanups_violated {c : Cfg σ A} (hq : c.Quiet) (h1 : c.startup.isSome) (h2 : c.cleanup.isSome)
    (hg : ∀ s, Gen.drawTuple c.gens c.orderRun s ≠ .ub ∧ Gen.drawTuple c.gens c.orderRun s ≠ .diverges)
    (fuel : Nat) (seed : σ) :
    cleanups (forAll c fuel seed []).2 = returnedCalls (forAll c fuel seed []).2 ∧
    startups (forAll c fuel seed []).2 = allCalls (forAll c fuel seed []).2 + drawsThrown (forAll c fuel seed []).2 :=
  paired_counts (C52_hooks_paired_partial hq h1 h2 hg fuel seed)

/-- two calls are discarded, one fails, shrinking meets a failing, a discarded and a passing candidate -/
example : (fun tr => (startups tr, allCalls tr, cleanups tr, returnedCalls tr, drawsThrown tr))
    (forAll (hooked (fun k => if k < 2 then .node 0 [] else .node 4 [.node 1 [], .node 3 [.node 0 [.node 2 []]]])
      discards0 1) 5 0 []).2 = (7, 7, 4, 4, 0) := by decide +kernel

/-! ### C53 -/

private theorem success_loop {c : Cfg σ A} (hq : c.Quiet) (hg : c.GensTotal) (h0 : c.maxDurationMs = 0)
    (hf : ∀ tr a, (c.func tr a).out = .throws .success) (fuel : Nat) : ∀ (left : Nat) (s : St σ A),
    ∃ s', forLoop c (fuel + 1) left s = (.ok .passed, s') ∧
      (calls .run s'.trace).length = (calls .run s.trace).length + left
  | 0, s => ⟨s, rfl, by simp⟩
  | left + 1, s => by
    obtain ⟨⟨ts, r⟩, hd⟩ := hg s.rand
    rw [forLoop_succ, if_neg (fun h => h.1 h0), doWhile, Eng.bind_apply]
    unfold guarded Eng.tryCatch
    rw [attempt_quiet hq]
    simp only [hd, hf]
    rw [if_pos (by decide)]
    simp only [Eng.pure_apply]
    obtain ⟨s', h1, h2⟩ := success_loop hq hg h0 hf fuel left _
    refine ⟨s', h1, ?_⟩
    rw [h2]
    simp only [calls_cons, calls_append, calls_suEv]
    simp [Event.call?]
    omega

/-- C53 is violated by every property that ends its calls with PROP_SUCCESS: whatever expectations failed before, in
whatever runs, `forAll` returns true after the full number of runs. -/
theorem C53_success_hides_violated {c : Cfg σ A} (hq : c.Quiet) (hg : c.GensTotal) (h0 : c.maxDurationMs = 0)
    (hf : ∀ tr a, (c.func tr a).out = .throws .success) (fuel : Nat) (seed : σ) :
    (forAll c (fuel + 1) seed []).1 = .ok .passed ∧
    (calls .run (forAll c (fuel + 1) seed []).2).length = c.numRuns := by
  obtain ⟨s', h1, h2⟩ := success_loop hq hg h0 hf fuel c.numRuns ⟨seed, seed, 0, [], []⟩
  unfold forAll runForAll Eng.withContext Eng.catchStd Eng.tryCatch
  simp only [h1]
  exact ⟨trivial, by rw [h2]; simp [calls]⟩

example : (fun f => ((forAll (demo (fun k => Shr.leaf k) f 3) 1 0 []).1,
      (f 2).fails)) (fun a => ⟨if a = 2 then ["a != 2"] else [], .throws .success⟩) = (.ok .passed, ["a != 2"]) := by
  rw [Prod.mk.injEq]
  exact ⟨(C53_success_hides_violated (demo_setting _ _ _).quiet (fun s => ⟨_, demo_draw _ _ _ s⟩) rfl
    (fun _ _ => rfl) 0 0).1, by decide⟩

/-! ### C54 -/

/-- The exceptions of generators in `tr` were Discard, or `x`. -/
private def OnlyThrew (x : Option Exn) (tr : Trace A) : Prop :=
  ∀ e, .genThrew .run e ∈ tr → e = .discard ∨ some e = x

/-- If a generator threw something other than Discard, then this is what the statement throws, and the state saved for
shrinking is that from which the generator threw. -/
private def Threw (c : Cfg σ A) {α : Type _} (r : Outcome α × St σ A) : Prop :=
  OnlyThrew none r.2.trace ∨
    ∃ e, e ≠ .discard ∧ r.1 = .throws e ∧ Gen.drawTuple c.gens c.orderRun r.2.saved = .throws e ∧
      OnlyThrew (some e) r.2.trace

private theorem not_suEv (c : Cfg σ A) (ph ph' : Phase) (e : Exn) : .genThrew ph' e ∉ suEv c ph := by
  unfold suEv; split <;> simp

private theorem not_cuEv (c : Cfg σ A) (ph ph' : Phase) (e : Exn) : .genThrew ph' e ∉ cuEv c ph := by
  unfold cuEv; split <;> simp

private theorem onlyThrew_shrink {c : Cfg σ A} (hq : c.Quiet) (x : Option Exn) (s : St σ A)
    (h : OnlyThrew x s.trace) : OnlyThrew x (shrink c s).2.trace := by
  refine shrink_inv (P := OnlyThrew x) (fun N vals next s h => ?_) (fun e tr h e' he' => h e' (by simpa using he')) s h
  unfold test Eng.catchStd Eng.tryCatch
  simp only [Eng.bind_apply, runStartup_quiet hq.1, callFunc_apply]
  have h1 : OnlyThrew x (.call .shrink (Function.update (Tup.get vals) N next.value)
      (c.func (suEv c .shrink ++ s.trace) (Function.update (Tup.get vals) N next.value)) ::
        (suEv c .shrink ++ s.trace)) := by
    intro e he
    simp only [List.mem_cons, List.mem_append, reduceCtorEq, false_or, not_suEv] at he
    exact h e he
  cases ho : (c.func (suEv c .shrink ++ s.trace) (Function.update (Tup.get vals) N next.value)).out with
  | ok b =>
    simp only [runCleanup_quiet hq.2, Eng.pure_apply]
    intro e he
    rw [List.mem_append] at he
    exact h1 e (he.resolve_left (not_cuEv _ _ _ _))
  | throws e => simp only; split <;> exact h1
  | ub => exact h1
  | diverges => exact h1

private theorem threw_attempt {c : Cfg σ A} (hq : c.Quiet) (s : St σ A) (h : OnlyThrew none s.trace) :
    Threw c (attempt c s) := by
  have h1 : OnlyThrew none (suEv c .run ++ s.trace) := fun e he =>
    h e ((List.mem_append.1 he).resolve_left (not_suEv _ _ _ _))
  rw [attempt_quiet hq]
  cases hd : Gen.drawTuple c.gens c.orderRun s.rand with
  | ub => exact .inl h1
  | diverges => exact .inl h1
  | throws e =>
    by_cases hde : e = .discard
    · refine .inl fun e' he' => ?_
      rcases List.mem_cons.1 he' with g | g
      · injection g with _ g; exact .inl (g.trans hde)
      · exact h1 e' g
    · refine .inr ⟨e, hde, rfl, hd, fun e' he' => ?_⟩
      rcases List.mem_cons.1 he' with g | g
      · injection g with _ g; exact .inr (congrArg some g)
      · exact .inl ((h1 e' g).resolve_right (by simp))
  | ok p =>
    obtain ⟨ts, r⟩ := p
    simp only
    generalize hev : c.func (suEv c .run ++ s.trace) (Tup.get ts) = ev
    have h2 : OnlyThrew none (.call .run (Tup.get ts) ev :: (suEv c .run ++ s.trace)) := fun e he =>
      h1 e (by simpa using he)
    have h3 : OnlyThrew none (cuEv c .run ++ .call .run (Tup.get ts) ev :: (suEv c .run ++ s.trace)) := fun e he =>
      h2 e ((List.mem_append.1 he).resolve_left (not_cuEv _ _ _ _))
    cases ho : ev.out with
    | ub => exact .inl h2
    | diverges => exact .inl h2
    | throws e => exact .inl h2
    | ok b =>
      simp only
      split
      · exact .inl h3
      · exact .inl (shrinkBind_inv (P := fun _ tr => OnlyThrew none tr) (fun s h => onlyThrew_shrink hq none s h) _ h3
          Step.stop)

private theorem threw_guarded {c : Cfg σ A} (hc : Setting c) (s : St σ A) (h : OnlyThrew none s.trace) :
    Threw c (guarded c s) := by
  have ha := threw_attempt hc.quiet s h
  unfold guarded Eng.tryCatch
  cases hm : attempt c s with
  | mk o s1 =>
    rw [hm] at ha
    rcases ha with ha | ⟨e, h1, h2, h3, h4⟩
    · left
      cases o with
      | throws e =>
        simp only
        split
        · exact ha
        · split <;> exact ha
      | _ => exact ha
    · obtain rfl : o = .throws e := h2
      right
      refine ⟨e, h1, ?_⟩
      have : e ≠ .success := fun hs => hc.gens _ (hs ▸ h3)
      simp only [if_neg this, if_neg h1]
      exact ⟨rfl, h3, h4⟩

private theorem threw_doWhile {c : Cfg σ A} (hc : Setting c) : ∀ (fuel : Nat) (s : St σ A),
    OnlyThrew none s.trace → Threw c (doWhile c fuel s)
  | 0, s, h => .inl h
  | fuel + 1, s, h => by
    have hg := threw_guarded hc s h
    rw [doWhile, Eng.bind_apply]
    cases hm : guarded c s with
    | mk o s1 =>
      rw [hm] at hg
      rcases hg with hg | ⟨e, h1, h2, h3, h4⟩
      · cases o with
        | ok v =>
          cases v with
          | pass => exact .inl hg
          | again => exact threw_doWhile hc fuel s1 hg
          | stop r => exact .inl hg
        | _ => exact .inl hg
      · obtain rfl : o = .throws e := h2
        exact .inr ⟨e, h1, rfl, h3, h4⟩

private theorem threw_forLoop {c : Cfg σ A} (hc : Setting c) (fuel : Nat) : ∀ (left : Nat) (s : St σ A),
    OnlyThrew none s.trace → Threw c (forLoop c fuel left s)
  | 0, s, h => .inl h
  | left + 1, s, h => by
    rw [forLoop_succ]
    split
    · exact .inl h
    · have hg := threw_doWhile hc fuel s h
      cases hm : doWhile c fuel s with
      | mk o s1 =>
        rw [hm] at hg
        rcases hg with hg | ⟨e, h1, h2, h3, h4⟩
        · cases o with
          | ok v =>
            cases v with
            | some r => exact .inl hg
            | none => exact threw_forLoop hc fuel left { s1 with i := s1.i + 1 } hg
          | _ => exact .inl hg
        · obtain rfl : o = .throws e := h2
          exact .inr ⟨e, h1, rfl, h3, h4⟩

/-- C54 is violated in every run: whenever a generator throws anything other than Discard, in whatever run and after
whatever runs and discards before it, `forAll` throws this very exception instead of returning false. -/
theorem C54_any_run_violated {c : Cfg σ A} (hc : Setting c) (fuel : Nat) (seed : σ) (e : Exn)
    (h : .genThrew .run e ∈ (forAll c fuel seed []).2) (hd : e ≠ .discard) :
    (forAll c fuel seed []).1 = .throws e := by
  have hf := threw_forLoop hc fuel c.numRuns ⟨seed, seed, 0, [], []⟩ (fun e he => by simp at he)
  revert h
  unfold forAll runForAll Eng.withContext Eng.catchStd Eng.tryCatch
  cases hm : forLoop c fuel c.numRuns ⟨seed, seed, 0, [], []⟩ with
  | mk o s1 =>
    rw [hm] at hf
    rcases hf with hf | ⟨e', h1, h2, h3, h4⟩
    · intro h
      exfalso
      have key : OnlyThrew none (shrink c s1).2.trace := onlyThrew_shrink hc.quiet none s1 hf
      cases o with
      | throws e' =>
        simp only at h
        split at h
        · exact hd ((key e h).resolve_right (by simp))
        · exact hd ((hf e h).resolve_right (by simp))
      | _ => exact hd ((hf e h).resolve_right (by simp))
    · obtain rfl : o = .throws e' := h2
      have key : OnlyThrew (some e') (shrink c s1).2.trace := onlyThrew_shrink hc.quiet (some e') s1 h4
      simp only
      split
      · rename_i hstd
        intro h
        have he : e = e' := by simpa using (key e h).resolve_left hd
        subst he
        rw [shrink_apply, hc.order]
        simp only [h3]
      · intro h
        have he : e = e' := by simpa using (h4 e h).resolve_left hd
        subst he
        rfl

/-- A generator that throws in the third run. -/
private def throwsThird : Cfg Nat (fun _ : Fin 1 => Nat) :=
  { demo (fun k => Shr.leaf k) (fun _ => returns true) 7 with
    gens := fun _ s => if s = 2 then .throws .runtimeError else .ok (Shr.leaf s, s + 1) }

example : (match (forAll throwsThird 5 0 []).2 with
      | .genThrew .run e :: tr => some (e, (calls .run tr).map fun x => x.1 0)
      | .genThrew .shrink _ :: .genThrew .run e :: tr => some (e, (calls .run tr).map fun x => x.1 0)
      | _ => none) = some (.runtimeError, [0, 1]) := by decide +kernel

/-! ### C55 -/

/-- C55 is violated by every property whose function returns true after a failed expectation: `example` returns true. -/
theorem C55_expectations_ignored_violated {c : Cfg σ A} (hq : c.Quiet) (args : Args A)
    (h : ∀ tr, (c.func tr args).out = .ok true) (s : St σ A) : («example» c args s).1 = .ok true := by
  obtain ⟨cu, hcu, hex⟩ := example_quiet hq args s _ rfl
  rw [hex]
  simp [h]

example : («example» (pairProp (fun a b => ⟨if a < b then ["a >= b"] else [], .ok true⟩)) args34 fresh).1 = .ok true :=
  C55_expectations_ignored_violated ⟨fun k h => by simp [pairProp] at h, fun k h => by simp [pairProp] at h⟩ _
    (fun _ => rfl) _

/-! ### C88 -/

/-- C88 is violated because no argument is tried again: if no shrink of the argument shrunk first fails together with
the generated values of the others, it is reported as generated, whatever its shrinks do together with the reported
values of the others. -/
theorem C88_not_tried_again_violated {c : Cfg σ A} (hc : Setting c) {f : Args A → Ev Bool} (hf : c.Pure f)
    (N : Fin n) (rest : List (Fin n)) (ho : c.orderEach = N :: rest)
    (fuel : Nat) (seed : σ) (a : Nat) (start shrunk : Tup A) (tr : Trace A)
    (h : forAll c fuel seed [] = (.ok (.falsified a start shrunk), tr))
    (hpass : ∀ p ∈ (start N).shrinks, ¬ (f (Function.update (Tup.get start) N p.value)).Rejects) :
    shrunk N = start N := by
  obtain ⟨F, hF, h1⟩ := first_shrunk hc hf ho h
  rw [h1]
  conv_lhs => rw [← eta (start N)]
  rw [greedyNode, greedyNodeList_none F _ _ _, eta]
  intro p hp
  rw [Bool.eq_false_iff]
  exact fun h => hpass p hp ((hF _).mp h)

example : ∃ (c : Cfg Nat (fun _ : Fin 2 => Nat)) (f : Args (fun _ : Fin 2 => Nat) → Ev Bool),
    c.Pure f ∧ c.orderEach = [0, 1] ∧ ¬ (f fun i => i.val).Rejects ∧ (f fun _ => 0).Rejects := by
  refine ⟨demo2 (fun a b => returns (decide (a < b))), fun a => returns (decide (a 0 < a 1)), fun _ _ => rfl, rfl, ?_,
    Or.inl rfl⟩
  rintro (h | ⟨x, h, _⟩ | h) <;> simp [returns] at h

end Engine
end Verif
