import Verif.Lemmas.TimeLimit
import Verif.Props.Verdict
import Verif.Props.EndToEnd
/-
C137: what the time limit of a property limits. The full claim is that once more than `maxDurationMs` have passed, the
test ends with the call of the property that is under way (docs/Property.md:276-281: "This will limit the time
regardless of number of runs ... will run the test for maximum of 60 seconds"). The time is only looked at before a run:
discarded runs are repeated and failing arguments are shrunk without looking at it.
-/
namespace Verif
namespace Engine
open PairTuple
variable {n : Nat} {A : Fin n → Type} {σ : Type}

/-- C137. After the limit has passed at most one more call of the property is made that is not discarded, not counting
calls made to shrink. (`later` happened after `earlier`; when `earlier` had happened the limit had passed.)
Missing: calls that are discarded, and calls made to shrink, see `C137_discards_violated`,
`C137_shrinking_violated`. -/
theorem C137_one_more_run_partial {c : Cfg σ A} (hc : Setting c) (hm : c.maxDurationMs ≠ 0)
    (hclock : ∀ x tr, c.clock tr ≤ c.clock (x :: tr)) (fuel : Nat) (seed : σ) (later earlier : Trace A)
    (h : (forAll c fuel seed []).2 = later ++ earlier) (ho : c.maxDurationMs < c.clock earlier) :
    ((calls .run later).filter (fun x => x.2.out ≠ .throws .discard)).length ≤ 1 := by
  have := forAll_limit hc hm hclock fuel seed earlier ho ⟨later, h.symm⟩
  rw [h, calls_append, List.filter_append, List.length_append] at this
  have e : (calls .run later).filter (fun x => x.2.out ≠ .throws .discard) = (calls .run later).filter kept :=
    List.filter_congr fun x _ => by simp [kept, Ev.discarded]
  rw [e]
  omega

/-- C137. `forAll` says that it timed out only if the limit has passed. -/
theorem C137_timed_out {c : Cfg σ A} (hc : Setting c) (fuel : Nat) (seed : σ) (k : Nat) (tr : Trace A)
    (h : forAll c fuel seed [] = (.ok (.timedOut k), tr)) : c.maxDurationMs ≠ 0 ∧ c.maxDurationMs < c.clock tr := by
  have hl : ∀ (left : Nat) (s : St σ A) (k : Nat) (s' : St σ A), forLoop c fuel left s = (.ok (.timedOut k), s') →
      c.maxDurationMs ≠ 0 ∧ c.maxDurationMs < c.clock s'.trace := by
    intro left
    induction left with
    | zero => intro s k s' h; rw [forLoop, Eng.pure_apply] at h; cases h
    | succ left ih =>
      intro s k s' h
      rw [forLoop_succ] at h
      split at h
      · next ht => cases h; exact ht
      · cases hw : doWhile c fuel s with
        | mk o s1 =>
          rw [hw] at h
          cases o with
          | ub => cases h
          | diverges => cases h
          | throws e => cases h
          | ok v =>
            cases v with
            | some r =>
              obtain ⟨a, b, d, hr⟩ := doWhile_report hc _ _ _ _ hw
              subst hr
              cases h
            | none => exact ih _ k s' h
  unfold forAll runForAll Eng.withContext Eng.catchStd Eng.tryCatch at h
  simp only at h
  cases hf : forLoop c fuel c.numRuns (⟨seed, seed, 0, [], []⟩ : St σ A) with
  | mk o s1 =>
    rw [hf] at h
    cases o with
    | ub => cases h
    | diverges => cases h
    | ok r => cases h; exact hl _ _ k _ hf
    | throws e =>
      simp only at h
      split at h
      · cases hs : shrink c s1 with
        | mk o2 s2 =>
          rw [show (shrink c) s1 = _ from hs] at h
          cases o2 with
          | ub => cases h
          | diverges => cases h
          | throws e => cases h
          | ok r =>
            obtain ⟨a, b, d, hr⟩ := shrink_report _ _ _ hs
            subst hr
            cases h
      · cases h

/-- C137 is false of discards: whatever the limit and the clock (not over before the first run), a property that
discards all it is given is called again and again, as often as one likes to wait for. -/
theorem C137_discards_violated {c : Cfg σ A} (hc : Setting c) {f : Args A → Ev Bool} (hf : Regular c f) (seed : σ)
    (D : Nat → Tup A) (hD : c.Drawn seed D) (hn : c.numRuns ≠ 0) (h0 : c.clock [] ≤ c.maxDurationMs)
    (hd : ∀ a, (f a).out = .throws .discard) (fuel : Nat) :
    (forAll c fuel seed []).1 = .diverges ∧ (calls .run (forAll c fuel seed []).2).length = fuel := by
  classical
  have key : ∀ (fuel j : Nat) (s : St σ A), At c f D seed j 0 s →
      ∃ s', doWhile c fuel s = (.diverges, s') ∧ (calls .run s'.trace).length = j + fuel := by
    intro fuel
    induction fuel with
    | zero => intro j s h; exact ⟨s, rfl, by rw [h.runs]; simp⟩
    | succ fuel ih =>
      intro j s h
      obtain ⟨ha, _, _⟩ := guarded_at hc hf.pure hf.out hf.quiet (fails := fun a => decide (f a).Rejects) (by simp) (hD _) h
      obtain ⟨s', e, hs'⟩ := ha (by simp [Ev.discarded, hd])
      obtain ⟨s2, e2, h2⟩ := ih (j + 1) s' hs'
      refine ⟨s2, ?_, by omega⟩
      rw [doWhile, Eng.bind_apply, e]
      exact e2
  obtain ⟨s', e, h⟩ := key fuel 0 ⟨seed, seed, 0, [], []⟩ ⟨rfl, rfl, rfl, rfl, rfl⟩
  obtain ⟨m, hm⟩ : ∃ m, c.numRuns = m + 1 := ⟨c.numRuns - 1, by omega⟩
  unfold forAll runForAll Eng.withContext Eng.catchStd Eng.tryCatch
  simp only [hm, forLoop_succ]
  rw [if_neg (by omega), e]
  exact ⟨rfl, by simpa using h⟩

/-- C137: the shrink phase does not look at the clock. If the first draw fails, the report and the arguments tried are
the same for all limits and clocks (not over before the first run): those of greedy shrinking to the end. -/
theorem C137_shrinking_ignores_limit {c : Cfg σ A} (hc : Setting c) {f : Args A → Ev Bool} (hf : Regular c f) (seed : σ)
    (D : Nat → Tup A) (hD : c.Drawn seed D) (hn : c.numRuns ≠ 0) (h0 : c.clock [] ≤ c.maxDurationMs)
    (hF : (f fun i => (D 0 i).value).Fails) {fails : Args A → Bool} (hfails : ∀ a, fails a = true ↔ (f a).Rejects)
    (fuel : Nat) (hfuel : 0 < fuel) :
    ∃ tr, forAll c fuel seed [] = (.ok (.falsified 1 (D 0) (greedyEach fails c.orderEach (D 0))), tr) ∧
      (calls .shrink tr).map Prod.fst = greedyEachTried fails c.orderEach (D 0) := by
  have hex : ∃ tr, forAll c fuel seed [] = (.ok (.falsified 1 (D 0) (greedyEach fails c.orderEach (D 0))), tr) := by
    obtain ⟨m, hm⟩ : ∃ m, c.numRuns = m + 1 := ⟨c.numRuns - 1, by omega⟩
    unfold forAll runForAll Eng.withContext Eng.catchStd Eng.tryCatch
    simp only [hm, forLoop_succ]
    rw [if_neg (by omega)]
    rcases (doWhile_at hc hf.pure hf.out hf.quiet hfails hD 0 fuel 0 0 ⟨seed, seed, 0, [], []⟩ hfuel
      ⟨rfl, rfl, rfl, rfl, rfl⟩ (fun k h1 h2 => by omega)).2 (by rw [Nat.zero_add]; exact hF) with
      ⟨R, s', e, hE⟩ | ⟨x, s', e, hs, R, s'', e2, hE⟩
    · rw [e]
      refine ⟨s'.trace, ?_⟩
      rw [hE.report]
    · rw [e]
      simp only [hs, if_true]
      refine ⟨s''.trace, ?_⟩
      rw [e2, hE.report]
  obtain ⟨tr, h⟩ := hex
  exact ⟨tr, h, (C108_greedy hc hf.pure hfails fuel seed _ _ _ _ h).2⟩

/-- k, k-1, ..., 0 one after the other -/
def chain : Nat → Shr Nat
  | 0 => .leaf 0
  | k + 1 => .node (k + 1) [chain k]

/-- One millisecond per event of the history. -/
def slow (c : Cfg σ A) (ms : Nat) : Cfg σ A := { c with maxDurationMs := ms, clock := fun tr => tr.length }

theorem slow_setting {c : Cfg σ A} (hc : Setting c) (ms : Nat) : Setting (slow c ms) :=
  ⟨hc.quiet, hc.order, hc.nodup, hc.gens⟩

theorem slow_drawn {c : Cfg σ A} {seed : σ} {D : Nat → Tup A} (h : c.Drawn seed D) (ms : Nat) :
    (slow c ms).Drawn seed D := h

theorem slow_regular {c : Cfg σ A} {f : Args A → Ev Bool} (h : Regular c f) (ms : Nat) : Regular (slow c ms) f :=
  ⟨h.pure, h.out, h.quiet⟩

theorem greedyTried_chain (k : Nat) : ((chain k).greedyTried fun _ => true).length = k := by
  induction k with
  | zero => rfl
  | succ k ih => simp [chain, Shr.greedyTried, Shr.greedyTriedList, ih]

/-- C137 is false of shrinking: for every `N` there is a property of one number and a limit such that `N` calls are made
to shrink after the limit has passed. -/
theorem C137_shrinking_violated (N : Nat) : ∃ (c : Cfg Nat (fun _ : Fin 1 => Nat)) (R : Report (fun _ : Fin 1 => Nat))
    (later earlier : Trace (fun _ : Fin 1 => Nat)), Setting c ∧ c.maxDurationMs ≠ 0 ∧
    (∀ x tr, c.clock tr ≤ c.clock (x :: tr)) ∧ forAll c 1 0 [] = (.ok R, later ++ earlier) ∧
    c.maxDurationMs < c.clock earlier ∧ N ≤ (calls .shrink later).length := by
  have hf : Regular (demo (fun _ => chain (N + 2)) (fun _ => returns false) 1) (fun _ => returns false) :=
    ⟨fun _ _ => rfl, fun _ => .inl ⟨_, rfl⟩, fun _ _ => rfl⟩
  obtain ⟨tr, h1, h2⟩ := C137_shrinking_ignores_limit (slow_setting (demo_setting (fun _ => chain (N + 2)) _ 1) 1)
    (slow_regular hf 1) 0 _ (slow_drawn (demo_drawn _ _ _ _) 1) (by simp [slow, demo]) (by simp [slow])
    (.inl rfl) (fails := fun _ => true) (by simp [Ev.Rejects, returns]) 1 (by omega)
  have hlen : (calls .shrink tr).length = N + 2 := by
    have := congrArg List.length h2
    rw [List.length_map] at this
    rw [this]
    simp [slow, demo, greedyEachTried, greedyTried_chain]
  obtain ⟨later, x, y, e⟩ : ∃ later x y, tr = later ++ [x, y] := by
    rcases List.eq_nil_or_concat tr with rfl | ⟨l, y, rfl⟩
    · simp at hlen
    · rcases List.eq_nil_or_concat l with rfl | ⟨l, x, rfl⟩
      · have := calls_length_cons .shrink y []
        simp at hlen this
        omega
      · exact ⟨l, x, y, by simp⟩
  subst e
  refine ⟨_, _, later, [x, y], slow_setting (demo_setting (fun _ => chain (N + 2)) (fun _ => returns false) 1) 1,
    by simp [slow], fun x tr => by simp [slow], h1, by simp [slow], ?_⟩
  have h3 := calls_length_cons .shrink x [y]
  have h4 := calls_length_cons .shrink y []
  rw [calls_append, List.length_append] at hlen
  simp at h3 h4
  omega

/-- The limit is 1 ms, every event takes 1 ms: after the second call (a discarded one) no other run begins than that
repeating it. -/
example : shown (forAll (slow (demo (fun k => Shr.leaf k) skips1 10) 1) 5 0 []) = (.ok true, none, [0, 1, 2], []) ∧
    (slow (demo (fun k => Shr.leaf k) skips1 10) 1).maxDurationMs ≠ 0 := by
  decide +kernel

example : (calls .run ((forAll (slow (demo (fun k => Shr.leaf k) skips1 10) 1) 5 0 []).2.take 1)).length = 1 ∧
    (slow (demo (fun k => Shr.leaf k) skips1 10) 1).maxDurationMs <
      (slow (demo (fun k => Shr.leaf k) skips1 10) 1).clock
        ((forAll (slow (demo (fun k => Shr.leaf k) skips1 10) 1) 5 0 []).2.drop 1) ∧
    (match (forAll (slow (demo (fun k => Shr.leaf k) skips1 10) 1) 5 0 []).1 with
      | .ok (.timedOut k) => some k | _ => none) = some 2 := by
  decide +kernel

/-- Everything is discarded, the limit is 1 ms. -/
example : ∀ fuel, (forAll (slow (demo (fun k => Shr.leaf k) (fun _ => raises .discard) 1) 1) fuel 0 []).1 = .diverges ∧
    (calls .run (forAll (slow (demo (fun k => Shr.leaf k) (fun _ => raises .discard) 1) 1) fuel 0 []).2).length = fuel :=
  C137_discards_violated (slow_setting (demo_setting _ _ _) 1)
    (slow_regular ⟨fun _ _ => rfl, fun _ => .inr ⟨_, rfl, rfl⟩, fun _ _ => rfl⟩ 1) 0 _
    (slow_drawn (demo_drawn _ _ _ _) 1) (by simp [slow, demo]) (by simp [slow]) (fun _ => rfl)

end Engine
end Verif
