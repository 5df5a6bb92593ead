import Verif.Model.ConcurrencySettings
import Verif.Props.ConcurrencyGo
/-
C188: the settings of a concurrent test.
-/
namespace Verif
open Engine Stateful Concurrency
variable {σ O M L : Type}

/-! ### C188 the settings of a concurrent test are in force -/

/-- A call of a setter. -/
inductive Call (O M : Type) where
  | seed (n : Nat)
  | runs (n : Nat)
  | threads (n : Nat)
  | limit (n : Nat)
  | startup (h : Nat → Ev Unit)
  | cleanup (h : Nat → Ev Unit)
  | check (h : O → M → Ev (O × M))

/-- The calls one after the other, as in `test.setSeed(1).setNumRuns(10)`. -/
def callAll (c : Conc σ O M) : List (Call O M) → Conc σ O M
  | [] => c
  | .seed n :: ss => callAll (c.setSeed n) ss
  | .runs n :: ss => callAll (c.setNumRuns n) ss
  | .threads n :: ss => callAll (c.setMaxConcurrency n) ss
  | .limit n :: ss => callAll (c.setMaxDurationMs n) ss
  | .startup h :: ss => callAll (c.setOnStartup h) ss
  | .cleanup h :: ss => callAll (c.setOnCleanup h) ss
  | .check h :: ss => callAll (c.setPostCheck h) ss

/-- The argument of the last call of a setter. -/
def lastOf {α : Type} (pick : Call O M → Option α) (ss : List (Call O M)) : Option α := (ss.filterMap pick).getLast?

/-- The arguments of the setters. -/
def Call.seed? : Call O M → Option Nat | .seed n => some n | _ => none
@[inherit_doc Call.seed?] def Call.runs? : Call O M → Option Nat | .runs n => some n | _ => none
@[inherit_doc Call.seed?] def Call.threads? : Call O M → Option Nat | .threads n => some n | _ => none
@[inherit_doc Call.seed?] def Call.limit? : Call O M → Option Nat | .limit n => some n | _ => none
@[inherit_doc Call.seed?] def Call.startup? : Call O M → Option (Nat → Ev Unit) | .startup h => some h | _ => none
@[inherit_doc Call.seed?] def Call.cleanup? : Call O M → Option (Nat → Ev Unit) | .cleanup h => some h | _ => none
@[inherit_doc Call.seed?] def Call.check? : Call O M → Option (O → M → Ev (O × M)) | .check h => some h | _ => none

theorem lastOf_nil {α : Type} (pick : Call O M → Option α) : lastOf pick [] = none := rfl

theorem lastOf_cons {α : Type} (pick : Call O M → Option α) (s : Call O M) (ss : List (Call O M)) :
    lastOf pick (s :: ss) = (lastOf pick ss).or (pick s) := by
  simp only [lastOf, List.filterMap_cons]
  cases h : pick s with
  | none => simp
  | some a =>
    cases h' : ss.filterMap pick with
    | nil => simp
    | cons b bs => simp [List.getLast?_cons_cons, List.getLast?_eq_getLast]

theorem toInt32_small {n : Nat} (h : n < 2^31) : toInt32 n = n := by
  have h1 : n % 2^32 = n := Nat.mod_eq_of_lt (by omega)
  rw [toInt32, h1, if_pos h]

theorem callAll_eq (c : Conc σ O M) (ss : List (Call O M)) : callAll c ss =
    { c with
      seed := (lastOf Call.seed? ss).getD c.seed
      numRuns := ((lastOf Call.runs? ss).map toInt32).getD c.numRuns
      numThreads := ((lastOf Call.threads? ss).map toInt32).getD c.numThreads
      maxDurationMs := (lastOf Call.limit? ss).getD c.maxDurationMs
      startup := (lastOf Call.startup? ss).or c.startup
      cleanup := (lastOf Call.cleanup? ss).or c.cleanup
      postCheck := (lastOf Call.check? ss).or c.postCheck } := by
  induction ss generalizing c with
  | nil => simp [callAll, lastOf_nil]
  | cons s ss ih =>
    have or_getD : ∀ {α : Type} (o : Option α) (a d : α), (o.or (some a)).getD d = o.getD a := by
      intro α o a d
      cases o <;> rfl
    have map_getD : ∀ {α β : Type} (f : α → β) (o : Option α) (a : α) (d : β),
        ((o.or (some a)).map f).getD d = (o.map f).getD (f a) := by
      intro α β f o a d
      cases o <;> rfl
    have or_or : ∀ {α : Type} (o : Option α) (a : α) (d : Option α), (o.or (some a)).or d = o.or (some a) := by
      intro α o a d
      cases o <;> rfl
    cases s <;> simp [callAll, ih, lastOf_cons, Call.seed?, Call.runs?, Call.threads?, Call.limit?, Call.startup?,
      Call.cleanup?, Call.check?, Conc.setSeed, Conc.setNumRuns, Conc.setMaxConcurrency, Conc.setMaxDurationMs,
      Conc.setOnStartup, Conc.setOnCleanup, Conc.setPostCheck, or_getD, map_getD, or_or]

theorem go_heq (c : Conc σ O M) (env : ConcEnv σ O M) (fuel : Nat) (cell : O) (N : Nat) (h : c.numThreads.toNat = N) :
    HEq (c.go env fuel cell) (goTest (functionTest c.initial c.actions (c.makeModel env) c.postCheck c.startup c.cleanup
      (c.timeUp env) (env.sched N) env.broken) fuel c.numRuns.toNat (env.seeded c.seed) cell) := by
  subst h
  rfl

/-- C188, the part that holds: whatever setters are called, in any order and any number of times, `go` runs the test with the
argument of the last call of each setter, and with the defaults for the others: the global seed, 200 runs, 2 threads, no time
limit, no hooks and no post check. Missing: numbers of runs and threads from 2^31 on (see C98 and C158). -/
theorem C188_settings_partial (env : ConcEnv σ O M) (initial : Source σ O) (factory : O → Ev (O × M))
    (actions : Draw σ (List (Act O M))) (ss : List (Call O M)) (hr : ∀ n, Call.runs n ∈ ss → n < 2^31)
    (ht : ∀ n, Call.threads n ∈ ss → n < 2^31) (fuel : Nat) (cell : O) :
    HEq ((callAll (Conc.new env initial (some factory) actions) ss).go env fuel cell)
      (goTest (functionTest (N := (lastOf Call.threads? ss).getD 2) initial actions factory (lastOf Call.check? ss)
        (lastOf Call.startup? ss) (lastOf Call.cleanup? ss)
        (fun k => decide ((lastOf Call.limit? ss).getD 0 ≠ 0 ∧ (lastOf Call.limit? ss).getD 0 < env.clock k))
        (env.sched ((lastOf Call.threads? ss).getD 2)) env.broken) fuel ((lastOf Call.runs? ss).getD 200)
        (env.seeded ((lastOf Call.seed? ss).getD env.globalSeed)) cell) := by
  have mem : ∀ {α : Type} (pick : Call O M → Option α) (a : α), lastOf pick ss = some a → ∃ s ∈ ss, pick s = some a := by
    intro α pick a h
    have := List.mem_of_getLast? h
    rwa [List.mem_filterMap] at this
  have small : ∀ (pick : Call O M → Option Nat) (d : Nat), (∀ s ∈ ss, ∀ n, pick s = some n → n < 2^31) →
      (((lastOf pick ss).map toInt32).getD (d : Int)).toNat = (lastOf pick ss).getD d := by
    intro pick d hp
    cases h : lastOf pick ss with
    | none => simp
    | some n =>
      obtain ⟨s, hs, e⟩ := mem pick n h
      simp [toInt32_small (hp s hs n e)]
  have h1 := small Call.threads? 2 (by
    intro s hs n e
    cases s <;> simp [Call.threads?] at e
    exact ht _ (e ▸ hs))
  have h2 := small Call.runs? 200 (by
    intro s hs n e
    cases s <;> simp [Call.runs?] at e
    exact hr _ (e ▸ hs))
  refine HEq.trans (go_heq _ _ _ _ ((lastOf Call.threads? ss).getD 2) ?_) (heq_of_eq ?_)
  · rw [callAll_eq]
    exact h1
  · rw [callAll_eq]
    simp only [Conc.new, Option.or_none]
    have h3 : ((lastOf Call.runs? ss).map toInt32 |>.getD (200 : Int)).toNat = (lastOf Call.runs? ss).getD 200 := h2
    rw [h3]
    congr 1
    simp only [functionTest]
    congr 1
    funext k
    simp only [Conc.timeUp]
    by_cases h : (lastOf Call.limit? ss).getD 0 = 0
    · simp [h]
    · simp [h]

/-! The time limit. -/

theorem afterStartup_startups (T : Test σ O L) (k : Nat) (rand : σ) (cell : O) :
    (afterStartup T k rand cell).events.countP GoEvent.isStartup = 0 := by
  simp only [afterStartup, cleanUp, noValue]
  repeat' split
  all_goals simp [Ended.after, GoEvent.isStartup]

theorem tryOnce_startups (T : Test σ O L) {su : Nat → Ev Unit} (h : T.startup = some su) (k : Nat) (rand : σ) (cell : O) :
    (tryOnce T k rand cell).events.countP GoEvent.isStartup = 1 := by
  simp only [tryOnce, h]
  split
  · simp only [Ended.after, List.cons_append, List.nil_append, List.countP_cons, afterStartup_startups]
    rfl
  · simp [noValue, GoEvent.isStartup]

/-- Attempt number `j` ends with PROP_DISCARD. -/
def Discards (T : Test σ O L) (seed : σ) (cell : O) (j : Nat) : Prop :=
  ∃ fs, (tryOnce T j (before T seed cell j).1 (before T seed cell j).2).res = .done ⟨fs, .throws .discard⟩

theorem tryUntil_startups (T : Test σ O L) {su : Nat → Ev Unit} (h : T.startup = some su) (seed : σ) (cell : O) (j : Nat)
    (hj : ¬ Discards T seed cell j) : ∀ (fuel k : Nat), k ≤ j →
    let x := tryUntil T fuel k (before T seed cell k).1 (before T seed cell k).2
    x.events.countP GoEvent.isStartup ≤ j + 1 - k ∧
    ∀ k' fs, x.res = .done ⟨fs, .ok k'⟩ → k < k' ∧ k' ≤ j + 1 ∧ x.rand = (before T seed cell k').1 ∧
      x.cell = (before T seed cell k').2 ∧ x.events.countP GoEvent.isStartup = k' - k := by
  intro fuel
  induction fuel with
  | zero =>
    intro k hk
    refine ⟨by simp [tryUntil], ?_⟩
    intro k' fs e
    simp [tryUntil] at e
  | succ fuel ih =>
    intro k hk
    have one := tryOnce_startups T h k (before T seed cell k).1 (before T seed cell k).2
    simp only [tryUntil]
    split
    · rename_i ev hev
      split
      · refine ⟨by dsimp only; omega, ?_⟩
        intro k' fs e
        injection e with e
        injection e with e1 e2
        injection e2 with e2
        subst e2
        exact ⟨by omega, by omega, rfl, rfl, by dsimp only; omega⟩
      · rename_i e he
        split
        · refine ⟨by dsimp only; omega, ?_⟩
          intro k' fs e
          injection e with e
          injection e with e1 e2
          injection e2 with e2
          subst e2
          exact ⟨by omega, by omega, rfl, rfl, by dsimp only; omega⟩
        · split
          · rename_i hd
            subst hd
            have hk' : k < j := by
              rcases Nat.lt_or_ge k j with h | h
              · exact h
              · exfalso
                have : k = j := by omega
                subst this
                exact hj ⟨ev.fails, by rw [hev, ← he]⟩
            obtain ⟨i1, i2⟩ := ih (k + 1) (by omega)
            refine ⟨?_, ?_⟩
            · simp only [Ended.after, List.countP_append, one]
              have : (tryUntil T fuel (k + 1) (before T seed cell (k + 1)).1 (before T seed cell (k + 1)).2).events.countP
                GoEvent.isStartup ≤ j + 1 - (k + 1) := i1
              simp only [before] at this
              omega
            · intro k' fs e
              obtain ⟨a1, a2, a3, a4, a5⟩ := i2 k' fs e
              refine ⟨by omega, a2, a3, a4, ?_⟩
              simp only [Ended.after, List.countP_append, one]
              simp only [before] at a5
              omega
          · refine ⟨by dsimp only; omega, ?_⟩
            intro k' fs e
            cases e
      · refine ⟨by dsimp only; omega, ?_⟩
        intro k' fs e
        cases e
      · refine ⟨by dsimp only; omega, ?_⟩
        intro k' fs e
        cases e
    · refine ⟨by dsimp only; omega, ?_⟩
      intro k' fs e
      cases e
    · refine ⟨by dsimp only; omega, ?_⟩
      intro k' fs e
      cases e

theorem runs_startups (T : Test σ O L) {su : Nat → Ev Unit} (h : T.startup = some su) (seed : σ) (cell : O) (i j : Nat)
    (hi : ∀ k, i ≤ k → T.timeUp k = true) (hij : i ≤ j + 1) (hj : ¬ Discards T seed cell j) (fuel : Nat) :
    ∀ (left k : Nat), k ≤ j + 1 →
      (runs T fuel left k (before T seed cell k).1 (before T seed cell k).2).events.countP GoEvent.isStartup ≤ j + 1 - k := by
  intro left
  induction left with
  | zero =>
    intro k hk
    simp [runs]
  | succ left ih =>
    intro k hk
    simp only [runs]
    split
    · simp
    · rename_i ht
      have hk' : k ≤ j := by
        by_contra hc
        exact ht (hi k (by omega))
      obtain ⟨a, b⟩ := tryUntil_startups T h seed cell j hj fuel k hk'
      split
      · rename_i ev hev
        split
        · rename_i k' hk''
          obtain ⟨b1, b2, b3, b4, b5⟩ := b k' ev.fails (by rw [hev, ← hk''])
          have := ih k' b2
          simp only [Ended.after, List.countP_append]
          rw [b3, b4, b5]
          omega
        all_goals exact a
      · exact a
      · exact a

theorem goTest_events (T : Test σ O L) (fuel numRuns : Nat) (seed : σ) (cell : O) :
    (goTest T fuel numRuns seed cell).events = (runs T fuel numRuns 0 seed cell).events := by
  simp only [goTest]
  split
  · split
    · split <;> rfl
    · rfl
  · rfl

/-- C188, the part that holds of the time limit: when the limit has passed before attempt number `i`, no attempt is begun after
the first of the attempts from number `i - 1` on that is not discarded. So if attempt `i - 1` is not discarded none is begun
from `i` on, and if it is, then further ones up to the first that is not discarded. Missing: attempts that are discarded, see
`C188_discards_violated`. -/
theorem C188_time_limit_partial (c : Conc σ O M) (env : ConcEnv σ O M) (su : Nat → Ev Unit) (h : c.startup = some su)
    (hm : c.maxDurationMs ≠ 0) (hclock : ∀ a b, a ≤ b → env.clock a ≤ env.clock b) (i j : Nat)
    (hi : c.maxDurationMs < env.clock i) (hij : i ≤ j + 1) (cell : O)
    (hj : ¬ Discards (c.test env) (env.seeded c.seed) cell j) (fuel : Nat) :
    (c.go env fuel cell).events.countP GoEvent.isStartup ≤ j + 1 := by
  have := runs_startups (c.test env) h (env.seeded c.seed) cell i j (fun k hk => by
    show c.timeUp env k = true
    have := hclock i k hk
    simp only [Conc.timeUp, if_pos hm, decide_eq_true_eq]
    omega) hij hj fuel c.numRuns.toNat 0 (by omega)
  rw [Conc.go, goTest_events]
  exact this

/-- Without a limit, `setMaxDurationMs(0)`, the clock has no influence. -/
theorem C188_no_limit (c : Conc σ O M) (env : ConcEnv σ O M) (clock : Nat → Nat) (fuel : Nat) (cell : O) :
    (c.setMaxDurationMs 0).go env fuel cell = (c.setMaxDurationMs 0).go { env with clock := clock } fuel cell := rfl

/-- C188 is false of discards: whatever the limit and the clock (not over before the first run), if all attempts are discarded
then they go on, as long as one likes to wait. -/
theorem C188_discards_violated (c : Conc σ O M) (env : ConcEnv σ O M) (su : Nat → Ev Unit) (h : c.startup = some su)
    (h0 : env.clock 0 ≤ c.maxDurationMs) (hn : 0 < c.numRuns) (cell : O)
    (hd : ∀ j, Discards (c.test env) (env.seeded c.seed) cell j) (fuel : Nat) :
    (c.go env fuel cell).res = .done ⟨[], .diverges⟩ ∧
    (c.go env fuel cell).events.countP GoEvent.isStartup = fuel := by
  have key : ∀ fuel k,
      let x := tryUntil (c.test env) fuel k (before (c.test env) (env.seeded c.seed) cell k).1
        (before (c.test env) (env.seeded c.seed) cell k).2
      x.res = .done ⟨[], .diverges⟩ ∧ x.events.countP GoEvent.isStartup = fuel := by
    intro fuel
    induction fuel with
    | zero =>
      intro k
      exact ⟨rfl, rfl⟩
    | succ fuel ih =>
      intro k
      obtain ⟨fs, e⟩ := hd k
      obtain ⟨i1, i2⟩ := ih (k + 1)
      have one := tryOnce_startups (c.test env) h k (before (c.test env) (env.seeded c.seed) cell k).1
        (before (c.test env) (env.seeded c.seed) cell k).2
      simp only [tryUntil, e]
      rw [if_neg (by decide), if_pos trivial]
      refine ⟨i1, ?_⟩
      simp only [Ended.after, List.countP_append, one]
      simp only [before] at i2
      omega
  obtain ⟨n, hn'⟩ : ∃ n, c.numRuns.toNat = n + 1 := ⟨c.numRuns.toNat - 1, by omega⟩
  have ht : (c.test env).timeUp 0 = false := by
    show c.timeUp env 0 = false
    simp only [Conc.timeUp]
    split
    · simp only [decide_eq_false_iff_not]
      omega
    · rfl
  obtain ⟨k1, k2⟩ := key fuel 0
  have e : runs (c.test env) fuel (n + 1) 0 (env.seeded c.seed) cell =
      ⟨.done ⟨[], .diverges⟩, (tryUntil (c.test env) fuel 0 (env.seeded c.seed) cell).rand,
        (tryUntil (c.test env) fuel 0 (env.seeded c.seed) cell).cell,
        (tryUntil (c.test env) fuel 0 (env.seeded c.seed) cell).events⟩ := by
    have k1 : (tryUntil (c.test env) fuel 0 (env.seeded c.seed) cell).res = .done ⟨[], .diverges⟩ := k1
    simp only [runs, ht, k1]
    rfl
  refine ⟨?_, ?_⟩
  · rw [Conc.go, hn', goTest, e]
  · rw [Conc.go, hn', goTest_events, e]
    exact k2

/-! Cases. -/

/-- one action, which adds one to the object -/
def plusOne : Draw Nat (List (Act Nat Unit)) := fun s => (.ok [fun o m => ⟨[], .ok (o + 1, m)⟩], s + 1)

/-- ten milliseconds per attempt; the threads take turns -/
def tenMs : ConcEnv Nat Nat Unit where
  globalSeed := 7
  seeded := id
  clock := fun k => 10 * k
  sched := fun N k => (List.range 100).filterMap fun i => if h : (i + k) % N < N then some ⟨(i + k) % N, h⟩ else none
  model := ()
  broken := 0

/-- a test, with a startup hook that discards the attempts for which `d` holds -/
def hooked (d : Nat → Bool) (ss : List (Call Nat Unit)) : Conc Nat Nat Unit :=
  callAll (Conc.new tenMs (.fresh fun s => (.ok s, s + 1)) (some fun o => ⟨[], .ok (o, ())⟩) plusOne)
    (.startup (fun k => ⟨[], if d k then .throws .discard else .ok ()⟩) :: ss)

/-- Settings made several times: the last ones are in force. The limit of 25 ms ends the test after three runs; without it there
are six. -/
example : ((hooked (fun _ => false) [.runs 9, .seed 3, .limit 25, .runs 6]).go tenMs 50 0).events.countP GoEvent.isStartup = 3 ∧
    ((hooked (fun _ => false) [.runs 9, .limit 25, .seed 3, .limit 0, .runs 6]).go tenMs 50 0).events.countP GoEvent.isStartup = 6 ∧
    lastOf Call.runs? ([.runs 9, .seed 3, .limit 25, .runs 6] : List (Call Nat Unit)) = some 6 := by
  decide +kernel

/-- With the attempts 2 to 5 discarded there are seven attempts, although the limit has passed before attempt 3. -/
example : ((hooked (fun k => 2 ≤ k ∧ k ≤ 5) [.limit 25]).go tenMs 50 0).events.countP GoEvent.isStartup = 7 ∧
    25 < tenMs.clock 3 := by
  decide +kernel

/-- All attempts discarded. -/
example : ∀ j, Discards ((hooked (fun _ => true) [.limit 25]).test tenMs) 7 0 j := fun _ => ⟨[], rfl⟩

example : ¬ Discards ((hooked (fun _ => false) [.limit 25]).test tenMs) 7 0 2 := by
  rintro ⟨fs, h⟩
  have e : (match (tryOnce ((hooked (fun _ => false) [.limit 25]).test tenMs) 2
      (before ((hooked (fun _ => false) [.limit 25]).test tenMs) 7 0 2).1
      (before ((hooked (fun _ => false) [.limit 25]).test tenMs) 7 0 2).2).res with
    | .done ⟨_, .throws .discard⟩ => true
    | _ => false) = false := by decide +kernel
  rw [h] at e
  cases e

end Verif
