import Verif.Lemmas.Spawn
import Verif.Props.Handshake
import Verif.Props.ConcurrencyGo
import Verif.Props.Concurrency
/-!
C157: what becomes of a concurrent test when a thread cannot be created. C158: how many threads
`setMaxConcurrency(n)` means.
-/
namespace Verif
namespace Concurrency
open Engine Stateful
variable {N : Nat} {σ O M L : Type}

/-- For the examples: adds `n` to the object. -/
private def addsN (n : Nat) : Act Nat Unit := fun o m => ⟨[], .ok (o + n, m)⟩

/-- For the examples: an action that fails. -/
private def fails : Act Nat Unit := fun _ _ => ⟨[], .throws .assertFailed⟩

/-- C157, violated: if a rear thread cannot be created, `invoke` neither returns nor throws, whatever the actions, the
threads created so far and the scheduler do, so there is no verdict and no report; a fair scheduler brings the program to
its end (`std::terminate`). -/
theorem C157_rear_violated (refused : Refusals) (factory : O → Ev (O × M)) (postCheck : Option (O → M → Ev (O × M)))
    (obj o : O) (m : M) (front : List (Act O M)) (rears : Fin N → List (Act O M)) (hN : 2 ≤ N) (i : Nat) (hi : i < N)
    (hfr : (andThen (factory obj) (runActions front)).out = .ok (o, m)) (hs : refused.spawner = false)
    (hr : refused.rear i = true) :
    (∀ sched, invokeSpawn refused factory postCheck obj front rears sched = .unfinished ∨
      invokeSpawn refused factory postCheck obj front rears sched = .terminated) ∧
    ∀ σ, Fair σ → ∃ n, invokeSpawn refused factory postCheck obj front rears ((List.range n).map σ) = .terminated := by
  have hN' : ¬ N ≤ 1 := by omega
  constructor
  · intro sched
    unfold invokeSpawn
    simp only [hfr, if_neg hN', hs]
    rcases spawnRun_refused refused.rear step fnEnded i hi hr sched _ 0 (Nat.zero_le _)
      (handInit_early (rearInit front.length rears o m)) with ⟨s, h1, h2, _, _⟩ | h
    · left; simp [h1, h2.main]
    · right; simp [h]
  · intro σ hσ
    obtain ⟨n, hn⟩ := exists_count hσ (i + 1)
    refine ⟨n, ?_⟩
    unfold invokeSpawn
    simp only [hfr, if_neg hN', hs]
    rcases spawnRun_refused refused.rear step fnEnded i hi hr ((List.range n).map σ) _ 0 (Nat.zero_le _)
      (handInit_early (rearInit front.length rears o m)) with ⟨s, _, _, h3, _⟩ | h
    · omega
    · simp [h]

/-- Two threads, the second cannot be created; nothing is wrong with the actions. -/
example : invokeSpawn (N := 2) ⟨false, fun i => i == 1⟩ (fun o => ⟨[], .ok (o, ())⟩) none 1 [addsN 1] (fun _ => [addsN 3])
    [none, some 0, none] = .terminated := by decide +kernel

/-- C157, violated, class style. -/
theorem C157_class_rear_violated (refused : Refusals) (factory : O → Ev (O × M))
    (postCheck : Option (O → M → Ev (O × M))) (obj o : O) (m : M) (front : List (ClassAct O M))
    (rears : Fin 2 → List (ClassAct O M)) (i : Nat) (hi : i < 2)
    (hfr : (andThen (factory obj) (runClassActions front)).out = .ok (o, m)) (hs : refused.spawner = false)
    (hr : refused.rear i = true) :
    (∀ sched, classInvokeSpawn refused factory postCheck obj front rears sched = .unfinished ∨
      classInvokeSpawn refused factory postCheck obj front rears sched = .terminated) ∧
    ∀ σ, Fair σ →
      ∃ n, classInvokeSpawn refused factory postCheck obj front rears ((List.range n).map σ) = .terminated := by
  constructor
  · intro sched
    unfold classInvokeSpawn
    simp only [hfr, hs]
    rcases spawnRun_refused refused.rear classStep classEnded i hi hr sched _ 0 (Nat.zero_le _)
      (handInit_early (classInit rears o m)) with ⟨s, h1, h2, _, _⟩ | h
    · left; simp [h1, h2.main]
    · right; simp [h]
  · intro σ hσ
    obtain ⟨n, hn⟩ := exists_count hσ (i + 1)
    refine ⟨n, ?_⟩
    unfold classInvokeSpawn
    simp only [hfr, hs]
    rcases spawnRun_refused refused.rear classStep classEnded i hi hr ((List.range n).map σ) _ 0 (Nat.zero_le _)
      (handInit_early (classInit rears o m)) with ⟨s, _, _, h3, _⟩ | h
    · omega
    · simp [h]

/-- The part that holds: if the thread of the spawner cannot be created, the exception is one of the test, whatever the
lists of the rear threads are, and no action of a rear thread is executed. -/
theorem C157_spawner_partial (refused : Refusals) (factory : O → Ev (O × M)) (postCheck : Option (O → M → Ev (O × M)))
    (obj o : O) (m : M) (front : List (Act O M)) (rears : Fin N → List (Act O M)) (hN : 2 ≤ N)
    (sched : List (Option (Fin N))) (hfr : (andThen (factory obj) (runActions front)).out = .ok (o, m))
    (hs : refused.spawner = true) :
    invokeSpawn refused factory postCheck obj front rears sched =
      .done ⟨(andThen (factory obj) (runActions front)).fails, .throws .stdOther⟩ := by
  unfold invokeSpawn
  simp only [hfr, if_neg (show ¬ N ≤ 1 by omega), hs, if_true]

example : (andThen ((fun o => ⟨[], .ok (o, ())⟩ : Nat → Ev (Nat × Unit)) 1) (runActions [addsN 1])).out = .ok (2, ()) := by
  decide +kernel

/-- The part that holds, class style. -/
theorem C157_class_spawner_partial (refused : Refusals) (factory : O → Ev (O × M))
    (postCheck : Option (O → M → Ev (O × M))) (obj o : O) (m : M) (front : List (ClassAct O M))
    (rears : Fin 2 → List (ClassAct O M)) (sched : List (Option (Fin 2)))
    (hfr : (andThen (factory obj) (runClassActions front)).out = .ok (o, m)) (hs : refused.spawner = true) :
    classInvokeSpawn refused factory postCheck obj front rears sched =
      .done ⟨(andThen (factory obj) (runClassActions front)).fails, .throws .stdOther⟩ := by
  unfold classInvokeSpawn
  simp only [hfr, hs, if_true]

/-- The part that holds: such a failure in the first run makes `go` return false, and the cleanup hook is not called
(compare C131). -/
theorem C157_verdict_partial (refused : Nat → Refusals) (g : Draw σ O) (actions : Draw σ (List (Act O M)))
    (factory : O → Ev (O × M)) (post : Option (O → M → Ev (O × M))) (su cl : Option (Nat → Ev Unit)) (timeUp : Nat → Bool)
    (sched : Nat → List (Option (Fin N))) (left : Nat → O → Lists N O M → O) (hN : 2 ≤ N) (fuel runs : Nat) (seed : σ)
    (cell : O) (obj o : O) (m : M) (ls : Lists N O M) (s s' : σ) (h1 : g seed = (.ok obj, s))
    (h2 : drawLists actions s = (.ok ls, s')) (hfr : (andThen (factory obj) (runActions ls.front)).out = .ok (o, m))
    (hs : (refused 0).spawner = true) (ht : timeUp 0 = false) (hst : ∀ f, su = some f → (f 0).out = .ok ()) :
    let T : Test σ O (Lists N O M) := ⟨.fresh g, fun _ => drawLists actions, fun k o ls =>
      (invokeSpawn (refused k) factory post o ls.front ls.rears (sched k), left k o ls), su, cl, timeUp⟩
    (goTest T (fuel + 1) (runs + 1) seed cell).res = .done ⟨[], .ok false⟩ ∧
      ∀ e, .cleanup e ∉ (goTest T (fuel + 1) (runs + 1) seed cell).events := by
  intro T
  have hb := C157_spawner_partial (refused 0) factory post obj o m ls.front ls.rears hN (sched 0) hfr hs
  have ha : afterStartup T 0 seed cell = ⟨.done ⟨(andThen (factory obj) (runActions ls.front)).fails, .throws .stdOther⟩, s',
      cell, [.obj (.ok obj), .lists (.ok ls),
        .body (.done ⟨(andThen (factory obj) (runActions ls.front)).fails, .throws .stdOther⟩) (left 0 obj ls)]⟩ := by
    simp only [afterStartup, T, h1, h2, hb]
  have hx : ∃ es, tryOnce T 0 seed cell =
      ⟨.done ⟨(andThen (factory obj) (runActions ls.front)).fails, .throws .stdOther⟩, s', cell, es⟩ ∧
      ∀ e, .cleanup e ∉ es := by
    unfold tryOnce
    rw [ha]
    cases hsu : T.startup with
    | none => exact ⟨_, rfl, by simp⟩
    | some f =>
      simp only [hst f hsu]
      exact ⟨_, rfl, by simp⟩
  obtain ⟨es, h3, h4⟩ := hx
  have h5 : runs.succ = runs + 1 := rfl
  have h6 : goTest T (fuel + 1) (runs + 1) seed cell = ⟨.done ⟨[], .ok false⟩, s', cell, es⟩ := by
    simp [goTest, Concurrency.runs, tryUntil, h3, show T.timeUp 0 = false from ht, Exn.isStd]
  rw [h6]
  exact ⟨rfl, h4⟩

/-- The first list of an engine that counts has one action, the others two. -/
example :
    let acts : Draw Nat (List (Act Nat Unit)) := fun s => (.ok (if s = 1 then [addsN 1] else [addsN 1, fails]), s + 1)
    let T : Test Nat Nat (Lists 2 Nat Unit) := ⟨.fresh fun s => (.ok s, s + 1), fun _ => drawLists acts, fun _ o ls =>
      (invokeSpawn ⟨true, fun _ => false⟩ (fun o => ⟨[], .ok (o, ())⟩) none o ls.front ls.rears [], o), none, none,
      fun _ => false⟩
    (goTest T 1 3 0 0).res = .done ⟨[], .ok false⟩ := by decide +kernel

/-- The part that holds: if no thread is refused, `invoke` can end in just the ways C72, C95 and C96 tell about. -/
theorem C157_created_partial (refused : Refusals) (factory : O → Ev (O × M)) (postCheck : Option (O → M → Ev (O × M)))
    (obj : O) (front : List (Act O M)) (rears : Fin N → List (Act O M)) (hs : refused.spawner = false)
    (hr : ∀ i < N, refused.rear i = false) (r : Invoked Unit) (hu : r ≠ .unfinished) :
    (∃ sched, invokeSpawn refused factory postCheck obj front rears sched = r) ↔
      ∃ sched, invoke factory postCheck obj front rears sched = r := by
  unfold invokeSpawn invoke
  simp only [hs, spawnRun_none step fnEnded refused.rear hr]
  cases hfr : (andThen (factory obj) (runActions front)).out with
  | throws e => simp
  | ub => simp
  | diverges => simp
  | ok om =>
    obtain ⟨o, m⟩ := om
    by_cases hN : N ≤ 1
    · simp [hN]
    · simp only [if_neg hN, Bool.false_eq_true, if_false]
      constructor
      · rintro ⟨sched, rfl⟩
        cases hx : handRun step fnEnded sched (handInit N (rearInit front.length rears o m)) with
        | ub =>
          obtain ⟨l, hl⟩ := (C124_same_executions (rearInit front.length rears o m) .ub).1 ⟨sched, by rw [hx]; rfl⟩
          exact ⟨l, by simp [hl]⟩
        | terminated =>
          obtain ⟨l, hl⟩ := (C124_same_executions (rearInit front.length rears o m) .terminated).1 ⟨sched, by rw [hx]; rfl⟩
          exact ⟨l, by simp [hl]⟩
        | running s =>
          by_cases ha : s.main = .after
          · obtain ⟨l, hl, hj⟩ := (C124_same_results (rearInit front.length rears o m) s.mem).1 ⟨sched, s, hx, ha, rfl⟩
            exact ⟨l, by simp only [hl, if_pos hj, if_pos ha]; first | rfl | (split <;> simp_all)⟩
          · rw [hx] at hu
            simp [ha] at hu
      · rintro ⟨sched, rfl⟩
        cases hx : run sched (rearInit front.length rears o m) with
        | ub =>
          obtain ⟨l, hl⟩ := (C124_same_executions (rearInit front.length rears o m) .ub).2 ⟨sched, hx⟩
          refine ⟨l, ?_⟩
          cases hh : handRun step fnEnded l (handInit N (rearInit front.length rears o m)) with
          | ub => rfl
          | terminated => rw [hh] at hl; cases hl
          | running s => rw [hh] at hl; cases hl
        | terminated =>
          obtain ⟨l, hl⟩ := (C124_same_executions (rearInit front.length rears o m) .terminated).2 ⟨sched, hx⟩
          refine ⟨l, ?_⟩
          cases hh : handRun step fnEnded l (handInit N (rearInit front.length rears o m)) with
          | ub => rw [hh] at hl; cases hl
          | terminated => rfl
          | running s => rw [hh] at hl; cases hl
        | running s =>
          by_cases hj : s.Joined
          · obtain ⟨l, s', hl, ha, rfl⟩ := (C124_same_results (rearInit front.length rears o m) s).2 ⟨sched, hx, hj⟩
            exact ⟨l, by simp only [hl, if_pos hj, if_pos ha]; first | rfl | (split <;> simp_all)⟩
          · rw [hx] at hu
            simp [hj] at hu

example : ∃ sched, invokeSpawn (N := 2) ⟨false, fun i => i == 2⟩ (fun o => ⟨[], .ok (o, ())⟩)
    (some fun o m => ⟨[], if o = 8 then .ok (o, m) else .throws .assertFailed⟩) 1 [addsN 1] (fun _ => [addsN 3]) sched =
      .done ⟨[], .ok ()⟩ :=
  (C157_created_partial (N := 2) ⟨false, fun i => i == 2⟩ _ _ _ _ _ rfl (by decide) _ (by simp)).2
    ⟨[0, 0, 0, 0, 0, 1, 1, 1, 1, 1], by decide +kernel⟩

/-- The part that holds, class style. -/
theorem C157_class_created_partial (refused : Refusals) (factory : O → Ev (O × M))
    (postCheck : Option (O → M → Ev (O × M))) (obj : O) (front : List (ClassAct O M)) (rears : Fin 2 → List (ClassAct O M))
    (hs : refused.spawner = false) (hr : ∀ i < 2, refused.rear i = false) (r : Invoked Unit) (hu : r ≠ .unfinished) :
    (∃ sched, classInvokeSpawn refused factory postCheck obj front rears sched = r) ↔
      ∃ sched, classInvoke factory postCheck obj front rears sched = r := by
  unfold classInvokeSpawn classInvoke
  simp only [hs, spawnRun_none classStep classEnded refused.rear hr]
  cases hfr : (andThen (factory obj) (runClassActions front)).out with
  | throws e => simp
  | ub => simp
  | diverges => simp
  | ok om =>
    obtain ⟨o, m⟩ := om
    simp only [Bool.false_eq_true, if_false]
    constructor
    · rintro ⟨sched, rfl⟩
      cases hx : handRun classStep classEnded sched (handInit 2 (classInit rears o m)) with
      | ub =>
        obtain ⟨l, hl⟩ := (C124_same_executions_class (classInit rears o m) .ub).1 ⟨sched, by rw [hx]; rfl⟩
        exact ⟨l, by simp [hl]⟩
      | terminated =>
        obtain ⟨l, hl⟩ := (C124_same_executions_class (classInit rears o m) .terminated).1 ⟨sched, by rw [hx]; rfl⟩
        exact ⟨l, by simp [hl]⟩
      | running s =>
        by_cases ha : s.main = .after
        · obtain ⟨l, hl, hj⟩ := (C124_same_results_class (classInit rears o m) s.mem).1 ⟨sched, s, hx, ha, rfl⟩
          exact ⟨l, by simp only [hl, if_pos hj, if_pos ha]⟩
        · rw [hx] at hu
          simp [ha] at hu
    · rintro ⟨sched, rfl⟩
      cases hx : classRun sched (classInit rears o m) with
      | ub =>
        obtain ⟨l, hl⟩ := (C124_same_executions_class (classInit rears o m) .ub).2 ⟨sched, hx⟩
        refine ⟨l, ?_⟩
        cases hh : handRun classStep classEnded l (handInit 2 (classInit rears o m)) with
        | ub => rfl
        | terminated => rw [hh] at hl; cases hl
        | running s => rw [hh] at hl; cases hl
      | terminated =>
        obtain ⟨l, hl⟩ := (C124_same_executions_class (classInit rears o m) .terminated).2 ⟨sched, hx⟩
        refine ⟨l, ?_⟩
        cases hh : handRun classStep classEnded l (handInit 2 (classInit rears o m)) with
        | ub => rw [hh] at hl; cases hl
        | terminated => rfl
        | running s => rw [hh] at hl; cases hl
      | running s =>
        by_cases hj : s.Joined
        · obtain ⟨l, s', hl, ha, rfl⟩ := (C124_same_results_class (classInit rears o m) s).2 ⟨sched, hx, hj⟩
          exact ⟨l, by simp only [hl, if_pos hj, if_pos ha]⟩
        · rw [hx] at hu
          simp [hj] at hu

/-! ### C158 -/

theorem rearThreads_huge {n : Nat} (h1 : 2^31 ≤ n) (h2 : n < 2^32) : rearThreads n = 0 := by
  unfold rearThreads toInt32
  rw [Nat.mod_eq_of_lt h2, if_neg (by omega)]
  omega

theorem rearThreads_small {n : Nat} (h : n < 2^31) : rearThreads n = n := by
  unfold rearThreads toInt32
  rw [Nat.mod_eq_of_lt (by omega), if_pos h]
  omega

theorem drawRears_ok {α : Type} (g : Draw σ α) (hg : ∀ s, ∃ x, (g s).1 = .ok x) (n : Nat) :
    ∀ s, ∃ xs, drawRears g n s = (.ok xs, (fun s => (g s).2)^[n] s) ∧ xs.length = n ∧
      ∀ i, (h : i < xs.length) → (g ((fun s => (g s).2)^[i] s)).1 = .ok xs[i] := by
  induction n with
  | zero => exact fun s => ⟨[], rfl, rfl, fun i h => absurd h (Nat.not_lt_zero _)⟩
  | succ n ih =>
    intro s
    obtain ⟨x, hx⟩ := hg s
    obtain ⟨xs, h1, h2, h3⟩ := ih (g s).2
    have hgs : g s = (.ok x, (g s).2) := Prod.ext hx rfl
    refine ⟨x :: xs, ?_, by simp [h2], ?_⟩
    · have h1' : drawRears g n (g s).2 = (.ok xs, (fun s => (g s).2)^[n + 1] s) := by
        rw [Function.iterate_succ_apply]; exact h1
      unfold drawRears Draw.bind
      rw [hgs]
      simp only [h1']
    · intro i hi
      cases i with
      | zero => simpa using hx
      | succ i =>
        rw [Function.iterate_succ_apply]
        simpa using h3 i (by simpa using hi)

/-- C158, violated: from 2^31 on `setMaxConcurrency(n)` means no threads at all. No rear list is drawn, nothing but the
front list is executed, so a fault of the actions that shows when they run concurrently is not found; there is no
message about it. -/
theorem C158_huge_violated (n : Nat) (h1 : 2^31 ≤ n) (h2 : n < 2^32) (g : Draw σ (List (Act O M)))
    (factory : O → Ev (O × M)) (post : Option (O → M → Ev (O × M))) (obj : O) (sched : List (Fin (rearThreads n)))
    (s : σ) (front : List (Act O M)) (hf : (g s).1 = .ok front) :
    IsEmpty (Fin (rearThreads n)) ∧
    (drawAndInvoke (rearThreads n) g factory post obj sched s).2 = (g s).2 ∧
    ∃ ls, (drawAndInvoke (rearThreads n) g factory post obj sched s).1 = .ok (ls, .done
      (andThen (andThen (factory obj) (runActions front)) fun om => postChecked post om.1 om.2)) ∧ ls.front = front := by
  have h0 := rearThreads_huge h1 h2
  revert sched
  generalize rearThreads n = N at h0
  subst h0
  intro sched
  have hgs : g s = (.ok front, (g s).2) := Prod.ext hf rfl
  have he : drawAndInvoke 0 g factory post obj sched s = (.ok (⟨front, fun t => [].getD t []⟩, invoke factory post obj
      front (fun t => [].getD t []) sched), (g s).2) := by
    unfold drawAndInvoke drawLists Draw.bind
    rw [hgs]
    rfl
  refine ⟨inferInstance, by rw [he], ⟨front, fun t => [].getD t []⟩, ?_, rfl⟩
  rw [he]
  unfold invoke
  simp only [andThen]
  cases hfo : (factory obj).out with
  | ok om =>
    simp only
    cases hro : (runActions front om).out with
    | ok om' => simp
    | _ => simp
  | _ => simp

/-- C158: between 2 and 2^31 - 1 it means what it says: `n` rear lists are drawn after the front list, and when `invoke`
gets past its joins each of them has been worked off by a thread of its own, on the object the front list has left. -/
theorem C158_threads_partial (n : Nat) (h1 : 2 ≤ n) (h2 : n < 2^31) (g : Draw σ (List (Act O M)))
    (hg : ∀ s, ∃ x, (g s).1 = .ok x) (factory : O → Ev (O × M)) (check : O → M → Ev (O × M)) (obj : O)
    (sched : List (Fin (rearThreads n))) (s : σ) :
    rearThreads n = n ∧
    ∃ ls r, drawAndInvoke (rearThreads n) g factory (some check) obj sched s = (.ok (ls, r), (fun s => (g s).2)^[n + 1] s) ∧
      (g s).1 = .ok ls.front ∧
      (∀ t : Fin (rearThreads n), (g ((fun s => (g s).2)^[(t : Nat) + 1] s)).1 = .ok (ls.rears t)) ∧
      ((∀ t, ∀ a ∈ ls.rears t, ∀ o m, (a o m).out ≠ .ub) →
        ∀ o m, (andThen (factory obj) (runActions ls.front)).out = .ok (o, m) → ∀ e, r = .done e →
        ∃ order o' ms, Linear o m order o' ms ∧ (∀ t, ofThread t order = ls.rears t) ∧
          (e.out = .ok () ↔ ∃ r, (check o' m).out = .ok r)) := by
  have h0 := rearThreads_small h2
  revert sched
  generalize hN : rearThreads n = N at h0
  subst h0
  intro sched
  obtain ⟨front, hf⟩ := hg s
  have hgs : g s = (.ok front, (g s).2) := Prod.ext hf rfl
  obtain ⟨xs, hx1, hx2, hx3⟩ := drawRears_ok g hg N (g s).2
  have hd : drawLists (N := N) g s = (.ok ⟨front, fun t => xs.getD t []⟩, (fun s => (g s).2)^[N + 1] s) := by
    rw [Function.iterate_succ_apply]
    unfold drawLists Draw.bind
    rw [hgs]
    simp only [hx1]
  refine ⟨rfl, ⟨front, fun t => xs.getD t []⟩, invoke factory (some check) obj front (fun t => xs.getD t []) sched, ?_, hf, ?_, ?_⟩
  · unfold drawAndInvoke Draw.bind
    rw [hd]
  · intro t
    rw [Function.iterate_succ_apply]
    have := hx3 t (by omega)
    simpa [List.getD, hx2] using this
  · intro hu o m hfr e he
    obtain ⟨k, rfl⟩ : ∃ k, N = k + 2 := ⟨N - 2, by omega⟩
    obtain ⟨order, o', ms, e1, e2, e3, e4, e5⟩ := C96_post_check_partial factory check obj o m front _ sched e hfr hu he
    exact ⟨order, o', ms, e1, e2, e4⟩

/-- For the examples: the engine counts, the front list of seed 0 adds one, the rear lists fail. -/
private def countedLists : Draw Nat (List (Act Nat Unit)) := fun s => (.ok (if s = 0 then [addsN 1] else [fails]), s + 1)

/-- With 2^31 threads asked for, the test passes although every rear action fails. -/
example : ∃ ls, (drawAndInvoke (rearThreads (2^31)) countedLists (fun o => ⟨[], .ok (o, ())⟩) none 1 [] 0).1 =
    .ok (ls, .done ⟨[], .ok ()⟩) := by
  obtain ⟨_, _, ls, h, _⟩ := C158_huge_violated (2^31) (Nat.le_refl _) (by decide) countedLists
    (fun o => ⟨[], .ok (o, ())⟩) none 1 [] 0 [addsN 1] rfl
  exact ⟨ls, h⟩

example : ∀ s, ∃ x, (countedLists s).1 = .ok x := fun _ => ⟨_, rfl⟩

example : (drawAndInvoke 2 countedLists (fun o => ⟨[], .ok (o, ())⟩) none 1 [0, 0, 0] 0).2 = 3 ∧
    (match (drawAndInvoke 2 countedLists (fun o => ⟨[], .ok (o, ())⟩) none 1 [0, 0, 0] 0).1 with
      | .ok (_, r) => decide (r = .terminated)
      | _ => false) = true := by decide +kernel

end Concurrency
end Verif
