import Verif.Lemmas.ConcurrencyGo
/-
C130: what is generated in a concurrent test depends on the seed only.
C131: hooks of concurrent tests.
C132: every run of a concurrent test starts from a newly generated object.
-/
namespace Verif
namespace Concurrency
open Engine Stateful
variable {σ O L M : Type} {N : Nat}

/-! ### Tests for the examples -/

/-- Increments the object. -/
private def inc : Act Nat Unit := fun o m => ⟨[], .ok (o + 1, m)⟩
/-- Doubles the object. -/
private def dbl : Act Nat Unit := fun o m => ⟨[], .ok (o * 2, m)⟩
/-- Discards when the object is 4. -/
private def fussy : Act Nat Unit := fun o m => if o = 4 then ⟨[], .throws .discard⟩ else ⟨[], .ok (o + 1, m)⟩

/-- Draws the empty list, a list with `inc` and a list with `dbl` in turn. -/
private def turns : Draw Nat (List (Act Nat Unit)) := fun s =>
  (.ok (if s % 3 = 0 then [] else if s % 3 = 1 then [inc] else [dbl]), s + 1)

/-- The first thread runs before the second. -/
private def firstFirst : List (Fin 2) := List.replicate 5 0 ++ List.replicate 5 1
/-- The second thread runs before the first. -/
private def secondFirst : List (Fin 2) := List.replicate 5 1 ++ List.replicate 5 0

private def noModel : Nat → Ev (Nat × Unit) := fun o => ⟨[], .ok (o, ())⟩

/-! ### C130 -/

/-- **C130** The objects and action lists that are generated in a concurrent test whose generators make new objects depend
on the seed only: of two tests that generate alike, whatever else they do (schedules of the threads, hooks, post checks,
discards, failures, time limits, numbers of runs), one generates the same as the other and possibly more. -/
theorem C130_generated_partial (T T' : Test σ O L) (g : Draw σ O) (h : T.initial = .fresh g) (h' : T'.initial = .fresh g)
    (hp : T'.prepare = T.prepare) (fuel fuel' numRuns numRuns' : Nat) (seed : σ) (cell cell' : O) :
    generated (goTest T fuel numRuns seed cell).events <+: generated (goTest T' fuel' numRuns' seed cell').events ∨
    generated (goTest T' fuel' numRuns' seed cell').events <+: generated (goTest T fuel numRuns seed cell).events := by
  obtain ⟨n, hn⟩ := goTest_rounds T g h fuel numRuns seed cell
  obtain ⟨m, hm⟩ := goTest_rounds T' g h' fuel' numRuns' seed cell'
  rw [hn, hm, hp]
  rcases Nat.le_total n m with hl | hl
  · exact .inl (rounds_prefix _ _ _ _ _ hl)
  · exact .inr (rounds_prefix _ _ _ _ _ hl)

/-- **C130**, function style: any number of threads, any two executions. -/
theorem C130_function_partial (g : Draw σ O) (actions : Draw σ (List (Act O M)))
    (factory factory' : O → Ev (O × M)) (post post' : Option (O → M → Ev (O × M)))
    (su su' cl cl' : Option (Nat → Ev Unit)) (timeUp timeUp' : Nat → Bool) (sched sched' : Nat → List (Fin N))
    (b b' : O) (fuel fuel' numRuns numRuns' : Nat) (seed : σ) (cell cell' : O) :
    let es := (goTest (functionTest (.fresh g) actions factory post su cl timeUp sched b) fuel numRuns seed cell).events
    let es' := (goTest (functionTest (.fresh g) actions factory' post' su' cl' timeUp' sched' b') fuel' numRuns' seed
      cell').events
    generated es <+: generated es' ∨ generated es' <+: generated es :=
  C130_generated_partial (functionTest (.fresh g) actions factory post su cl timeUp sched b)
    (functionTest (.fresh g) actions factory' post' su' cl' timeUp' sched' b') g rfl rfl rfl fuel fuel' numRuns numRuns' seed cell cell'

/-- **C130**, class style: here the model factory is called between the generation of the object and of the lists and has
to be the same. -/
theorem C130_class_partial (g : Draw σ O) (actions : Draw σ (List (ClassAct O M)))
    (factory : O → Ev (O × M)) (post post' : Option (O → M → Ev (O × M)))
    (su su' cl cl' : Option (Nat → Ev Unit)) (timeUp timeUp' : Nat → Bool) (sched sched' : Nat → List (Fin 2))
    (left left' : Nat → O → (O × M) × List (List (ClassAct O M)) → O) (fuel fuel' numRuns numRuns' : Nat) (seed : σ)
    (cell cell' : O) :
    let es := (goTest (classTest (.fresh g) actions factory post su cl timeUp sched left) fuel numRuns seed cell).events
    let es' := (goTest (classTest (.fresh g) actions factory post' su' cl' timeUp' sched' left') fuel' numRuns' seed
      cell').events
    generated es <+: generated es' ∨ generated es' <+: generated es :=
  C130_generated_partial (classTest (.fresh g) actions factory post su cl timeUp sched left)
    (classTest (.fresh g) actions factory post' su' cl' timeUp' sched' left') g rfl rfl rfl fuel fuel' numRuns numRuns' seed cell cell'

/-- Two runs under two schedules: the executions leave different objects, the generated objects are the same. -/
example :
    let es := fun sched => (goTest (functionTest (.fresh fun s => (.ok (s * 10), s + 1)) turns noModel none none none
      (fun _ => false) (fun _ => sched) 0) 9 2 2 0).events
    let left := fun es : List (GoEvent Nat (Lists 2 Nat Unit)) => es.filterMap fun
      | .body _ l => some l
      | _ => none
    objects (es firstFirst) = [.ok 20, .ok 60] ∧ objects (es secondFirst) = [.ok 20, .ok 60] ∧
      left (es firstFirst) = [42, 122] ∧ left (es secondFirst) = [41, 122] := by
  decide +kernel

/-- **C130** is false of the code when the initial object comes from `just(value)` with a value of a type that is not
trivial: with the same seed, the second run starts from an object that depends on how the threads of the first run were
scheduled. -/
theorem C130_just_violated : ∃ (actions : Draw Nat (List (Act Nat Unit))) (factory : Nat → Ev (Nat × Unit))
    (sched sched' : Nat → List (Fin 2)),
    let es := (goTest (functionTest .kept actions factory none none none (fun _ => false) sched 0) 9 2 0 1).events
    let es' := (goTest (functionTest .kept actions factory none none none (fun _ => false) sched' 0) 9 2 0 1).events
    objects es = [.ok 1, .ok 4] ∧ objects es' = [.ok 1, .ok 3] := by
  refine ⟨turns, noModel, fun _ => firstFirst, fun _ => secondFirst, ?_⟩
  decide +kernel

/-! ### C131 -/

/-- **C131** What happens in a concurrent test with both hooks: attempts one after the other, each with the startup hook
first, then the generation, then the actions and the post check, then the cleanup hook; when one of these does not return
normally the rest of the attempt is left out. -/
theorem C131_order_partial (T : Test σ O L) (su cl : Nat → Ev Unit) (h1 : T.startup = some su) (h2 : T.cleanup = some cl)
    (fuel numRuns : Nat) (seed : σ) (cell : O) : ∃ attempts : List (List (GoEvent O L)),
      (goTest T fuel numRuns seed cell).events = attempts.flatten ∧ ∀ es ∈ attempts, OneAttempt es :=
  goTest_attempts T su cl h1 h2 fuel numRuns seed cell

/-- **C131** The cleanup hook is called as often as actions and post check returned normally, with or without a startup
hook. -/
theorem C131_cleanups_partial (T : Test σ O L) (cl : Nat → Ev Unit) (h2 : T.cleanup = some cl)
    (fuel numRuns : Nat) (seed : σ) (cell : O) :
    (goTest T fuel numRuns seed cell).events.countP GoEvent.isCleanup =
      (goTest T fuel numRuns seed cell).events.countP GoEvent.isReturned :=
  goTest_induct T (fun _ _ es _ _ => es.countP GoEvent.isCleanup = es.countP GoEvent.isReturned) (fun _ _ => rfl)
    (fun _ _ _ _ _ _ _ _ h h' => by rw [List.countP_append, List.countP_append, h, h'])
    (tryOnce_cleanups T cl h2) fuel numRuns seed cell

/-- **C131** is false of the code: if in some attempt the actions or the post check do not return normally (they fail, or
use PROP_DISCARD or PROP_SUCCESS) then the cleanup hook is called less often than the startup hook. -/
theorem C131_no_cleanup_violated (T : Test σ O L) (su cl : Nat → Ev Unit) (h1 : T.startup = some su)
    (h2 : T.cleanup = some cl) (fuel numRuns : Nat) (seed : σ) (cell : O) (r : Invoked Unit) (left : O)
    (hm : .body r left ∈ (goTest T fuel numRuns seed cell).events)
    (hr : ∀ f, r ≠ .done ⟨f, .ok ()⟩) :
    (goTest T fuel numRuns seed cell).events.countP GoEvent.isCleanup <
      (goTest T fuel numRuns seed cell).events.countP GoEvent.isStartup := by
  obtain ⟨ass, he, ha⟩ := goTest_attempts T su cl h1 h2 fuel numRuns seed cell
  rw [he] at hm ⊢
  have hn : GoEvent.isReturned (O := O) (L := L) (.body r left) = false := by
    unfold GoEvent.isReturned
    split
    · next f left h => exact absurd (by injection h) (hr f)
    · rfl
  clear he
  have le : ∀ ass : List (List (GoEvent O L)), (∀ as ∈ ass, OneAttempt as) →
      ass.flatten.countP GoEvent.isCleanup ≤ ass.flatten.countP GoEvent.isStartup := by
    intro ass
    induction ass with
    | nil => intro _; exact Nat.le_refl _
    | cons as ass ih =>
      intro ha
      have := ih fun x hx => ha x (List.mem_cons_of_mem _ hx)
      obtain ⟨k1, k2⟩ := (ha as (by simp)).counts
      simp only [List.flatten_cons, List.countP_append]
      rcases k2 with k2 | ⟨k2, -⟩ <;> omega
  induction ass with
  | nil => simp at hm
  | cons as ass ih =>
    obtain ⟨k1, k2⟩ := (ha as (by simp)).counts
    have hrest : ∀ x ∈ ass, OneAttempt x := fun x hx => ha x (List.mem_cons_of_mem _ hx)
    simp only [List.flatten_cons, List.countP_append, List.mem_append] at hm ⊢
    rcases hm with hm | hm
    · have := le ass hrest
      rcases k2 with k2 | ⟨-, k2⟩
      · omega
      · rw [k2 r left hm] at hn
        exact absurd hn (by simp)
    · have := ih hm hrest
      rcases k2 with k2 | ⟨k2, -⟩ <;> omega

/-- A serial test with a front action that discards once: three attempts, three startups and two cleanups. -/
example :
    let x := goTest (functionTest (N := 1) (O := Nat) (M := Unit) (.fresh fun s => (.ok s, s + 1))
      (fun s => (.ok [fussy], s)) noModel none (some fun _ => ⟨[], .ok ()⟩) (some fun _ => ⟨[], .ok ()⟩) (fun _ => false)
      (fun _ => []) 0) 9 2 3 0
    objects x.events = [.ok 3, .ok 4, .ok 5] ∧ x.events.countP GoEvent.isStartup = 3 ∧
      x.events.countP GoEvent.isCleanup = 2 ∧ x.events.countP GoEvent.isBody = 3 := by
  decide +kernel

/-! ### C132 -/

/-- **C132** With a generator that makes new objects, every execution of actions starts from an object and lists that were
generated right before it, the object by the generator given to `concurrency`. -/
theorem C132_fresh_partial (T : Test σ O L) (g : Draw σ O) (h : T.initial = .fresh g) (fuel numRuns : Nat) (seed : σ)
    (cell : O) (pre post : List (GoEvent O L)) (r : Invoked Unit) (left : O)
    (he : (goTest T fuel numRuns seed cell).events = pre ++ .body r left :: post) :
    ∃ pre' k s o l, pre = pre' ++ [.obj (.ok o), .lists (.ok l)] ∧ (g s).1 = .ok o ∧ T.body k o l = (r, left) :=
  goTest_induct T (fun _ _ es _ _ => BodiesFrom T g es) (fun _ _ pre r left post h => absurd h (by simp))
    (fun _ _ _ _ _ _ _ _ h h' => bodiesFrom_append T g _ _ h h') (tryOnce_bodies T g h) fuel numRuns seed cell
    pre r left post he

/-- Three runs, each from a new object. -/
example :
    objects (goTest (functionTest (.fresh fun s => (.ok (s * 10), s + 1)) turns noModel none none none
      (fun _ => false) (fun _ => firstFirst) 0) 9 3 0 7).events = [.ok 0, .ok 40, .ok 80] := by
  decide +kernel

/-- **C132** is false of the code when the initial object comes from `just(value)` with a value of a type that is not
trivial, as in the project's own test (/repo/proptest/test/test_concurrency_func.cpp:103): in every test, the first run
starts from the value and every later run from the object as the run before left it. -/
theorem C132_just_violated (T : Test σ O L) (h : T.initial = .kept) (fuel numRuns : Nat) (seed : σ) (cell : O) :
    Follows cell (goTest T fuel numRuns seed cell).events :=
  (goTest_induct T (fun _ c es _ c' => Follows c es ∧ c' = leftBy c es) (fun _ _ => ⟨trivial, rfl⟩)
    (fun _ c es _ c1 es' _ c2 ⟨h1, h2⟩ ⟨h3, h4⟩ =>
      ⟨(follows_append es es' c).2 ⟨h1, h2 ▸ h3⟩, by rw [leftBy_append, ← h2, h4]⟩)
    (tryOnce_follows T h) fuel numRuns seed cell).1

/-- Four runs of a test of `just(1)`: each goes on with the object of the run before. -/
example :
    objects (goTest (functionTest .kept turns noModel none none none (fun _ => false) (fun _ => firstFirst) 0) 9 4 0 1).events
      = [.ok 1, .ok 4, .ok 10, .ok 22] := by
  decide +kernel

/-- **C132** is false of the code, how an object is left: with at most one thread and no post check, by the first list
alone. -/
theorem C132_front_violated (hN : N ≤ 1) (actions : Draw σ (List (Act O M))) (factory : O → Ev (O × M))
    (timeUp : Nat → Bool) (sched : Nat → List (Fin N)) (broken cell : O) (s s' : σ) (front : List (Act O M))
    (h0 : actions s = (.ok front, s')) (rears : List (List (Act O M))) (s'' : σ)
    (h1 : drawRears actions N s' = (.ok rears, s'')) (o : O) (model : M) (fails : _)
    (hf : andThen (factory cell) (runActions front) = ⟨fails, .ok (o, model)⟩) (k : Nat) :
    (tryOnce (functionTest .kept actions factory none none none timeUp sched broken) k s cell).cell = o := by
  have hl : (drawLists actions : Draw σ (Lists N O M)) s = (.ok ⟨front, fun t => rears.getD t []⟩, s'') := by
    simp [drawLists, Draw.bind, h0, h1]
  simp only [tryOnce, functionTest, afterStartup, hl, invokeLeft, hf, hN, if_true]
  split <;> rfl

/-- **C132** is false of the code, how an object is left: with more threads and no post check, as the threads leave it. -/
theorem C132_rears_violated (hN : 2 ≤ N) (actions : Draw σ (List (Act O M))) (factory : O → Ev (O × M))
    (timeUp : Nat → Bool) (sched : Nat → List (Fin N)) (broken cell : O) (s s' : σ) (front : List (Act O M))
    (h0 : actions s = (.ok front, s')) (rears : List (List (Act O M))) (s'' : σ)
    (h1 : drawRears actions N s' = (.ok rears, s'')) (o : O) (model : M) (fails : _)
    (hf : andThen (factory cell) (runActions front) = ⟨fails, .ok (o, model)⟩) (k : Nat) (st : _)
    (hr : run (sched k) (rearInit front.length (fun t : Fin N => rears.getD t []) o model) = .running st) :
    (tryOnce (functionTest .kept actions factory none none none timeUp sched broken) k s cell).cell = st.obj := by
  have hl : (drawLists actions : Draw σ (Lists N O M)) s = (.ok ⟨front, fun t => rears.getD t []⟩, s'') := by
    simp [drawLists, Draw.bind, h0, h1]
  simp only [tryOnce, functionTest, afterStartup, hl, invokeLeft, hf, Nat.not_le.2 (Nat.lt_of_lt_of_le Nat.one_lt_two hN),
    if_false, hr]
  split <;> rfl

/-- One thread: the list with `inc` is run, the list with `dbl` drawn for the thread is not. -/
example : (tryOnce (functionTest (N := 1) .kept turns noModel none none none (fun _ => false) (fun _ => [0, 0, 0]) 0) 0 1 5).cell
    = 6 := by
  decide +kernel

/-- Two threads: `inc` first, then `dbl` and nothing. -/
example : (tryOnce (functionTest .kept turns noModel none none none (fun _ => false) (fun _ => firstFirst) 0) 0 1 5).cell
    = 12 := by
  decide +kernel

/-! ### C97 -/

/-- **C97**, as far as it holds, for whole tests: if every attempt comes to an end then the verdict is what `go` in
Model/Concurrency.lean, about which C97 says the rest, makes of the outcomes of the attempts. -/
theorem C97_test_partial (T : Test σ O L) (seed : σ) (cell : O) (attempts : Nat → Ev Unit)
    (h : ∀ k, (tryOnce T k (before T seed cell k).1 (before T seed cell k).2).res = .done (attempts k)) (fuel numRuns : Nat) :
    (goTest T fuel numRuns seed cell).res = .done ⟨[], go T.timeUp attempts fuel numRuns⟩ := by
  have hr := runs_go T seed cell attempts h fuel numRuns 0
  unfold goTest go
  rw [show runs T fuel numRuns 0 seed cell = runs T fuel numRuns 0 (before T seed cell 0).1 (before T seed cell 0).2 from rfl]
  simp only [hr]
  rcases hd : forLoop T.timeUp attempts fuel numRuns 0 with b | e | _ | _
  · exact hr.trans (by rw [hd])
  · by_cases he : e.isStd
    · simp [he]
    · simp only [he]; exact hr.trans (by rw [hd]; rfl)
  · exact hr.trans (by rw [hd])
  · exact hr.trans (by rw [hd])

/-- **C97** The time limit: if it has passed before the first attempt then the test passes without having done anything. -/
theorem C97_test_time_limit_partial (T : Test σ O L) (h : T.timeUp 0 = true) (fuel numRuns : Nat) (seed : σ) (cell : O) :
    (goTest T fuel numRuns seed cell).res = .done ⟨[], .ok true⟩ ∧ (goTest T fuel numRuns seed cell).events = [] := by
  cases numRuns <;> simp [goTest, runs, h]

/-- A test of which every attempt returns normally. -/
example (fuel : Nat) (sched : Nat → List (Fin 1)) :
    let T := functionTest (N := 1) (.fresh fun s : Nat => (.ok (s * 10), s + 1)) (fun s => (.ok [inc, dbl], s)) noModel none none
      none (fun _ => false) sched 0
    (goTest T (fuel + 1) 2 0 0).res = .done ⟨[], .ok true⟩ := by
  intro T
  rw [C97_test_partial T 0 0 (fun _ => ⟨[], .ok ()⟩) fun k => rfl]
  rfl

theorem drawRears_lists {α : Type} (g : Draw σ α) (states : Nat → σ) (lists : Nat → α) : ∀ (m j : Nat),
    (∀ i, i < m → g (states (j + i)) = (.ok (lists (j + i)), states (j + i + 1))) →
    drawRears g m (states j) = (.ok ((List.range m).map fun i => lists (j + i)), states (j + m))
  | 0, j, _ => rfl
  | m + 1, j, h => by
    have h0 := h 0 (by omega)
    have ih := drawRears_lists g states lists m (j + 1) fun i hi => by
      have := h (i + 1) (by omega)
      rw [show j + 1 + i = j + (i + 1) by omega]
      exact this
    simp only [Nat.add_zero] at h0
    simp only [drawRears, Draw.bind, h0, ih]
    rw [List.range_succ_eq_map, List.map_cons, List.map_map]
    congr 2
    · congr 2
      funext i
      simp only [Function.comp]
      congr 1
      omega
    · omega

/-- **C97** What an attempt of the function style does when all is generated: the first list drawn is run first, the
following ones by the threads, in the order they were drawn. -/
theorem C97_lists_partial {M : Type} {N : Nat} (g : Draw σ O) (actions : Draw σ (List (Act O M))) (factory : O → Ev (O × M))
    (post : Option (O → M → Ev (O × M))) (timeUp : Nat → Bool) (sched : Nat → List (Fin N)) (broken cell o : O) (s : σ)
    (states : Nat → σ) (lists : Nat → List (Act O M)) (h0 : g s = (.ok o, states 0))
    (h : ∀ i, i < N + 1 → actions (states i) = (.ok (lists i), states (i + 1))) (k : Nat) :
    let x := tryOnce (functionTest (.fresh g) actions factory post none none timeUp sched broken) k s cell
    (∃ ls left, x.events = [.obj (.ok o), .lists ls,
      .body (invoke factory post o (lists 0) (fun t => lists (t + 1)) (sched k)) left]) ∧ x.rand = states (N + 1) := by
  have hl : (drawLists actions : Draw σ (Lists N O M)) (states 0) =
      (.ok ⟨lists 0, fun t => lists (t + 1)⟩, states (N + 1)) := by
    have h1 := drawRears_lists actions states lists N 1 fun i hi => by
      rw [Nat.add_comm 1 i]; exact h (i + 1) (by omega)
    simp only [drawLists, Draw.bind, h 0 (by omega), h1]
    rw [Nat.add_comm 1 N]
    congr 3
    funext t
    simp [List.getD, Nat.add_comm]
  intro x
  simp only [x, tryOnce, functionTest, afterStartup, h0, hl, invokeLeft]
  split
  · rename_i h1
    exact ⟨⟨_, _, List.append_nil _⟩, rfl⟩
  · exact ⟨⟨_, _, rfl⟩, rfl⟩

/-- **C97** The same for the class style, which has two threads. -/
theorem C97_class_lists_partial {M : Type} (g : Draw σ O) (actions : Draw σ (List (ClassAct O M))) (factory : O → Ev (O × M))
    (post : Option (O → M → Ev (O × M))) (timeUp : Nat → Bool) (sched : Nat → List (Fin 2))
    (left : Nat → O → (O × M) × List (List (ClassAct O M)) → O) (cell o : O) (om : O × M) (s : σ) (states : Nat → σ)
    (lists : Nat → List (ClassAct O M)) (h0 : g s = (.ok o, states 0)) (hf : factory o = ⟨[], .ok om⟩)
    (h : ∀ i, i < 3 → actions (states i) = (.ok (lists i), states (i + 1))) (k : Nat) :
    let x := tryOnce (classTest (.fresh g) actions factory post none none timeUp sched left) k s cell
    (∃ ls obj, x.events = [.obj (.ok o), .lists ls,
      .body (classInvoke factory post o (lists 0) (fun t => lists (t + 1)) (sched k)) obj]) ∧ x.rand = states 3 := by
  have hl : classPrepare factory actions o (states 0) = (.ok (om, [lists 0, lists 1, lists 2]), states 3) := by
    have h1 := drawRears_lists actions states lists 3 0 fun i hi => by
      rw [Nat.zero_add]; exact h i hi
    simp only [classPrepare, hf, Draw.bind, h1]
    rfl
  have hr : (fun t : Fin 2 => [lists 0, lists 1, lists 2].getD (t + 1) []) = fun t : Fin 2 => lists (t + 1) := by
    funext t
    match t with
    | 0 => rfl
    | 1 => rfl
  have hc : classInvoke (fun _ => ⟨[], .ok om⟩) post o (lists 0) (fun t => lists (t + 1)) (sched k) =
      classInvoke factory post o (lists 0) (fun t => lists (t + 1)) (sched k) := by
    unfold classInvoke
    rw [hf]
  intro x
  simp only [x, tryOnce, classTest, afterStartup, h0, hl, hr]
  rw [show [lists 0, lists 1, lists 2].getD 0 [] = lists 0 from rfl, hc]
  split
  · rename_i h1
    exact ⟨⟨_, _, List.append_nil _⟩, rfl⟩
  · exact ⟨⟨_, _, rfl⟩, rfl⟩

/-- Numbers counted up; every list is drawn. -/
example : let states : Nat → Nat := fun i => i + 1
    (fun s : Nat => ((.ok (s * 10) : Outcome Nat), s + 1)) 0 = (.ok 0, states 0) ∧
    ∀ i, i < 3 → (fun s : Nat => ((.ok (List.replicate s inc) : Outcome (List (Act Nat Unit))), s + 1)) (states i) =
      (.ok (List.replicate (i + 1) inc), states (i + 1)) := ⟨rfl, fun _ _ => rfl⟩

end Concurrency
end Verif
