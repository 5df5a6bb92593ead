import Mathlib.Tactic.FinCases
import Verif.Lemmas.Interleavings
import Verif.Props.Concurrency
/-
C203: the results a concurrent test can have are those of the orders of its rear actions.
-/
namespace Verif
namespace Concurrency
open Engine Stateful
variable {O M : Type} {N : Nat}

/-! ### Every order can happen -/

/-- C203: whatever order the rear actions can be done in, one after the other, some schedule of the threads does them in
that order. Together with C96 this tells exactly which objects the threads can leave behind. -/
theorem C203_every_order (F : Nat) (rears : Fin N → List (Act O M)) (obj : O) (model : M) (o' : O) :
    (∃ sched s, run sched (rearInit F rears obj model) = .running s ∧ s.Joined ∧ s.obj = o') ↔
      ∃ order ms, Linear obj model order o' ms ∧ ∀ t, ofThread t order = rears t := by
  constructor
  · rintro ⟨sched, s, hr, hj, rfl⟩
    exact C96_all_rear_actions_partial F rears obj model sched s hr hj
  · rintro ⟨order, ms, h, ho⟩
    obtain ⟨s, h1, h2, h3⟩ := reach_order F rears h (fun _ => []) (fun t => by rw [List.append_nil, ho t])
    exact ⟨_, s, h1, fun t => by rw [h3 t], h2⟩

/-- Doubles the object. -/
def double : Act Nat Nat := fun o m => ⟨[], .ok (o * 2, m + 1)⟩

/-- One thread adds, one doubles. -/
def racing : Fin 2 → List (Act Nat Nat)
  | 0 => [add 1]
  | 1 => [double]

/-- Both orders of an addition and a doubling are orders of the theorem, with different ends. -/
example : (∃ sched s, run sched (rearInit 0 racing 5 0) = .running s ∧ s.Joined ∧ s.obj = 12) ∧
    ∃ sched s, run sched (rearInit 0 racing 5 0) = .running s ∧ s.Joined ∧ s.obj = 11 := by
  rw [C203_every_order, C203_every_order]
  constructor
  · refine ⟨[(0, add 1), (1, double)], _,
      .snoc [(0, add 1)] 6 _ 1 double 12 1 (.snoc [] 5 _ 0 (add 1) 6 1 .nil rfl) rfl, ?_⟩
    intro t; fin_cases t <;> rfl
  · refine ⟨[(1, double), (0, add 1)], _,
      .snoc [(1, double)] 10 _ 0 (add 1) 11 1 (.snoc [] 5 _ 1 double 10 1 .nil rfl) rfl, ?_⟩
    intro t; fin_cases t <;> rfl

/-- C203: the results `invoke` can have, over all schedules, are exactly those of the post check after the rear actions in
an order that keeps the order of each list. No order is left out, and there are no others. -/
theorem C203_results (factory : O → Ev (O × M)) (check : O → M → Ev (O × M)) (obj o : O) (m : M)
    (front : List (Act O M)) (rears : Fin (N + 2) → List (Act O M)) (e : Ev Unit)
    (hfr : (andThen (factory obj) (runActions front)).out = .ok (o, m))
    (hd : ∀ t, ∀ a ∈ rears t, ∀ o m, (a o m).out ≠ .ub) :
    (∃ sched, invoke factory (some check) obj front rears sched = .done e) ↔
      ∃ order o' ms, Linear o m order o' ms ∧ (∀ t, ofThread t order = rears t) ∧
        e = ⟨(andThen (factory obj) (runActions front)).fails ++ (check o' m).fails,
          (check o' m).out.bind fun _ => .ok ()⟩ := by
  have key : ∀ sched s, run sched (rearInit front.length rears o m) = .running s → s.Joined →
      invoke factory (some check) obj front rears sched =
        .done ⟨(andThen (factory obj) (runActions front)).fails ++ (check s.obj m).fails,
          (check s.obj m).out.bind fun _ => .ok ()⟩ := by
    intro sched s hs hj
    obtain ⟨shown, h1, _⟩ := C70_replay _ rears o m sched s hs hj
    unfold invoke
    simp only [hfr]
    rw [if_neg (by omega)]
    simp only [hs, if_pos hj, h1, postChecked, andThen]
    cases hc : (check s.obj m).out <;> simp [Outcome.bind]
  constructor
  · rintro ⟨sched, he⟩
    unfold invoke at he
    simp only [hfr] at he
    rw [if_neg (by omega)] at he
    split at he
    · next h => exact absurd h (C70_no_overflow _ rears o m sched hd)
    · cases he
    · next s hs =>
      split at he
      · next hj =>
        obtain ⟨order, ms, h2, h3⟩ := C96_all_rear_actions_partial _ rears o m sched s hs hj
        obtain ⟨shown, h1, _⟩ := C70_replay _ rears o m sched s hs hj
        rw [h1] at he
        cases he
        refine ⟨order, s.obj, ms, h2, h3, ?_⟩
        simp only [postChecked, andThen]
        cases hc : (check s.obj m).out <;> simp [Outcome.bind]
      · cases he
  · rintro ⟨order, o', ms, h1, h2, rfl⟩
    obtain ⟨sched, s, hs, hj, rfl⟩ := (C203_every_order front.length rears o m o').2 ⟨order, ms, h1, h2⟩
    exact ⟨sched, key sched s hs hj⟩

/-- A post check that wants the object to be twelve. -/
def wants12 : Nat → Nat → Ev (Nat × Nat) := fun o m =>
  if o = 12 then ⟨[], .ok (o, m)⟩ else ⟨[], .throws .assertFailed⟩

/-- Some schedule makes the check fail: it is that of the order in which the doubling comes first. -/
example : ∃ sched, invoke (fun o => ⟨[], .ok (o, 0)⟩) (some wants12) 4 [add 1] racing sched =
    .done ⟨[], .throws .assertFailed⟩ := by
  rw [C203_results _ _ _ 5 1 _ _ _ rfl (by intro t a ha o m; fin_cases t <;> simp [racing] at ha <;> subst ha <;> simp [add, double])]
  refine ⟨[(1, double), (0, add 1)], _, _,
    .snoc [(1, double)] 10 _ 0 (add 1) 11 2 (.snoc [] 5 _ 1 double 10 2 .nil rfl) rfl, ?_, rfl⟩
  intro t; fin_cases t <;> rfl

/-- C203: some schedule ends the program by an exception of a rear action if and only if some actions of the lists can be
done in an order after which the next action of a thread throws. -/
theorem C203_terminates (F : Nat) (rears : Fin N → List (Act O M)) (obj : O) (model : M) :
    (∃ sched, run sched (rearInit F rears obj model) = .terminated) ↔
      ∃ order o ms t a x, Linear obj model order o ms ∧ (∀ u, ofThread u order <+: rears u) ∧
        ofThread t order ++ [a] <+: rears t ∧ (a o (ms t)).out = .throws x := by
  constructor
  · rintro ⟨sched, h⟩
    obtain ⟨done, s, t, h1, h2⟩ := terminated_step h
    obtain ⟨a, as, m, x, h3, h4⟩ := step_terminated h2
    obtain ⟨order, h5, h6⟩ := run_lin h1
    refine ⟨order, s.obj, _, t, a, x, h5, fun u => ⟨_, h6 u⟩, ⟨as, ?_⟩, by simp only [h3]; exact h4⟩
    have := h6 t
    rw [h3] at this
    simpa [Thr.todo] using this
  · rintro ⟨order, o, ms, t, a, x, h1, h2, ⟨as, h3⟩, h4⟩
    have hrest : ∀ u, ∃ r, ofThread u order ++ r = rears u ∧ (u = t → r = a :: as) := fun u => by
      by_cases hu : u = t
      · subst hu; exact ⟨a :: as, by simpa using h3, fun _ => rfl⟩
      · obtain ⟨r, hr⟩ := h2 u
        exact ⟨r, hr, fun h => absurd h hu⟩
    choose rests hr1 hr2 using hrest
    obtain ⟨s, g1, g2, g3⟩ := reach_order F rears h1 rests hr1
    obtain ⟨hist, hi⟩ := run_inv g1
    refine ⟨inOrder order ++ List.replicate 3 t, ?_⟩
    rw [run_append, g1]
    exact three_steps hi (by rw [g3 t, hr2 t rfl]) (by rw [g2]; exact h4)

/-- Throws for objects from ten on. -/
def below10 : Act Nat Nat := fun o m => if o < 10 then ⟨[], .ok (o, m)⟩ else ⟨[], .throws .assertFailed⟩

/-- The action throws if the other thread comes first. -/
example : ∃ sched, run sched (rearInit 3 (fun t : Fin 2 => if t = 0 then [below10] else [double]) 7 0) = .terminated := by
  rw [C203_terminates]
  refine ⟨[(1, double)], 14, _, 0, below10, .assertFailed, .snoc [] 7 _ 1 double 14 1 .nil rfl, ?_, ⟨[], rfl⟩, rfl⟩
  intro u; fin_cases u
  · exact ⟨[below10], rfl⟩
  · exact ⟨[], rfl⟩

/-! ### Actions whose order does not matter -/

/-- C203: if actions of different threads commute and one schedule brings all threads to their ends, then every schedule
that gives each thread its steps does, with the same object and the same models. -/
theorem C203_commuting (F : Nat) (rears : Fin N → List (Act O M)) (obj : O) (model : M) (hc : Commuting rears)
    (sched sched' : List (Fin N)) (s : Sys N O M) (hr : run sched (rearInit F rears obj model) = .running s)
    (hj : s.Joined) (hs : ∀ t, 5 * (rears t).length ≤ sched'.count t) :
    ∃ s', run sched' (rearInit F rears obj model) = .running s' ∧ s'.Joined ∧ s'.obj = s.obj ∧
      ∀ t, (s'.thr t).model = (s.thr t).model := by
  have ends : ∀ sched s, run sched (rearInit F rears obj model) = .running s → s.Joined →
      ∃ order, Linear obj model order s.obj (fun t => (s.thr t).model) ∧ ∀ t, ofThread t order = rears t := by
    intro sched s hr hj
    obtain ⟨order, h1, h2⟩ := run_lin hr
    obtain ⟨hist, hi⟩ := run_inv hr
    refine ⟨order, h1, fun t => ?_⟩
    have ht := h2 t
    rw [Thr.todo, hi.idle t (hj t), hj t, List.append_nil] at ht
    exact ht
  obtain ⟨order, h1, h2⟩ := ends sched s hr hj
  obtain ⟨s', g1, g2⟩ := commuting_finishes (F := F) hc h1 h2 sched' [] _ rfl
  have hj' := g2 fun t => by simpa [rearInit, Thr.left, Pc.done] using hs t
  obtain ⟨order', h3, h4⟩ := ends sched' s' g1 hj'
  have := (Performs.any_order order order' (fun t => by rw [h2, h4]) (fun t u htu a ha b hb =>
    hc t u htu a (by simpa only [h2] using ha) b (by simpa only [h2] using hb)) _ _ _ _).1 h1.performs
  obtain ⟨e1, e2⟩ := this.unique h3.performs
  exact ⟨s', g1, hj', e1.symm, fun t => (congrFun e2 t).symm⟩

theorem add_commute (j k : Nat) : Commute (add j) (add k) := by
  intro o m n o' m' n'
  simp only [add, Outcome.ok.injEq, Prod.mk.injEq]
  constructor
  · rintro ⟨p, ⟨rfl, rfl⟩, rfl, rfl⟩; exact ⟨_, ⟨rfl, rfl⟩, by omega, rfl⟩
  · rintro ⟨p, ⟨rfl, rfl⟩, rfl, rfl⟩; exact ⟨_, ⟨rfl, rfl⟩, by omega, rfl⟩

theorem sampleRears_commuting : Commuting sampleRears := by
  intro t u htu a ha b hb
  fin_cases t <;> fin_cases u <;> simp [sampleRears] at ha hb htu
  · subst hb; rcases ha with rfl | rfl <;> exact add_commute _ _
  · subst ha; rcases hb with rfl | rfl <;> exact add_commute _ _

/-- Two additions in one thread and one in the other. -/
example : (run sampleSched (rearInit 2 sampleRears 0 0)).state?.map (fun s => (s.obj, decide s.Joined)) = some (111, true) ∧
    ∀ t, 5 * (sampleRears t).length ≤ (List.replicate 5 1 ++ List.replicate 10 0 : List (Fin 2)).count t := by
  decide +kernel

/-- C203 of `invoke` as a whole: if actions of different threads commute, and one schedule leads to a defined result, all
schedules that give each thread its steps lead to this result. -/
theorem C203_same_result (factory : O → Ev (O × M)) (postCheck : Option (O → M → Ev (O × M))) (obj : O)
    (front : List (Act O M)) (rears : Fin N → List (Act O M)) (hc : Commuting rears) (sched sched' : List (Fin N))
    (e : Ev Unit) (he : invoke factory postCheck obj front rears sched = .done e) (hu : e.out ≠ .ub)
    (hs : ∀ t, 5 * (rears t).length ≤ sched'.count t) :
    invoke factory postCheck obj front rears sched' = .done e := by
  unfold invoke at he ⊢
  simp only at he ⊢
  split
  · next x hx => simpa only [hx] using he
  · next hx => simpa only [hx] using he
  · next hx => simpa only [hx] using he
  · next o m hx =>
    simp only [hx] at he
    by_cases hN : N ≤ 1
    · rw [if_pos hN] at he ⊢; exact he
    · rw [if_neg hN] at he ⊢
      split at he
      · cases he; exact absurd rfl hu
      · cases he
      · next s hr =>
        split at he
        · next hj =>
          obtain ⟨s', h1, h2, h3, _⟩ := C203_commuting front.length rears o m hc sched sched' s hr hj hs
          obtain ⟨shown, g1, _⟩ := C70_replay _ rears o m sched s hr hj
          obtain ⟨shown', g2, _⟩ := C70_replay _ rears o m sched' s' h1 h2
          simp only [g1] at he
          simp only [h1, if_pos h2, g2, h3]
          exact he
        · cases he

/-- The check of the sum of all additions holds in this schedule, so it does in all. -/
example : invoke (fun o => ⟨[], .ok (o, 0)⟩)
    (some fun o m => if o = 116 then ⟨[], .ok (o, m)⟩ else ⟨[], .throws .assertFailed⟩) 0 [add 5] sampleRears
    sampleSched = .done ⟨[], .ok ()⟩ := by decide +kernel

/-- C203: if actions of different threads commute and what they do to the object does not depend on the model, the
threads leave the object behind that a stateful test gets from the same actions, one after the other in any order
that keeps the order of each list; if the actions do not all return there, the threads do not come to their ends. -/
theorem C203_sequential (F : Nat) (rears : Fin N → List (Act O M)) (obj : O) (model : M) (hc : Commuting rears)
    (hm : ∀ t, ∀ a ∈ rears t, ObjectOnly a) (order : List (Fin N × Act O M)) (ho : ∀ t, ofThread t order = rears t)
    (sched : List (Fin N)) (hs : ∀ t, 5 * (rears t).length ≤ sched.count t) (o' : O) :
    (∃ m', (runActions (order.map (·.2)) (obj, model)).out = .ok (o', m')) ↔
      ∃ s, run sched (rearInit F rears obj model) = .running s ∧ s.Joined ∧ s.obj = o' := by
  have hoo : ∀ x ∈ order, ObjectOnly x.2 := fun x hx =>
    hm x.1 x.2 (by rw [← ho x.1, mem_ofThread]; exact hx)
  rw [runActions_performs order hoo obj model (fun _ => model) o']
  constructor
  · rintro ⟨ms', h⟩
    obtain ⟨sched', s, h1, h2, rfl⟩ := (C203_every_order F rears obj model o').2 ⟨order, ms', h.linear, ho⟩
    obtain ⟨s', g1, g2, g3, _⟩ := C203_commuting F rears obj model hc sched' sched s h1 h2 hs
    exact ⟨s', g1, g2, g3⟩
  · rintro ⟨s, h1, h2, rfl⟩
    obtain ⟨order', ms, h3, h4⟩ := C96_all_rear_actions_partial F rears obj model sched s h1 h2
    refine ⟨ms, (Performs.any_order order' order (fun t => by rw [h4, ho]) (fun t u htu a ha b hb => ?_) _ _ _ _).1
      h3.performs⟩
    exact hc t u htu a (by simpa only [h4] using ha) b (by simpa only [h4] using hb)

/-- One order of the sample actions, and what a stateful test makes of it. -/
example : (runActions ([(1, add 100), (0, add 1), (0, add 10)].map fun x : Fin 2 × Act Nat Nat => x.2) (0, 0)).out =
      .ok (111, 3) ∧
    (∀ t, ofThread t [(1, add 100), (0, add 1), (0, add 10)] = sampleRears t) ∧
    ∀ t, ∀ a ∈ sampleRears t, ObjectOnly a := by
  refine ⟨rfl, fun t => by fin_cases t <;> rfl, fun t a ha o m m' p => ?_⟩
  fin_cases t <;> simp [sampleRears] at ha
  · rcases ha with rfl | rfl <;> simp [add]
  · subst ha; simp [add]

/-! ### Class style -/

/-- C203, the class style: with rear lists that fit into the log, the objects and models the two threads can leave behind
are exactly those of the sequences of evaluated preconditions and executed actions that keep the order of each list. -/
theorem C203_class_every_order (rears : Fin 2 → List (ClassAct O M)) (obj : O) (model : M) (o' : O) (m' : M)
    (hl : (rears 0).length + (rears 1).length ≤ 5000) :
    (∃ sched s, classRun sched (classInit rears obj model) = .running s ∧ s.Joined ∧ s.obj = o' ∧ s.model = m') ↔
      ∃ order, ClassLinear obj model order o' m' ∧ ∀ t, InTurn (rears t) (ofThread t order) := by
  constructor
  · rintro ⟨sched, s, hr, hj, rfl, rfl⟩
    exact C72_class_style_partial rears obj model sched s hr hj
  · rintro ⟨order, h, ho⟩
    obtain ⟨s, h1, h2, h3, h4⟩ := class_reach_order rears hl h (fun _ => []) (fun t => by
      rw [List.append_nil]; exact ho t)
    refine ⟨_, s, h1, fun t => ?_, h2, h3⟩
    rcases h4 t with ⟨_, h⟩ | ⟨_, _, _, _, h, _⟩
    · generalize (s.thr t).rest = r at h
      cases h; rfl
    · cases h

/-- Both threads find an even object and make it odd and even again: the precondition of the second no longer holds when
it is executed. -/
example : ∃ sched s, classRun sched (classInit (fun _ => [incrEven]) 4 0) = .running s ∧ s.Joined ∧ s.obj = 6 ∧
    s.model = 2 := by
  rw [C203_class_every_order (fun _ => [incrEven]) 4 0 6 2 (by simp)]
  refine ⟨[(0, incrEven, .check true), (1, incrEven, .check true), (0, incrEven, .run), (1, incrEven, .run)],
    .run 1 incrEven 6 2 (.run 0 incrEven 5 1 (.check 1 incrEven true (.check 0 incrEven true .nil rfl) rfl) rfl) rfl, ?_⟩
  intro t; fin_cases t
  · exact .exec incrEven .nil
  · exact .exec incrEven .nil

/-- C203, the class style `invoke` as a whole: the results it can have, over all schedules, are exactly those of the post
check after such a sequence. -/
theorem C203_class_results (factory : O → Ev (O × M)) (check : O → M → Ev (O × M)) (obj o : O) (m : M)
    (front : List (ClassAct O M)) (rears : Fin 2 → List (ClassAct O M)) (e : Ev Unit)
    (hfr : (andThen (factory obj) (runClassActions front)).out = .ok (o, m))
    (hd : ∀ t, ∀ a ∈ rears t, ∀ o m, (a.precondition o m).out ≠ .ub ∧ (a.run o m).out ≠ .ub)
    (hl : (rears 0).length + (rears 1).length ≤ 5000) :
    (∃ sched, classInvoke factory (some check) obj front rears sched = .done e) ↔
      ∃ order o' m', ClassLinear o m order o' m' ∧ (∀ t, InTurn (rears t) (ofThread t order)) ∧
        e = ⟨(andThen (factory obj) (runClassActions front)).fails ++ (check o' m').fails,
          (check o' m').out.bind fun _ => .ok ()⟩ := by
  have key : ∀ sched s, classRun sched (classInit rears o m) = .running s → s.Joined →
      classInvoke factory (some check) obj front rears sched =
        .done ⟨(andThen (factory obj) (runClassActions front)).fails ++ (check s.obj s.model).fails,
          (check s.obj s.model).out.bind fun _ => .ok ()⟩ := by
    intro sched s hs hj
    have h1 := (C71_no_overflow_partial rears o m sched hd hl).2 s hs
    unfold classInvoke
    simp only [hfr]
    simp only [hs, if_pos hj, if_pos h1, postChecked, andThen]
    cases hc : (check s.obj s.model).out <;> simp [Outcome.bind]
  constructor
  · rintro ⟨sched, he⟩
    have he' := he
    unfold classInvoke at he
    simp only [hfr] at he
    split at he
    · next h => exact absurd h (C71_no_overflow_partial rears o m sched hd hl).1
    · cases he
    · next s hs =>
      split at he
      · next hj =>
        obtain ⟨order, h2, h3⟩ := C72_class_style_partial rears o m sched s hs hj
        rw [key sched s hs hj] at he'
        cases he'
        exact ⟨order, s.obj, s.model, h2, h3, rfl⟩
      · cases he
  · rintro ⟨order, o', m', h1, h2, rfl⟩
    obtain ⟨sched, s, hs, hj, rfl, rfl⟩ := (C203_class_every_order rears o m o' m' hl).2 ⟨order, h1, h2⟩
    exact ⟨sched, key sched s hs hj⟩

/-- A check for an odd object fails in the sequence of the example above. -/
example : ∃ sched, classInvoke (fun o => ⟨[], .ok (o, 0)⟩)
    (some fun o m => if o % 2 = 1 then ⟨[], .ok (o, m)⟩ else ⟨[], .throws .assertFailed⟩) 3 [incr] (fun _ => [incrEven])
    sched = .done ⟨[], .throws .assertFailed⟩ := by
  rw [C203_class_results _ _ _ 4 1 _ (fun _ => [incrEven]) _ rfl (by simp [incrEven]) (by simp)]
  refine ⟨[(0, incrEven, .check true), (1, incrEven, .check true), (0, incrEven, .run), (1, incrEven, .run)], 6, 3,
    .run 1 incrEven 6 3 (.run 0 incrEven 5 2 (.check 1 incrEven true (.check 0 incrEven true .nil rfl) rfl) rfl) rfl, ?_,
    rfl⟩
  intro t; fin_cases t
  · exact .exec incrEven .nil
  · exact .exec incrEven .nil

/-- C203, the class style: if actions of the two threads commute and leave the preconditions of each other alone, and one
schedule brings both threads to their ends, then every schedule that gives each thread its steps does, with the same object
and the same model. -/
theorem C203_class_commuting (rears : Fin 2 → List (ClassAct O M)) (obj : O) (model : M) (hc : ClassCommuting rears)
    (hl : (rears 0).length + (rears 1).length ≤ 5000) (sched sched' : List (Fin 2)) (s : ClassSys O M)
    (hr : classRun sched (classInit rears obj model) = .running s) (hj : s.Joined)
    (hs : ∀ t, 4 * (rears t).length ≤ sched'.count t) :
    ∃ s', classRun sched' (classInit rears obj model) = .running s' ∧ s'.Joined ∧ s'.obj = s.obj ∧
      s'.model = s.model := by
  obtain ⟨order, h1, h2⟩ := C72_class_style_partial rears obj model sched s hr hj
  exact Leads.finishes hc hl sched' _ (ClassInv.init rears obj model) (fun _ => List.suffix_refl _)
    ⟨order, h1.performs, h2⟩ (fun t => by simpa [classInit, ClassThr.left, ClassPc.done] using hs t)

/-- Counts up an even number in the object only. -/
def bumpObject : ClassAct (Nat × Nat) Unit :=
  ⟨fun o _ => ⟨[], .ok (o.1 % 2 == 0)⟩, fun o m => ⟨[], .ok (true, (o.1 + 1, o.2), m)⟩⟩
/-- Counts up the other number of the object. -/
def bumpOther : ClassAct (Nat × Nat) Unit :=
  ⟨fun _ _ => ⟨[], .ok true⟩, fun o m => ⟨[], .ok (true, (o.1, o.2 + 1), m)⟩⟩

/-- One thread works on each number. -/
def bumps : Fin 2 → List (ClassAct (Nat × Nat) Unit)
  | 0 => [bumpObject, bumpObject]
  | 1 => [bumpOther]

theorem bumps_commuting : ClassCommuting bumps := by
  have h : ClassCommute bumpObject bumpOther := by
    refine ⟨fun o m o' m' h => rfl, fun o m o' m' h => ?_, fun o m o' m' => ?_⟩
    · simp only [bumpOther, Outcome.ok.injEq, Prod.mk.injEq] at h
      obtain ⟨_, rfl, _⟩ := h
      rfl
    · simp [bumpObject, bumpOther]
  have h' : ClassCommute bumpOther bumpObject := ⟨h.2.1, h.1, fun o m o' m' => (h.2.2 o m o' m').symm⟩
  intro t u htu a ha b hb
  fin_cases t <;> fin_cases u <;> simp [bumps] at ha hb htu
  · subst ha hb; exact h
  · subst ha hb; exact h'

/-- One schedule; the second action of the first thread finds an odd number and is not executed. -/
example : (classRun (List.replicate 4 0 ++ [1, 0] ++ List.replicate 3 1) (classInit bumps (4, 0) ())).state?.map
      (fun s => (s.obj, decide s.Joined)) = some ((5, 1), true) ∧
    ∀ t, 4 * (bumps t).length ≤ (List.replicate 4 1 ++ List.replicate 8 0 : List (Fin 2)).count t := by
  decide +kernel

/-- C203, the class style `invoke` as a whole: if actions of the two threads commute, and one schedule leads to a defined
result, all schedules that give each thread its steps lead to this result. -/
theorem C203_class_same_result (factory : O → Ev (O × M)) (postCheck : Option (O → M → Ev (O × M))) (obj : O)
    (front : List (ClassAct O M)) (rears : Fin 2 → List (ClassAct O M)) (hc : ClassCommuting rears)
    (hl : (rears 0).length + (rears 1).length ≤ 5000) (sched sched' : List (Fin 2)) (e : Ev Unit)
    (he : classInvoke factory postCheck obj front rears sched = .done e) (hu : e.out ≠ .ub)
    (hs : ∀ t, 4 * (rears t).length ≤ sched'.count t) :
    classInvoke factory postCheck obj front rears sched' = .done e := by
  unfold classInvoke at he ⊢
  simp only at he ⊢
  split
  · next x hx => simpa only [hx] using he
  · next hx => simpa only [hx] using he
  · next hx => simpa only [hx] using he
  · next o m hx =>
    simp only [hx] at he
    split at he
    · cases he; exact absurd rfl hu
    · cases he
    · next s hr =>
      split at he
      · next hj =>
        obtain ⟨s', h1, h2, h3, h4⟩ := C203_class_commuting rears o m hc hl sched sched' s hr hj hs
        have i1 := classRun_inv hr
        have i2 := classRun_inv h1
        have c1 : s.counter ≤ s.log.length := by have := i1.room; have := i1.size; simp only [classLogSize] at this; omega
        have c2 : s'.counter ≤ s'.log.length := by have := i2.room; have := i2.size; simp only [classLogSize] at this; omega
        rw [if_pos c1] at he
        simp only [h1, if_pos h2, if_pos c2, h3, h4]
        exact he
      · cases he

/-- The check of both numbers holds in this schedule, so it does in all. -/
example : classInvoke (fun o => ⟨[], .ok (o, ())⟩)
    (some fun o m => if o = (5, 1) then ⟨[], .ok (o, m)⟩ else ⟨[], .throws .assertFailed⟩) (4, 0) [] bumps
    (List.replicate 4 0 ++ [1, 0] ++ List.replicate 3 1) = .done ⟨[], .ok ()⟩ := by decide +kernel

end Concurrency
end Verif
