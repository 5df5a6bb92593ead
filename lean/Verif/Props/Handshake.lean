import Verif.Lemmas.Handshake
import Verif.Spec.Concurrency
/-!
C124: the rear threads of a concurrent test start together, nothing of what they share is touched before all of them are
ready, all have returned before the post check, a fair scheduler always gets there, and apart from that the threads
interleave in every possible way.
-/
namespace Verif
namespace Concurrency
open Engine Stateful
variable {N : Nat} {O M : Type}

/-- For the examples: adds `n` to the object. -/
private def adds (n : Nat) : Act Nat Unit := fun o m => ⟨[], .ok (o + n, m)⟩

/-- For the examples: adds `n` to the object and to the model, if the object is even. -/
private def addsEven (n : Nat) : ClassAct Nat Nat := ⟨fun o _ => ⟨[], .ok (o % 2 == 0)⟩, fun o m => ⟨[], .ok (true, o + n, m + n)⟩⟩

/-- C124: once a rear thread is in its loop, all threads exist and have said that they are ready. As long as one has not,
object, models, counter and log are what they were when the spawner started. -/
theorem C124_start_together (mem : Sys N O M) (sched : List (Option (Fin N))) (s : Hand N (Sys N O M))
    (h : handRun step fnEnded sched (handInit N mem) = .running s) :
    (∀ t u, (s.pc t).Entered → s.ready u = true ∧ ¬ (s.pc u).NotReady) ∧
      (∀ u, (s.pc u).NotReady → s.mem = mem) := by
  have ok := (Hand.Ok.init fnEnded mem).run fn_stable h
  have key : ∀ u, s.sync = true → s.ready u = true ∧ ¬ (s.pc u).NotReady := by
    intro u hsy
    have hr := ok.all (.inr hsy) u
    refine ⟨hr, ?_⟩
    rcases (ok.ready u).1 hr with hp | hp | hp <;> simp [RearPc.NotReady, hp]
  refine ⟨fun t u ht => key u (ok.started t ht), fun u hu => ?_⟩
  cases hsy : s.sync with
  | false => exact ok.mem hsy
  | true => exact absurd hu (key u hsy).2

example :
    ∃ sched s, handRun step fnEnded sched (handInit 2 (rearInit 0 (fun _ => [adds 3]) 1 ())) = .running s ∧
      (s.pc 0).Entered ∧ s.mem.obj = 4 :=
  ⟨[none, some 0, none, none, some 1, none, none, none, none, some 0, some 0, some 0, some 0], _, rfl, .inl rfl, rfl⟩

example :
    ∃ sched s, handRun step fnEnded sched (handInit 2 (rearInit 0 (fun _ => [adds 3]) 1 ())) = .running s ∧
      (s.pc 1).NotReady ∧ s.ready 0 = true :=
  ⟨[none, some 0, some 0, none, none, none, none, some 0], _, rfl, .inr rfl, rfl⟩

/-- C124, class style. -/
theorem C124_start_together_class (mem : ClassSys O M) (sched : List (Option (Fin 2))) (s : Hand 2 (ClassSys O M))
    (h : handRun classStep classEnded sched (handInit 2 mem) = .running s) :
    (∀ t u, (s.pc t).Entered → s.ready u = true ∧ ¬ (s.pc u).NotReady) ∧
      (∀ u, (s.pc u).NotReady → s.mem = mem) := by
  have ok := (Hand.Ok.init classEnded mem).run class_stable h
  have key : ∀ u, s.sync = true → s.ready u = true ∧ ¬ (s.pc u).NotReady := by
    intro u hsy
    have hr := ok.all (.inr hsy) u
    refine ⟨hr, ?_⟩
    rcases (ok.ready u).1 hr with hp | hp | hp <;> simp [RearPc.NotReady, hp]
  refine ⟨fun t u ht => key u (ok.started t ht), fun u hu => ?_⟩
  cases hsy : s.sync with
  | false => exact ok.mem hsy
  | true => exact absurd hu (key u hsy).2

example :
    ∃ sched s, handRun classStep classEnded sched (handInit 2 (classInit (fun _ => [addsEven 3]) 2 0)) = .running s ∧
      (s.pc 0).Entered ∧ s.mem.obj = 5 :=
  ⟨[none, some 0, none, none, some 1, none, none, none, none, some 0, some 0, some 0], _, rfl, .inl rfl, rfl⟩

/-- C124: when the spawner has joined the threads, all of them have returned, and every list has been worked off. No step
of a thread comes after that. -/
theorem C124_joined (mem : Sys N O M) (sched : List (Option (Fin N))) (s : Hand N (Sys N O M))
    (h : handRun step fnEnded sched (handInit N mem) = .running s) (ha : s.main = .after) :
    (∀ t, s.pc t = .exited) ∧ s.mem.Joined ∧ ∀ more, handRun step fnEnded (sched ++ more) (handInit N mem) = .running s := by
  have ok := (Hand.Ok.init fnEnded mem).run fn_stable h
  refine ⟨ok.done ha, fun t => by simpa [fnEnded] using ok.fin t (ok.done ha t), fun more => ?_⟩
  rw [handRun_append _ _ _ _ _ _ h]
  induction more with
  | nil => rfl
  | cons a more ih =>
    cases a with
    | none => simpa [handRun, handStep, mainStep, ha] using ih
    | some t => simpa [handRun, handStep, rearStep, ok.done ha t] using ih

example :
    ∃ sched s, handRun step fnEnded sched (handInit 2 (rearInit 0 (fun t => if t = 0 then [adds 3] else []) 1 ())) =
      .running s ∧ s.main = .after ∧ s.mem.obj = 4 :=
  ⟨[none, some 0, none, none, some 1, none, none, none, none, some 0, some 0, some 0, some 0, some 0, some 0, some 0, none,
    some 1, some 1, none, none], _, rfl, rfl, rfl⟩

/-- C124, class style. -/
theorem C124_joined_class (mem : ClassSys O M) (sched : List (Option (Fin 2))) (s : Hand 2 (ClassSys O M))
    (h : handRun classStep classEnded sched (handInit 2 mem) = .running s) (ha : s.main = .after) :
    (∀ t, s.pc t = .exited) ∧ s.mem.Joined ∧
      ∀ more, handRun classStep classEnded (sched ++ more) (handInit 2 mem) = .running s := by
  have ok := (Hand.Ok.init classEnded mem).run class_stable h
  refine ⟨ok.done ha, fun t => by simpa [classEnded] using ok.fin t (ok.done ha t), fun more => ?_⟩
  rw [handRun_append _ _ _ _ _ _ h]
  induction more with
  | nil => rfl
  | cons a more ih =>
    cases a with
    | none => simpa [handRun, handStep, mainStep, ha] using ih
    | some t => simpa [handRun, handStep, rearStep, ok.done ha t] using ih

example :
    ∃ sched s, handRun classStep classEnded sched
      (handInit 2 (classInit (fun t => if t = 0 then [addsEven 3, addsEven 4] else []) 2 0)) =
      .running s ∧ s.main = .after ∧ s.mem.obj = 5 := by
  refine ⟨[none, some 0, none, none, some 1, none, none, none, none, some 0, some 0, some 0, some 0, some 0, some 0, some 0,
    none, some 1, some 1, none, none], ?_⟩
  generalize hr : handRun classStep classEnded _ _ = r
  have h : (match handRun classStep classEnded
      [none, some 0, none, none, some 1, none, none, none, none, some 0, some 0, some 0, some 0, some 0, some 0, some 0,
        none, some 1, some 1, none, none]
      (handInit 2 (classInit (fun t => if t = 0 then [addsEven 3, addsEven 4] else []) 2 0)) with
    | .running s => decide (s.main = .after) && decide (s.mem.obj = 5)
    | _ => false) = true := by decide +kernel
  rw [hr] at h
  cases r with
  | running s => exact ⟨s, rfl, by simpa using h⟩
  | _ => cases h

/-- C124: with actions that return, every fair scheduler brings the spawner past its joins, however many threads and
actions there are: no thread waits forever for another. -/
theorem C124_no_deadlock (F : Nat) (rears : Fin N → List (Act O M)) (obj : O) (model : M)
    (hr : ∀ t, ∀ a ∈ rears t, ∀ o m, ∃ r, (a o m).out = .ok r) (σ : Nat → Option (Fin N)) (hσ : Fair σ) :
    ∃ n s, handRun step fnEnded ((List.range n).map σ) (handInit N (rearInit F rears obj model)) = .running s ∧
      s.main = .after :=
  fair_ends fn_stable (rank := fun m => ∑ u, (m.thr u).left)
    (P := fun m => (∃ hist, Inv F rears m hist) ∧ Suff rears m) (fn_rank hr)
    ⟨⟨[], Inv.init F rears obj model⟩, fun _ => List.suffix_refl _⟩ σ hσ

example : Fair (N := 2) (fun k => if k % 3 = 0 then none else if k % 3 = 1 then some 0 else some 1) := by
  intro a k
  match a with
  | none => exact ⟨3 * k, by omega, by simp⟩
  | some ⟨0, _⟩ => exact ⟨3 * k + 1, by omega, by simp [Nat.add_mod]⟩
  | some ⟨1, _⟩ => exact ⟨3 * k + 2, by omega, by simp [Nat.add_mod]⟩

/-- C124, class style: here the lists together must not be longer than the log. -/
theorem C124_no_deadlock_class (rears : Fin 2 → List (ClassAct O M)) (obj : O) (model : M)
    (hr : ∀ t, ∀ a ∈ rears t, ClassAct.Returns a) (hl : (rears 0).length + (rears 1).length ≤ 5000)
    (σ : Nat → Option (Fin 2)) (hσ : Fair σ) :
    ∃ n s, handRun classStep classEnded ((List.range n).map σ) (handInit 2 (classInit rears obj model)) = .running s ∧
      s.main = .after :=
  fair_ends class_stable (rank := fun m => ∑ u, (m.thr u).left)
    (P := fun m => ClassInv ((rears 0).length + (rears 1).length) m ∧ ClassSuff rears m) (class_rank hr hl)
    ⟨ClassInv.init rears obj model, fun _ => List.suffix_refl _⟩ σ hσ

example : ClassAct.Returns (addsEven 3) := fun _ _ => ⟨⟨_, rfl⟩, ⟨_, rfl⟩⟩

/-- C124: what can become of the memory (or that the program ends) is just what the interleavings of the rear threads
alone can make of it: the start-up excludes none of them and adds none. So the theorems about `run` are about the code
with its start-up. -/
theorem C124_same_executions (mem : Sys N O M) (r : Res (Sys N O M)) :
    (∃ sched, (handRun step fnEnded sched (handInit N mem)).mapMem = r) ↔ ∃ sched, run sched mem = r := by
  constructor
  · rintro ⟨sched, rfl⟩
    obtain ⟨l, h⟩ := handRun_sim step fnEnded sched (handInit N mem)
    exact ⟨l, by rw [← bodyRun_step]; exact h⟩
  · rintro ⟨sched, rfl⟩
    obtain ⟨l, h⟩ := exists_handRun step fnEnded fn_idle fn_stable sched mem
    exact ⟨l, by rw [h, bodyRun_step]⟩

/-- C124: the same for executions in which the spawner gets past its joins. -/
theorem C124_same_results (mem m : Sys N O M) :
    (∃ sched s, handRun step fnEnded sched (handInit N mem) = .running s ∧ s.main = .after ∧ s.mem = m) ↔
      ∃ sched, run sched mem = .running m ∧ m.Joined := by
  constructor
  · rintro ⟨sched, s, h, ha, rfl⟩
    obtain ⟨l, h'⟩ := handRun_sim step fnEnded sched (handInit N mem)
    rw [h, bodyRun_step] at h'
    exact ⟨l, h', (C124_joined mem sched s h ha).2.1⟩
  · rintro ⟨sched, h, hj⟩
    exact exists_handRun_after step fnEnded fn_idle fn_stable sched mem m (by rw [bodyRun_step]; exact h)
      (fun t => by simp [fnEnded, hj t])

example : ∃ sched m, run sched (rearInit 0 (fun t : Fin 2 => if t = 0 then [adds 3] else []) 1 ()) = .running m ∧ m.Joined ∧
    m.obj = 4 :=
  ⟨[0, 0, 0, 0, 0], _, rfl, by intro t; match t with | 0 => rfl | 1 => rfl, rfl⟩

/-- C124, class style. -/
theorem C124_same_executions_class (mem : ClassSys O M) (r : Res (ClassSys O M)) :
    (∃ sched, (handRun classStep classEnded sched (handInit 2 mem)).mapMem = r) ↔ ∃ sched, classRun sched mem = r := by
  constructor
  · rintro ⟨sched, rfl⟩
    obtain ⟨l, h⟩ := handRun_sim classStep classEnded sched (handInit 2 mem)
    exact ⟨l, by rw [← bodyRun_classStep]; exact h⟩
  · rintro ⟨sched, rfl⟩
    obtain ⟨l, h⟩ := exists_handRun classStep classEnded class_idle class_stable sched mem
    exact ⟨l, by rw [h, bodyRun_classStep]⟩

/-- C124, class style. -/
theorem C124_same_results_class (mem m : ClassSys O M) :
    (∃ sched s, handRun classStep classEnded sched (handInit 2 mem) = .running s ∧ s.main = .after ∧ s.mem = m) ↔
      ∃ sched, classRun sched mem = .running m ∧ m.Joined := by
  constructor
  · rintro ⟨sched, s, h, ha, rfl⟩
    obtain ⟨l, h'⟩ := handRun_sim classStep classEnded sched (handInit 2 mem)
    rw [h, bodyRun_classStep] at h'
    exact ⟨l, h', (C124_joined_class mem sched s h ha).2.1⟩
  · rintro ⟨sched, h, hj⟩
    exact exists_handRun_after classStep classEnded class_idle class_stable sched mem m (by rw [bodyRun_classStep]; exact h)
      (fun t => by simp [classEnded, hj t])

example : ∃ sched m, classRun sched (classInit (fun t => if t = 0 then [addsEven 3] else []) 2 0) = .running m ∧ m.Joined ∧
    m.obj = 5 := by
  refine ⟨[0, 0, 0, 0], ?_⟩
  generalize hr : classRun _ _ = r
  have h : (match classRun [0, 0, 0, 0] (classInit (fun t => if t = 0 then [addsEven 3] else []) 2 0) with
    | .running m => decide m.Joined && decide (m.obj = 5)
    | _ => false) = true := by decide +kernel
  rw [hr] at h
  cases r with
  | running s => exact ⟨s, rfl, by simpa using h⟩
  | _ => cases h

end Concurrency
end Verif
