import Verif.Lemmas.ConcurrencyRun
/-
C70, C71, C72 and C95 to C98: concurrent testing.
-/
namespace Verif
namespace Concurrency
open Engine Stateful
variable {O M : Type} {N : Nat}

/-! ### Samples -/

/-- Adds `k` to the object and counts the call in the model. -/
def add (k : Nat) : Act Nat Nat := fun o m => ⟨[], .ok (o + k, m + 1)⟩
/-- Always throws. -/
def boom : Act Nat Nat := fun _ _ => ⟨[], .throws .assertFailed⟩
/-- Two threads, two and one actions. -/
def sampleRears : Fin 2 → List (Act Nat Nat)
  | 0 => [add 1, add 10]
  | 1 => [add 100]
/-- The second thread runs while the first is in its first action. -/
def sampleSched : List (Fin 2) := [0, 1, 1, 0, 0, 1, 1, 1, 0, 0, 0, 0, 0, 0, 0]
/-- The state a run ends in, if it does not end in undefined behaviour or termination. -/
def Res.state? {α : Type} : Res α → Option α
  | .running a => some a
  | _ => none

/-! ### C70 -/

/-- C70: no interleaving of the rear threads writes outside of the log. -/
theorem C70_no_overflow (F : Nat) (rears : Fin N → List (Act O M)) (obj : O) (model : M) (sched : List (Fin N))
    (hd : ∀ t, ∀ a ∈ rears t, ∀ o m, (a o m).out ≠ .ub) : run sched (rearInit F rears obj model) ≠ .ub :=
  run_ne_ub hd obj model sched

/-- C70: two threads never are about to write the same log position, and a position about to be written is in the log
behind the entries of the front actions. -/
theorem C70_distinct_positions (F : Nat) (rears : Fin N → List (Act O M)) (obj : O) (model : M) (sched : List (Fin N))
    (s : Sys N O M) (hr : run sched (rearInit F rears obj model) = .running s) (t u : Fin N) (i j : Nat)
    (ht : (s.thr t).pc = .startStore i ∨ (s.thr t).pc = .stopStore i)
    (hu : (s.thr u).pc = .startStore j ∨ (s.thr u).pc = .stopStore j) :
    F ≤ i ∧ i < s.log.length ∧ (t ≠ u → i ≠ j) := by
  obtain ⟨hist, h⟩ := run_inv hr
  have hpt : (s.thr t).pc.pending = some i := by rcases ht with h | h <;> rw [h] <;> rfl
  have hpu : (s.thr u).pc.pending = some j := by rcases hu with h | h <;> rw [h] <;> rfl
  obtain ⟨k, hi, hk⟩ := h.pending t i hpt
  obtain ⟨l, hj, hl⟩ := h.pending u j hpu
  refine ⟨by omega, h.pending_lt hpt, fun hne he => hne ?_⟩
  obtain rfl : k = l := by omega
  exact Option.some.inj (hk.symm.trans hl)

/-- C70: once all rear threads have ended, the log has one entry -1 for every front action, followed by exactly two entries
`t` for every action of thread `t` and nothing else; the counter is the size of the log. -/
theorem C70_log_complete (F : Nat) (rears : Fin N → List (Act O M)) (obj : O) (model : M) (sched : List (Fin N))
    (s : Sys N O M) (hr : run sched (rearInit F rears obj model) = .running s) (hj : s.Joined) :
    s.counter = s.log.length ∧ s.log.take F = List.replicate F (-1) ∧
      (∀ x ∈ s.log.drop F, ∃ t : Fin N, x = (t : Nat)) ∧
      ∀ t : Fin N, s.log.count ((t : Nat) : Int) = 2 * (rears t).length := by
  obtain ⟨hist, h⟩ := run_inv hr
  obtain ⟨h1, h2, h3⟩ := h.joined hj
  refine ⟨h1, ?_, ?_, ?_⟩
  · rw [h2, List.take_left' (by simp)]; rfl
  · rw [h2, List.drop_left' (by simp)]
    intro x hx
    obtain ⟨t, _, rfl⟩ := List.mem_map.mp hx
    exact ⟨t, rfl⟩
  · intro t
    have hinj : Function.Injective (fun t : Fin N => ((t : Nat) : Int)) := fun a b hab =>
      Fin.ext (by simpa using hab)
    rw [h2, List.count_append, List.count_replicate]
    rw [if_neg (by simp [frontId])]
    rw [show ((t : Nat) : Int) = (fun t : Fin N => ((t : Nat) : Int)) t from rfl,
      List.count_map_of_injective _ _ hinj, h3 t]
    omega

/-- C70: printing the schedule from the log never runs past the end of an action list. It shows the front actions in
order, and for each thread the start and the end of every action of its list, in order. -/
theorem C70_replay (F : Nat) (rears : Fin N → List (Act O M)) (obj : O) (model : M) (sched : List (Fin N))
    (s : Sys N O M) (hr : run sched (rearInit F rears obj model) = .running s) (hj : s.Joined) :
    ∃ shown, replayAll F (fun t => (rears t).length) s = .ok shown ∧
      (∃ rear, shown = (List.range F).map Shown.front ++ rear ∧ ∀ k, Shown.front k ∉ rear) ∧
      ∀ t, shown.filter (fun e => e.thread? = some t) =
        (List.range (rears t).length).flatMap fun k => [Shown.start t k, Shown.stop t k] := by
  obtain ⟨hist, h⟩ := run_inv hr
  obtain ⟨h1, h2, h3⟩ := h.joined hj
  obtain ⟨rear, r1, r2, r3⟩ := replay_hist F (fun t => (rears t).length) hist ⟨F, fun _ => 0, fun _ => false⟩
    (fun t => by simp [h3 t]; omega)
  refine ⟨(List.range' 0 F).map Shown.front ++ rear, ?_, ⟨rear, by rw [List.range_eq_range'], ?_⟩, ?_⟩
  · unfold replayAll
    rw [if_pos (by omega), h1, List.take_length, h2]
    exact replay_front F _ _ F ⟨0, fun _ => 0, fun _ => false⟩ (by simp) r1
  · intro k hk
    have : Shown.front k ∈ rear.filter (fun e => e.thread? = none) := by
      rw [List.mem_filter]; exact ⟨hk, by simp [Shown.thread?]⟩
    rw [r3] at this; cases this
  · intro t
    rw [List.filter_append, r2 t, h3 t, expected_eq, List.range_eq_range']
    rw [List.filter_eq_nil_iff.mpr (by intro e he; obtain ⟨k, _, rfl⟩ := List.mem_map.mp he; simp [Shown.thread?])]
    rfl

/-- C70: if all actions return, every schedule that gives each thread five steps for each of its actions leads to the end
of all threads. -/
theorem C70_finishes (F : Nat) (rears : Fin N → List (Act O M)) (obj : O) (model : M) (sched : List (Fin N))
    (hr : ∀ t, ∀ a ∈ rears t, ∀ o m, ∃ r, (a o m).out = .ok r)
    (hs : ∀ t, 5 * (rears t).length ≤ sched.count t) :
    ∃ s, run sched (rearInit F rears obj model) = .running s ∧ s.Joined :=
  run_finishes hr sched _ ⟨[], Inv.init F rears obj model⟩ (fun _ => List.suffix_refl _)
    (fun t => by simpa [rearInit, Thr.left, Pc.done] using hs t)

/-- C70: with user functions that are defined by themselves, `invoke` is defined in every interleaving. -/
theorem C70_invoke_defined (factory : O → Ev (O × M)) (postCheck : Option (O → M → Ev (O × M))) (obj : O)
    (front : List (Act O M)) (rears : Fin N → List (Act O M)) (sched : List (Fin N)) (e : Ev Unit)
    (hf : (factory obj).out ≠ .ub) (hfr : ∀ a ∈ front, ∀ o m, (a o m).out ≠ .ub)
    (hd : ∀ t, ∀ a ∈ rears t, ∀ o m, (a o m).out ≠ .ub)
    (hp : ∀ c, postCheck = some c → ∀ o m, (c o m).out ≠ .ub)
    (he : invoke factory postCheck obj front rears sched = .done e) : e.out ≠ .ub := by
  have hrun : ∀ (l : List (Act O M)), (∀ a ∈ l, ∀ o m, (a o m).out ≠ .ub) → ∀ s, (runActions l s).out ≠ .ub := by
    intro l hl
    induction l with
    | nil => intro s h; cases h
    | cons a l ih =>
      intro s h
      have h1 := hl a (by simp) s.1 s.2
      simp only [runActions, andThen] at h
      split at h
      · exact ih (fun b hb => hl b (by simp [hb])) _ h
      · cases h
      · exact h1 (by assumption)
      · cases h
  have hpost : ∀ o m, (postChecked postCheck o m).out ≠ .ub := by
    intro o m h
    unfold postChecked at h
    cases hc : postCheck with
    | none => rw [hc] at h; cases h
    | some c =>
      rw [hc] at h
      have := hp c hc o m
      simp only [andThen] at h
      split at h
      · cases h
      · cases h
      · contradiction
      · cases h
  have hfront : (andThen (factory obj) (runActions front)).out ≠ .ub := by
    intro h
    simp only [andThen] at h
    split at h
    · exact hrun front hfr _ h
    · cases h
    · contradiction
    · cases h
  unfold invoke at he
  simp only at he
  split at he
  · cases he; simp
  · contradiction
  · cases he; simp
  · next o m _ =>
    split at he
    · cases he; exact hpost o m
    · split at he
      · next h => exact absurd h (C70_no_overflow _ rears o m sched hd)
      · cases he
      · next s hs =>
        split at he
        · next hj =>
          obtain ⟨shown, h1, _⟩ := C70_replay _ rears o m sched s hs hj
          rw [h1] at he
          cases he
          exact hpost _ _
        · cases he

example : ∀ t, ∀ a ∈ sampleRears t, ∀ o m, ∃ r, (a o m).out = .ok r := by
  intro t a ha o m
  rcases (by omega : t = 0 ∨ t = 1) with rfl | rfl <;> simp [sampleRears] at ha
  · rcases ha with rfl | rfl <;> exact ⟨_, rfl⟩
  · rcases ha with rfl; exact ⟨_, rfl⟩
example : ∀ t, 5 * (sampleRears t).length ≤ sampleSched.count t := by decide
example : ((run sampleSched (rearInit 2 sampleRears 0 0)).state?.map fun s => (s.log, s.counter, s.obj)) =
    some ([-1, -1, 0, 1, 1, 0, 0, 0], 8, 111) := by decide +kernel
example : ((run sampleSched (rearInit 2 sampleRears 0 0)).state?.map fun s =>
      replayAll 2 (fun t => (sampleRears t).length) s) =
    some (.ok [.front 0, .front 1, .start 0 0, .start 1 0, .stop 1 0, .stop 0 0, .start 0 1, .stop 0 1]) := by
  decide +kernel
example : ((run [0, 1] (rearInit 2 sampleRears 0 0)).state?.map fun s => ((s.thr 0).pc, (s.thr 1).pc)) =
    some (.startStore 2, .startStore 3) := by decide +kernel

/-! ### C71 -/

/-- A class style action that adds one to the object and to the model. -/
def incr : ClassAct Nat Nat := ⟨fun _ _ => ⟨[], .ok true⟩, fun o m => ⟨[], .ok (true, o + 1, m + 1)⟩⟩
/-- The same for even objects only. -/
def incrEven : ClassAct Nat Nat := ⟨fun o _ => ⟨[], .ok (o % 2 == 0)⟩, fun o m => ⟨[], .ok (true, o + 1, m + 1)⟩⟩

/-- C71 is violated: as soon as there are more than 5000 executed rear actions, every execution in which the two threads
can run to their ends writes past the end of the log. -/
theorem C71_log_overflow_violated (rears : Fin 2 → List (ClassAct O M)) (obj : O) (model : M) (sched : List (Fin 2))
    (hr : ∀ t, ∀ a ∈ rears t, ∀ o m, (a.precondition o m).out = .ok true ∧ ∃ r, (a.run o m).out = .ok (true, r))
    (hl : 5000 < (rears 0).length + (rears 1).length) (hs : ∀ t, 4 * (rears t).length ≤ sched.count t) :
    classRun sched (classInit rears obj model) = .ub := by
  rcases classRun_progress (total := (rears 0).length + (rears 1).length) hr sched (classInit rears obj model)
    (by simp [ClassFull, classInit, ClassThr.pot]) (fun _ => List.suffix_refl _)
    (fun t => by simpa [classInit, ClassThr.left, ClassPc.done] using hs t) with h | ⟨s, h1, h2, h3⟩
  · exact h
  · exfalso
    have hi := classRun_inv h1
    have hp : ∀ t, (s.thr t).pot = 0 ∧ (s.thr t).pc.pending = none := by
      intro t
      have := hi.idle t (h2 t)
      unfold ClassThr.pot
      rw [this, h2 t]
      exact ⟨rfl, rfl⟩
    unfold ClassFull at h3
    rw [(hp 0).1, (hp 1).1] at h3
    rcases hi.seen 5000 (by omega) with h | ⟨t, ht⟩
    · simp [classLogSize] at h
    · rw [(hp t).2] at ht; cases ht

example : ∃ rears : Fin 2 → List (ClassAct Nat Nat),
    (∀ t, ∀ a ∈ rears t, ∀ o m, (a.precondition o m).out = .ok true ∧ ∃ r, (a.run o m).out = .ok (true, r)) ∧
    5000 < (rears 0).length + (rears 1).length ∧
    ∀ t, 4 * (rears t).length ≤ (List.replicate 20004 (0 : Fin 2)).count t := by
  refine ⟨fun t => List.replicate (if t = 0 then 5001 else 0) incr, ?_, ?_, ?_⟩
  · intro t a ha o m
    rw [(List.mem_replicate.mp ha).2]; exact ⟨rfl, _, rfl⟩
  · simp only [List.length_replicate]; decide
  · intro t
    simp only [List.length_replicate, List.count_replicate]
    rcases (by omega : t = 0 ∨ t = 1) with rfl | rfl <;> decide

/-- C71, as far as it holds: with at most 5000 rear actions in both lists together no interleaving writes outside of the
log. Missing: longer lists. -/
theorem C71_no_overflow_partial (rears : Fin 2 → List (ClassAct O M)) (obj : O) (model : M) (sched : List (Fin 2))
    (hd : ∀ t, ∀ a ∈ rears t, ∀ o m, (a.precondition o m).out ≠ .ub ∧ (a.run o m).out ≠ .ub)
    (hl : (rears 0).length + (rears 1).length ≤ 5000) :
    classRun sched (classInit rears obj model) ≠ .ub ∧
      ∀ s, classRun sched (classInit rears obj model) = .running s → s.counter ≤ s.log.length := by
  refine ⟨classRun_ne_ub hl hd obj model sched, fun s hs => ?_⟩
  have hi := classRun_inv hs
  have := hi.room
  rw [hi.size]
  simp only [classLogSize]
  omega

/-- Two lists with actions that are skipped or not, depending on the interleaving. -/
def classRears : Fin 2 → List (ClassAct Nat Nat)
  | 0 => [incrEven, incr]
  | 1 => [incrEven]

example : (∀ t, ∀ a ∈ classRears t, ∀ o m, (a.precondition o m).out ≠ .ub ∧ (a.run o m).out ≠ .ub) ∧
    (classRears 0).length + (classRears 1).length ≤ 5000 := by
  refine ⟨?_, by decide⟩
  intro t a ha o m
  rcases (by omega : t = 0 ∨ t = 1) with rfl | rfl <;> simp [classRears] at ha
  · rcases ha with rfl | rfl <;> simp [incr, incrEven]
  · rcases ha with rfl; simp [incrEven]
example : ((classRun [0, 1, 0, 1, 0, 0, 1, 1, 0, 0, 0, 0] (classInit classRears 0 0)).state?.map fun s =>
      (s.log.take s.counter, s.obj, s.model)) = some ([1, 2, 1], 3, 3) := by decide +kernel

/-! ### C72 -/

/-- C72 is violated in the function style, in every execution: when the rear threads have ended, the post check is called
with the model as the front actions left it. -/
theorem C72_model_updates_lost_violated (factory : O → Ev (O × M)) (check : O → M → Ev (O × M)) (obj o : O) (m : M)
    (front : List (Act O M)) (rears : Fin (N + 2) → List (Act O M)) (sched : List (Fin (N + 2))) (e : Ev Unit)
    (hfr : (andThen (factory obj) (runActions front)).out = .ok (o, m))
    (hd : ∀ t, ∀ a ∈ rears t, ∀ o m, (a o m).out ≠ .ub)
    (he : invoke factory (some check) obj front rears sched = .done e) :
    ∃ o', e.fails = (andThen (factory obj) (runActions front)).fails ++ (check o' m).fails ∧
      (e.out = .ok () ↔ ∃ r, (check o' m).out = .ok r) ∧ ∀ x, e.out = .throws x ↔ (check o' m).out = .throws x := by
  unfold invoke at he
  simp only [hfr] at he
  rw [if_neg (by omega)] at he
  split at he
  · next h => exact absurd h (C70_no_overflow _ rears o m sched hd)
  · cases he
  · next s hs =>
    split at he
    · next hj =>
      obtain ⟨shown, h1, _⟩ := C70_replay _ rears o m sched s hs hj
      rw [h1] at he
      cases he
      refine ⟨s.obj, ?_⟩
      simp only [postChecked, andThen]
      cases hc : (check s.obj m).out <;> simp
    · cases he

/-- A post check that wants the model to have counted three actions. -/
def wants3 : Nat → Nat → Ev (Nat × Nat) := fun o m =>
  if m = 3 then ⟨[], .ok (o, m)⟩ else ⟨[], .throws .assertFailed⟩

/-- The instance: one front action and two rear actions count in the model, the post check finds 1. -/
example : invoke (fun o => ⟨[], .ok (o, 0)⟩) (some wants3) 0 [add 1] (fun _ : Fin 2 => [add 1])
    [0, 0, 0, 0, 0, 1, 1, 1, 1, 1] = .done ⟨[], .throws .assertFailed⟩ := by decide +kernel
example : (runActions [add 1, add 1, add 1] (0, 0)).out = .ok (3, 3) := by decide

/-- C72, as far as it holds: in the class style object and model are, at the end, those that the executed actions produce
one after the other, starting from what the front left. Each thread takes all the actions of its list in order and
executes those whose precondition it found to hold. Missing: the function style. -/
theorem C72_class_style_partial (rears : Fin 2 → List (ClassAct O M)) (obj : O) (model : M) (sched : List (Fin 2))
    (s : ClassSys O M) (hr : classRun sched (classInit rears obj model) = .running s) (hj : s.Joined) :
    ∃ order, ClassLinear obj model order s.obj s.model ∧ ∀ t, InTurn (rears t) (ofThread t order) := by
  obtain ⟨order, h1, h2⟩ := classRun_lin hr
  refine ⟨order, h1, fun t => ?_⟩
  obtain ⟨passed, es, h3, h4, h5⟩ := h2 t
  rw [h3, h5, ClassThr.begun, hj t]
  simpa using h4

example : ((classRun [0, 1, 0, 1, 0, 0, 1, 1, 0, 0, 0, 0] (classInit classRears 0 0)).state?.map fun s =>
      decide s.Joined) = some true := by decide +kernel

example : ((classRun [0, 1, 0, 1, 0, 0, 1, 1, 0, 0, 0, 0] (classInit classRears 0 0)).state?.map fun s =>
      (s.log.take s.counter, s.obj, s.model)) = some ([1, 2, 1], 3, 3) := by decide +kernel

/-- C72 of the class style `invoke` as a whole, for lists that fit into the log: the post check gets the object and the
model that the executed actions produce one after the other, starting from what model factory and front actions left.
Missing: the function style. -/
theorem C72_class_post_check_partial (factory : O → Ev (O × M)) (check : O → M → Ev (O × M)) (obj o : O) (m : M)
    (front : List (ClassAct O M)) (rears : Fin 2 → List (ClassAct O M)) (sched : List (Fin 2)) (e : Ev Unit)
    (hfr : (andThen (factory obj) (runClassActions front)).out = .ok (o, m))
    (hd : ∀ t, ∀ a ∈ rears t, ∀ o m, (a.precondition o m).out ≠ .ub ∧ (a.run o m).out ≠ .ub)
    (hl : (rears 0).length + (rears 1).length ≤ 5000)
    (he : classInvoke factory (some check) obj front rears sched = .done e) :
    ∃ order o' m', ClassLinear o m order o' m' ∧ (∀ t, InTurn (rears t) (ofThread t order)) ∧
      e.fails = (andThen (factory obj) (runClassActions front)).fails ++ (check o' m').fails ∧
      (e.out = .ok () ↔ ∃ r, (check o' m').out = .ok r) ∧ ∀ x, e.out = .throws x ↔ (check o' m').out = .throws x := by
  obtain ⟨k1, k2⟩ := C71_no_overflow_partial rears o m sched hd hl
  unfold classInvoke at he
  simp only [hfr] at he
  split at he
  · next h => exact absurd h k1
  · cases he
  · next s hs =>
    split at he
    · next hj =>
      obtain ⟨order, h2, h3⟩ := C72_class_style_partial rears o m sched s hs hj
      rw [if_pos (k2 s hs)] at he
      cases he
      refine ⟨order, s.obj, s.model, h2, h3, ?_⟩
      simp only [postChecked, andThen]
      cases hc : (check s.obj s.model).out <;> simp
    · cases he

/-- The instance: one front action and two rear actions count in the model, the post check finds 3. -/
example : classInvoke (fun o => ⟨[], .ok (o, 0)⟩) (some wants3) 0 [incr] (fun _ => [incr]) [0, 1, 0, 1, 0, 1, 0, 1] =
    .done ⟨[], .ok ()⟩ := by decide +kernel

/-! ### C95 -/

/-- C95 is violated: if some action of a rear list throws whenever it is called, no execution ends with all threads
joined, so `go` gives no verdict; the execution that comes to that action ends the program. -/
theorem C95_rear_failure_gives_no_verdict_violated (F : Nat) (rears : Fin N → List (Act O M)) (obj : O) (model : M)
    (t : Fin N) (a : Act O M) (ha : a ∈ rears t) (hx : ∀ o m, ∃ x, (a o m).out = .throws x) (sched : List (Fin N))
    (s : Sys N O M) (hr : run sched (rearInit F rears obj model) = .running s) : ¬ s.Joined := by
  intro hj
  obtain ⟨order, h1, h2⟩ := run_lin hr
  obtain ⟨hist, hi⟩ := run_inv hr
  have ht := h2 t
  rw [Thr.todo, hi.idle t (hj t), hj t, List.append_nil] at ht
  rw [← ht] at ha
  have hmem : (t, a) ∈ order := by
    simp only [ofThread, List.mem_map, List.mem_filter] at ha
    obtain ⟨⟨u, b⟩, ⟨h3, h4⟩, rfl⟩ := ha
    simp only [decide_eq_true_eq] at h4
    exact h4 ▸ h3
  have key : ∀ (order : List (Fin N × Act O M)) o ms, Linear obj model order o ms → (t, a) ∉ order := by
    intro order o ms h
    induction h with
    | nil => simp
    | snoc order o ms u b o' m' _ hb ih =>
      intro hq
      rcases List.mem_append.mp hq with hq | hq
      · exact ih hq
      · simp only [List.mem_singleton, Prod.mk.injEq] at hq
        obtain ⟨-, rfl⟩ := hq
        obtain ⟨x, hx⟩ := hx o (ms u)
        rw [hx] at hb; cases hb
  exact key order _ _ h1 hmem

example : invoke (fun o => ⟨[], .ok (o, 0)⟩) none 0 [add 1] (fun t : Fin 2 => if t = 0 then [add 1, boom] else [])
    [0, 0, 0, 0, 0, 0, 0, 0] = .terminated := by decide +kernel
example : (boom ∈ [add 1, boom]) ∧ ∀ o m, ∃ x, (boom o m).out = .throws x := ⟨by simp, fun _ _ => ⟨_, rfl⟩⟩

private theorem InTurn.mem {as : List (ClassAct O M)} {es : List (ClassAct O M × ClassDoes)} (h : InTurn as es)
    {a : ClassAct O M} (ha : a ∈ as) : (a, .check false) ∈ es ∨ (a, .run) ∈ es := by
  induction h with
  | nil => simp at ha
  | skip b _ ih =>
    rcases List.mem_cons.1 ha with rfl | ha
    · exact .inl (by simp)
    · rcases ih ha with h | h
      · exact .inl (by simp [h])
      · exact .inr (by simp [h])
  | exec b _ ih =>
    rcases List.mem_cons.1 ha with rfl | ha
    · exact .inr (by simp)
    · rcases ih ha with h | h
      · exact .inl (by simp [h])
      · exact .inr (by simp [h])

private theorem ClassLinear.mem {o₀ o : O} {m₀ m : M} {order : List (Fin 2 × ClassAct O M × ClassDoes)}
    (h : ClassLinear o₀ m₀ order o m) {t : Fin 2} {a : ClassAct O M} :
    ((t, a, .check false) ∈ order → ∃ o m, (a.precondition o m).out = .ok false) ∧
    ((t, a, .run) ∈ order → ∃ o m r, (a.run o m).out = .ok (true, r)) := by
  induction h with
  | nil => simp
  | check u b c h hb ih =>
    refine ⟨fun hm => ?_, fun hm => ih.2 (by simpa using hm)⟩
    rcases List.mem_append.1 hm with hm | hm
    · exact ih.1 hm
    · simp only [List.mem_singleton, Prod.mk.injEq, ClassDoes.check.injEq] at hm
      obtain ⟨rfl, rfl, rfl⟩ := hm
      exact ⟨_, _, hb⟩
  | run u b o' m' h hb ih =>
    refine ⟨fun hm => ih.1 (by simpa using hm), fun hm => ?_⟩
    rcases List.mem_append.1 hm with hm | hm
    · exact ih.2 hm
    · simp only [List.mem_singleton, Prod.mk.injEq, and_true] at hm
      obtain ⟨rfl, rfl⟩ := hm
      exact ⟨_, _, _, hb⟩

/-- C95, the class style: the same as soon as one action of a rear list has a precondition that holds and returns false or
throws whenever it is called. -/
theorem C95_class_rear_failure_violated (rears : Fin 2 → List (ClassAct O M)) (obj : O) (model : M) (t : Fin 2)
    (a : ClassAct O M) (ha : a ∈ rears t)
    (hx : ∀ o m, (a.precondition o m).out = .ok true ∧ ∀ r, (a.run o m).out ≠ .ok (true, r)) (sched : List (Fin 2))
    (s : ClassSys O M) (hr : classRun sched (classInit rears obj model) = .running s) : ¬ s.Joined := by
  intro hj
  obtain ⟨order, hl, ht⟩ := C72_class_style_partial rears obj model sched s hr hj
  have hof : ∀ d, (a, d) ∈ ofThread t order → (t, a, d) ∈ order := by
    intro d hd
    unfold ofThread at hd
    simp only [List.mem_map, List.mem_filter] at hd
    obtain ⟨⟨u, b, e⟩, ⟨h1, h2⟩, h3⟩ := hd
    simp only [decide_eq_true_eq, Prod.mk.injEq] at h2 h3
    obtain ⟨rfl, rfl⟩ := h3
    subst h2
    exact h1
  rcases (ht t).mem ha with h | h
  · obtain ⟨o, m, e⟩ := (hl.mem).1 (hof _ h)
    rw [(hx o m).1] at e
    cases e
  · obtain ⟨o, m, r, e⟩ := (hl.mem).2 (hof _ h)
    exact (hx o m).2 _ e

example : classInvoke (fun o => ⟨[], .ok (o, 0)⟩) none 0 [incr]
    (fun t => if t = 0 then [⟨fun _ _ => ⟨[], .ok true⟩, fun o m => ⟨[], .ok (false, o, m)⟩⟩] else []) [1, 0, 0] =
    (.terminated : Invoked Unit) := by decide +kernel

/-- C95, as far as it holds: an exception of a front action (or of the model factory) leaves `invoke`, whatever the
schedule, and a run that ends with a `std::exception` other than `Success` and `Discard` makes `go` return false.
Missing: rear actions. -/
theorem C95_front_failure_partial (factory : O → Ev (O × M)) (postCheck : Option (O → M → Ev (O × M))) (obj : O)
    (front : List (Act O M)) (rears : Fin N → List (Act O M)) (sched : List (Fin N)) (x : Exn)
    (hx : (andThen (factory obj) (runActions front)).out = .throws x) :
    (∃ fails, invoke factory postCheck obj front rears sched = .done ⟨fails, .throws x⟩) ∧
    (x.isStd = true → x ≠ .success → x ≠ .discard → ∀ timeUp attempts fuel left, timeUp 0 = false →
      (attempts 0).out = .throws x → go timeUp attempts (fuel + 1) (left + 1) = .ok false) := by
  constructor
  · exact ⟨(andThen (factory obj) (runActions front)).fails, by unfold invoke; simp only [hx]⟩
  · intro h1 h2 h3 timeUp attempts fuel left h4 h5
    simp [go, forLoop, doWhile, h4, h5, h1, h2, h3]

example : (andThen ((fun o => ⟨[], .ok (o, 0)⟩ : Nat → Ev (Nat × Nat)) 3) (runActions [add 1, boom])).out =
    .throws .assertFailed := by decide

/-- C95, as far as it holds: in both styles an attempt whose model factory or front actions do not come to a normal end
ends as they do, with the failures recorded so far, whatever the rear actions, the post check and the schedule are.
Missing: rear actions. -/
theorem C95_front_end_partial (factory : O → Ev (O × M)) (postCheck : Option (O → M → Ev (O × M))) (obj : O)
    (rears : Fin N → List (Act O M)) (sched : List (Fin N)) (rears' : Fin 2 → List (ClassAct O M)) (sched' : List (Fin 2))
    (z : Outcome Unit) (hz : z ≠ .ok ()) :
    (∀ front, ((andThen (factory obj) (runActions front)).out.bind fun _ => .ok ()) = z →
      invoke factory postCheck obj front rears sched =
        .done ⟨(andThen (factory obj) (runActions front)).fails, z⟩) ∧
    (∀ front, ((andThen (factory obj) (runClassActions front)).out.bind fun _ => .ok ()) = z →
      classInvoke factory postCheck obj front rears' sched' =
        .done ⟨(andThen (factory obj) (runClassActions front)).fails, z⟩) := by
  constructor
  · intro front h
    subst h
    unfold invoke
    cases e : (andThen (factory obj) (runActions front)).out <;> simp_all [Outcome.bind]
  · intro front h
    subst h
    unfold classInvoke
    cases e : (andThen (factory obj) (runClassActions front)).out <;> simp_all [Outcome.bind]

/-- A front action of the class style that throws. -/
example : ((andThen ((fun o => ⟨["f"], .ok (o, 0)⟩ : Nat → Ev (Nat × Nat)) 3) (runClassActions
    [⟨fun _ _ => ⟨[], .ok true⟩, fun _ _ => ⟨["g"], .throws .foreign⟩⟩])).out.bind fun _ => (.ok () : Outcome Unit)) =
      .throws .foreign := by decide +kernel

/-! ### C96 -/

/-- C96 is violated: with a concurrency of 0 or 1 the actions generated for the thread are not run. -/
theorem C96_single_thread_skips_rear_violated (factory : O → Ev (O × M)) (postCheck : Option (O → M → Ev (O × M)))
    (obj : O) (front : List (Act O M)) (rears rears' : Fin N → List (Act O M)) (sched sched' : List (Fin N))
    (hN : N ≤ 1) : invoke factory postCheck obj front rears sched = invoke factory postCheck obj front rears' sched' := by
  unfold invoke
  simp only [if_pos hN]

/-- The instance: the rear action would fail. -/
example : invoke (fun o => ⟨[], .ok (o, 0)⟩) none 0 [add 1] (fun _ : Fin 1 => [boom]) [0, 0, 0, 0] =
    .done ⟨[], .ok ()⟩ := by decide +kernel

/-- C96, as far as it holds: with two or more threads, `invoke` returns normally only after all actions of all rear lists
have been executed, each exactly once, in an order that keeps the order of each list; the post check (if any) sees the
object these actions produce. Missing: a concurrency of 1. -/
theorem C96_all_rear_actions_partial (F : Nat) (rears : Fin N → List (Act O M)) (obj : O) (model : M)
    (sched : List (Fin N)) (s : Sys N O M) (hr : run sched (rearInit F rears obj model) = .running s) (hj : s.Joined) :
    ∃ order ms, Linear obj model order s.obj ms ∧ ∀ t, ofThread t order = rears t := by
  obtain ⟨order, h1, h2⟩ := run_lin hr
  obtain ⟨hist, hi⟩ := run_inv hr
  refine ⟨order, _, h1, fun t => ?_⟩
  have ht := h2 t
  rw [Thr.todo, hi.idle t (hj t), hj t, List.append_nil] at ht
  exact ht

example : ((run sampleSched (rearInit 2 sampleRears 0 0)).state?.map fun s => decide s.Joined) = some true := by
  decide +kernel

/-- C96 of `invoke` as a whole: with two or more threads, a post check that is called gets an object that all actions of all
rear lists have produced, each executed exactly once, in an order that keeps the order of each list, starting from what
model factory and front actions left. Missing: a concurrency of 1. -/
theorem C96_post_check_partial (factory : O → Ev (O × M)) (check : O → M → Ev (O × M)) (obj o : O) (m : M)
    (front : List (Act O M)) (rears : Fin (N + 2) → List (Act O M)) (sched : List (Fin (N + 2))) (e : Ev Unit)
    (hfr : (andThen (factory obj) (runActions front)).out = .ok (o, m))
    (hd : ∀ t, ∀ a ∈ rears t, ∀ o m, (a o m).out ≠ .ub)
    (he : invoke factory (some check) obj front rears sched = .done e) :
    ∃ order o' ms, Linear o m order o' ms ∧ (∀ t, ofThread t order = rears t) ∧
      e.fails = (andThen (factory obj) (runActions front)).fails ++ (check o' m).fails ∧
      (e.out = .ok () ↔ ∃ r, (check o' m).out = .ok r) ∧ ∀ x, e.out = .throws x ↔ (check o' m).out = .throws x := by
  unfold invoke at he
  simp only [hfr] at he
  rw [if_neg (by omega)] at he
  split at he
  · next h => exact absurd h (C70_no_overflow _ rears o m sched hd)
  · cases he
  · next s hs =>
    split at he
    · next hj =>
      obtain ⟨shown, h1, _⟩ := C70_replay _ rears o m sched s hs hj
      obtain ⟨order, ms, h2, h3⟩ := C96_all_rear_actions_partial _ rears o m sched s hs hj
      rw [h1] at he
      cases he
      refine ⟨order, s.obj, ms, h2, h3, ?_⟩
      simp only [postChecked, andThen]
      cases hc : (check s.obj m).out <;> simp
    · cases he

/-- The instance: the check wants the object that one front action and two rear actions make. -/
example : invoke (fun o => ⟨[], .ok (o, 0)⟩)
    (some fun o m => if o = 3 then ⟨[], .ok (o, m)⟩ else ⟨[], .throws .assertFailed⟩) 0 [add 1] (fun _ : Fin 2 => [add 1])
    [0, 0, 1, 0, 1, 1, 0, 0, 1, 1] = .done ⟨[], .ok ()⟩ := by decide +kernel

/-! ### C97 -/

/-- Forgets the failed expectations. -/
def Ev.silent {α : Type} (e : Ev α) : Ev α := ⟨[], e.out⟩

/-- C97 is violated: the verdict of `go` does not depend on failed expectations. -/
theorem C97_failed_expectations_ignored_violated (timeUp : Nat → Bool) (attempts : Nat → Ev Unit) (fuel runs : Nat) :
    go timeUp attempts fuel runs = go timeUp (fun k => Ev.silent (attempts k)) fuel runs := by
  have h1 : ∀ fuel k, doWhile attempts fuel k = doWhile (fun k => Ev.silent (attempts k)) fuel k := by
    intro fuel
    induction fuel with
    | zero => intro k; rfl
    | succ n ih => intro k; simp only [doWhile, Ev.silent, ih]
  have h2 : ∀ left k, forLoop timeUp attempts fuel left k =
      forLoop timeUp (fun k => Ev.silent (attempts k)) fuel left k := by
    intro left
    induction left with
    | zero => intro k; rfl
    | succ n ih => intro k; simp only [forLoop, h1, ih]
  simp only [go, h2]

/-- The instance: every run records a failed expectation, and `go` says that all is well. -/
example (f : String) : go (fun _ => false) (fun _ => ⟨[f], .ok ()⟩) 1 3 = .ok true := by rfl

/-- The attempt counts as a run that passed. -/
def passed (e : Ev Unit) : Bool :=
  match e.out with
  | .ok _ => true
  | .throws e => decide (e = .success)
  | _ => false

/-- The attempt threw a `std::exception` other than `Success` and `Discard`. -/
def Failed (e : Ev Unit) : Prop := ∃ x, e.out = .throws x ∧ x.isStd = true ∧ x ≠ .success ∧ x ≠ .discard

/-- The first `m` attempts passed or were discarded, `n` of them passed. -/
def Fine (attempts : Nat → Ev Unit) (m n : Nat) : Prop :=
  (∀ j < m, passed (attempts j) = true ∨ (attempts j).out = .throws .discard) ∧
    (List.range m).countP (fun j => passed (attempts j)) = n

theorem Fine.succ_passed {attempts : Nat → Ev Unit} {m n : Nat} (h : Fine attempts m n)
    (hp : passed (attempts m) = true) : Fine attempts (m + 1) (n + 1) := by
  refine ⟨fun j hj => ?_, ?_⟩
  · by_cases e : j = m
    · exact .inl (e ▸ hp)
    · exact h.1 j (by omega)
  · rw [List.range_succ, List.countP_append, h.2]; simp [hp]

theorem Fine.succ_discarded {attempts : Nat → Ev Unit} {m n : Nat} (h : Fine attempts m n)
    (hp : (attempts m).out = .throws .discard) : Fine attempts (m + 1) n := by
  refine ⟨fun j hj => ?_, ?_⟩
  · by_cases e : j = m
    · exact .inr (e ▸ hp)
    · exact h.1 j (by omega)
  · rw [List.range_succ, List.countP_append, h.2]; simp [hp, passed]

theorem doWhile_fine {attempts : Nat → Ev Unit} {n : Nat} : ∀ fuel k, Fine attempts k n →
    (∀ k', doWhile attempts fuel k = .ok k' → Fine attempts k' (n + 1)) ∧
    (∀ x, doWhile attempts fuel k = .throws x → x ≠ .success ∧ x ≠ .discard ∧
      ∃ l, Fine attempts l n ∧ (attempts l).out = .throws x) := by
  intro fuel
  induction fuel with
  | zero => intro k _; exact ⟨fun _ h => by (cases h), fun _ h => by (cases h)⟩
  | succ f ih =>
    intro k hf
    simp only [doWhile]
    cases ho : (attempts k).out with
    | ok a => exact ⟨fun k' h => by cases h; exact hf.succ_passed (by simp [passed, ho]), fun _ h => by (cases h)⟩
    | throws e =>
      simp only
      split_ifs with h1 h2
      · exact ⟨fun k' h => by cases h; exact hf.succ_passed (by simp [passed, ho, h1]), fun _ h => by (cases h)⟩
      · exact ih (k + 1) (hf.succ_discarded (by rw [ho, h2]))
      · exact ⟨fun _ h => by (cases h), fun x h => by cases h; exact ⟨h1, h2, k, hf, ho⟩⟩
    | ub => exact ⟨fun _ h => by (cases h), fun _ h => by (cases h)⟩
    | diverges => exact ⟨fun _ h => by (cases h), fun _ h => by (cases h)⟩

theorem forLoop_fine {attempts : Nat → Ev Unit} {fuel : Nat} : ∀ left k n, Fine attempts k n →
    (∀ b, forLoop (fun _ => false) attempts fuel left k = .ok b → b = true ∧ ∃ m, Fine attempts m (n + left)) ∧
    (∀ x, forLoop (fun _ => false) attempts fuel left k = .throws x → x ≠ .success ∧ x ≠ .discard ∧
      ∃ l n', Fine attempts l n' ∧ n' < n + left ∧ (attempts l).out = .throws x) := by
  intro left
  induction left with
  | zero => intro k n hf; exact ⟨fun b h => by cases h; exact ⟨rfl, k, hf⟩, fun _ h => by (cases h)⟩
  | succ left ih =>
    intro k n hf
    obtain ⟨h1, h2⟩ := doWhile_fine fuel k hf
    simp only [forLoop, Bool.false_eq_true, if_false]
    cases hd : doWhile attempts fuel k with
    | ok k' =>
      obtain ⟨h3, h4⟩ := ih k' (n + 1) (h1 k' hd)
      have e : n + 1 + left = n + (left + 1) := by omega
      rw [e] at h3 h4
      exact ⟨h3, h4⟩
    | throws x =>
      refine ⟨fun _ h => by (cases h), fun x h => ?_⟩
      cases h
      obtain ⟨h3, h4, l, h5, h6⟩ := h2 _ hd
      exact ⟨h3, h4, l, n, h5, by omega, h6⟩
    | ub => exact ⟨fun _ h => by (cases h), fun _ h => by (cases h)⟩
    | diverges => exact ⟨fun _ h => by (cases h), fun _ h => by (cases h)⟩

theorem countP_mono {p : Nat → Bool} {k m : Nat} (h : k ≤ m) : (List.range k).countP p ≤ (List.range m).countP p :=
  List.Sublist.countP_le (List.range_sublist.mpr h)

theorem doWhile_reaches {attempts : Nat → Ev Unit} : ∀ d k fuel, d < fuel →
    (∀ j, k ≤ j → j < k + d → (attempts j).out = .throws .discard) →
    (passed (attempts (k + d)) = true → doWhile attempts fuel k = .ok (k + d + 1)) ∧
    (∀ x, (attempts (k + d)).out = .throws x → x ≠ .success → x ≠ .discard → doWhile attempts fuel k = .throws x) := by
  intro d
  induction d with
  | zero =>
    intro k fuel hf _
    obtain ⟨f, rfl⟩ : ∃ f, fuel = f + 1 := ⟨fuel - 1, by omega⟩
    simp only [doWhile, Nat.add_zero]
    refine ⟨fun hp => ?_, fun x hx h1 h2 => by rw [hx]; simp [h1, h2]⟩
    unfold passed at hp
    cases ho : (attempts k).out with
    | ok a => rfl
    | throws e => rw [ho] at hp; simp at hp; simp [hp]
    | ub => rw [ho] at hp; simp at hp
    | diverges => rw [ho] at hp; simp at hp
  | succ d ih =>
    intro k fuel hf hd
    obtain ⟨f, rfl⟩ : ∃ f, fuel = f + 1 := ⟨fuel - 1, by omega⟩
    obtain ⟨h1, h2⟩ := ih (k + 1) f (by omega) (fun j hj hj' => hd j (by omega) (by omega))
    have e : k + 1 + d = k + (d + 1) := by omega
    rw [e] at h1 h2
    rw [doWhile, hd k (le_refl _) (by omega)]
    exact ⟨h1, h2⟩

theorem next_passed (p : Nat → Bool) (k : Nat) : ∀ d,
    (∀ j, k ≤ j → j < k + d → p j = false) ∨
      ∃ e, e < d ∧ p (k + e) = true ∧ ∀ j, k ≤ j → j < k + e → p j = false := by
  intro d
  induction d with
  | zero => left; intro j h1 h2; omega
  | succ d ih =>
    rcases ih with h | ⟨e, h1, h2, h3⟩
    · cases hp : p (k + d) with
      | true => exact .inr ⟨d, by omega, hp, h⟩
      | false =>
        left
        intro j h1 h2
        by_cases hj : j = k + d
        · rw [hj]; exact hp
        · exact h j h1 (by omega)
    · exact .inr ⟨e, by omega, h2, h3⟩

theorem countP_none {p : Nat → Bool} {k d : Nat} (h : ∀ j, k ≤ j → j < k + d → p j = false) :
    (List.range (k + d)).countP p = (List.range k).countP p := by
  induction d with
  | zero => rfl
  | succ d ih =>
    rw [← Nat.add_assoc, List.range_succ, List.countP_append, ih fun j h1 h2 => h j h1 (by omega)]
    simp [h (k + d) (by omega) (by omega)]

theorem forLoop_reaches {attempts : Nat → Ev Unit} {fuel m n : Nat} (hfuel : m < fuel) (hf : Fine attempts m n) :
    ∀ left k, k ≤ m →
    (n = (List.range k).countP (fun j => passed (attempts j)) + left →
      forLoop (fun _ => false) attempts fuel left k = .ok true) ∧
    (n < (List.range k).countP (fun j => passed (attempts j)) + left → ∀ x, (attempts m).out = .throws x →
      x ≠ .success → x ≠ .discard → forLoop (fun _ => false) attempts fuel left k = .throws x) := by
  intro left
  induction left with
  | zero =>
    intro k hk
    refine ⟨fun _ => rfl, fun h => ?_⟩
    have := countP_mono (p := fun j => passed (attempts j)) hk
    rw [hf.2] at this
    omega
  | succ left ih =>
    intro k hk
    obtain ⟨d, rfl⟩ : ∃ d, m = k + d := ⟨m - k, by omega⟩
    simp only [forLoop, Bool.false_eq_true, if_false]
    rcases next_passed (fun j => passed (attempts j)) k d with h | ⟨e, h1, h2, h3⟩
    · have hc := countP_none h
      rw [hf.2] at hc
      refine ⟨fun h' => by omega, fun _ x hx hs hd => ?_⟩
      rw [(doWhile_reaches d k fuel (by omega) fun j hj hj' => ?_).2 x hx hs hd]
      rcases hf.1 j hj' with hp | hp
      · have := h j hj hj'; simp [hp] at this
      · exact hp
    · rw [(doWhile_reaches e k fuel (by omega) fun j hj hj' => ?_).1 h2]
      · have hc := countP_none h3
        obtain ⟨i1, i2⟩ := ih (k + e + 1) (by omega)
        have : (List.range (k + e + 1)).countP (fun j => passed (attempts j)) =
            (List.range k).countP (fun j => passed (attempts j)) + 1 := by
          rw [List.range_succ, List.countP_append, hc]; simp [h2]
        rw [this] at i1 i2
        exact ⟨fun h => i1 (by omega), fun h => i2 (by omega)⟩
      · rcases hf.1 j (by omega) with hp | hp
        · have := h3 j hj hj'; simp [hp] at this
        · exact hp

/-- C97, as far as it holds, without time limit: `go` returns true exactly if the attempts pass or are discarded until
the required number of them has passed; it returns false exactly if an attempt fails by an exception before that (which
then is the first failure). Missing: failed expectations. -/
theorem C97_verdict_partial (attempts : Nat → Ev Unit) (runs : Nat) :
    ((∃ fuel, go (fun _ => false) attempts fuel runs = .ok true) ↔ ∃ m, Fine attempts m runs) ∧
    ((∃ fuel, go (fun _ => false) attempts fuel runs = .ok false) ↔
      ∃ k n, Fine attempts k n ∧ n < runs ∧ Failed (attempts k)) := by
  have h0 : Fine attempts 0 0 := ⟨fun j hj => by omega, rfl⟩
  refine ⟨⟨?_, ?_⟩, ⟨?_, ?_⟩⟩
  · rintro ⟨fuel, h⟩
    unfold go at h
    split at h
    · split_ifs at h; cases h
    · simpa using ((forLoop_fine runs 0 0 h0).1 _ h).2
  · rintro ⟨m, hm⟩
    refine ⟨m + 1, ?_⟩
    unfold go
    rw [(forLoop_reaches (by omega) hm runs 0 (by omega)).1 (by simp)]
  · rintro ⟨fuel, h⟩
    unfold go at h
    split at h
    · next e he =>
      split_ifs at h with hs
      obtain ⟨h1, h2, l, n, h3, h4, h5⟩ := (forLoop_fine runs 0 0 h0).2 _ he
      exact ⟨l, n, h3, by omega, e, h5, hs, h1, h2⟩
    · exact absurd ((forLoop_fine runs 0 0 h0).1 _ h).1 (by simp)
  · rintro ⟨k, n, hf, hn, x, hx, hs, h1, h2⟩
    refine ⟨k + 1, ?_⟩
    unfold go
    rw [(forLoop_reaches (by omega) hf runs 0 (by omega)).2 (by simpa using hn) x hx h1 h2]
    simp [hs]

/-- C97, the time limit: when it has passed before an attempt of a new run, `go` returns true. -/
theorem C97_time_limit_partial (timeUp : Nat → Bool) (attempts : Nat → Ev Unit) (fuel runs : Nat)
    (h : timeUp 0 = true) : go timeUp attempts fuel runs = .ok true := by
  unfold go
  cases runs with
  | zero => rfl
  | succ n => simp [forLoop, h]

/-- Every other attempt is discarded. -/
def everyOther : Nat → Ev Unit := fun k => ⟨[], if k % 2 = 0 then .throws .discard else .ok ()⟩

example : go (fun _ => false) everyOther 5 3 = .ok true := by decide
example : go (fun _ => false) (fun k => if k = 4 then ⟨[], .throws .assertFailed⟩ else everyOther k) 5 3 = .ok false := by
  decide

/-! ### C98 -/

/-- C98 is violated: a number of runs of `2^31` or more gives no runs at all, and a positive verdict, whatever the
property. -/
theorem C98_many_runs_means_none_violated (timeUp : Nat → Bool) (attempts : Nat → Ev Unit) (fuel runs : Nat)
    (h1 : 2^31 ≤ runs) (h2 : runs < 2^32) : goRuns timeUp attempts fuel runs = .ok true := by
  have : (toInt32 runs).toNat = 0 := by
    unfold toInt32
    rw [Nat.mod_eq_of_lt h2, if_neg (by omega)]
    omega
  simp [goRuns, this, go, forLoop]

example : goRuns (fun _ => false) (fun _ => ⟨[], .throws .assertFailed⟩) 7 (2^31) = .ok true :=
  C98_many_runs_means_none_violated _ _ _ _ (by omega) (by omega)

/-- C98, as far as it holds: without time limit a positive verdict is given exactly if the number of runs asked for has
passed. Missing: numbers of `2^31` and more. -/
theorem C98_number_of_runs_partial (attempts : Nat → Ev Unit) (runs : Nat) (h1 : runs < 2^31) :
    (∃ fuel, goRuns (fun _ => false) attempts fuel runs = .ok true) ↔ ∃ m, Fine attempts m runs := by
  have : (toInt32 runs).toNat = runs := by
    unfold toInt32
    rw [Nat.mod_eq_of_lt (by omega), if_pos h1]
    omega
  unfold goRuns
  rw [this]
  exact (C97_verdict_partial attempts runs).1

example : goRuns (fun _ => false) everyOther 5 3 = .ok true := by decide

/-! ### C116 -/

/-- C116 is violated: whenever an action `b` of one thread makes the precondition of an action `a` of the other thread
false, there is an execution in which `a` is executed after `b`, where its precondition is false. -/
theorem C116_precondition_overtaken_violated (a b : ClassAct O M) (o o1 o2 : O) (m m1 m2 : M)
    (ha : (a.precondition o m).out = .ok true) (hb : (b.precondition o m).out = .ok true)
    (hr : (b.run o m).out = .ok (true, o1, m1)) (_hn : (a.precondition o1 m1).out = .ok false)
    (ha' : (a.run o1 m1).out = .ok (true, o2, m2)) :
    ∃ sched s, classRun sched (classInit (fun t => if t = 0 then [a] else [b]) o m) = .running s ∧ s.Joined ∧
      s.obj = o2 ∧ s.model = m2 := by
  refine ⟨[0, 1, 1, 1, 1, 0, 0, 0], ?_⟩
  have hl : (List.replicate classLogSize (0 : Int)).length = 5000 := List.length_replicate
  unfold classInit
  generalize List.replicate classLogSize (0 : Int) = log at hl
  simp [classRun, classStep, ClassSys.setThr, ha, hb, hr, ha', hl, ClassSys.Joined]

/-- The instance: two threads increment an even number; one after the other, in either order, they get 1, but they can
get 2. -/
example : (runClassActions [incrEven, incrEven] (0, 0)).out = .ok (1, 1) ∧
    ∃ sched s, classRun sched (classInit (fun t => if t = 0 then [incrEven] else [incrEven]) 0 0) = .running s ∧
      s.Joined ∧ s.obj = 2 ∧ s.model = 2 :=
  ⟨by decide, C116_precondition_overtaken_violated incrEven incrEven 0 1 2 0 1 2 rfl rfl rfl rfl rfl⟩

/-- C116, as far as it holds: if no action of one thread makes the precondition of an action of the other thread false,
then in every execution a thread that is about to execute an action finds its precondition true. Missing: actions that
interfere. -/
theorem C116_precondition_partial (rears : Fin 2 → List (ClassAct O M)) (obj : O) (model : M) (sched : List (Fin 2))
    (hst : ∀ t u, t ≠ u → ∀ a ∈ rears t, ∀ b ∈ rears u, ∀ o m o' m', (a.precondition o m).out = .ok true →
      (b.run o m).out = .ok (true, o', m') → (a.precondition o' m').out = .ok true)
    (s : ClassSys O M) (hr : classRun sched (classInit rears obj model) = .running s) (t : Fin 2) (a : ClassAct O M)
    (as : List (ClassAct O M)) (ht : s.thr t = ⟨a :: as, .run⟩) : (a.precondition s.obj s.model).out = .ok true := by
  have key : ∀ s s' t, (ClassSuff rears s ∧ ∀ t a as, s.thr t = ⟨a :: as, .run⟩ →
      (a.precondition s.obj s.model).out = .ok true) → classStep s t = .running s' →
      (ClassSuff rears s' ∧ ∀ t a as, s'.thr t = ⟨a :: as, .run⟩ →
        (a.precondition s'.obj s'.model).out = .ok true) := by
    rintro s s' t ⟨h1, h2⟩ hs
    refine ⟨h1.step hs, ?_⟩
    unfold classStep at hs
    split at hs
    · cases hs; exact h2
    · next b bs hb =>
      split at hs
      · next hq =>
        cases hs
        intro u a as hu
        simp only [ClassSys.setThr] at hu ⊢
        split_ifs at hu with he
        · cases hu; exact hq
        · exact h2 u a as hu
      · cases hs
        intro u a as hu
        simp only [ClassSys.setThr] at hu ⊢
        split_ifs at hu with he
        · cases hu
        · exact h2 u a as hu
      · cases hs
      · cases hs
      · cases hs; exact h2
    · next b bs hb =>
      split at hs
      · next o m hq =>
        cases hs
        intro u a as hu
        simp only [ClassSys.setThr] at hu ⊢
        split_ifs at hu with he
        · cases hu
        · have m1 : a ∈ rears u := (h1 u).subset (by rw [hu]; simp)
          have m2 : b ∈ rears t := (h1 t).subset (by rw [hb]; simp)
          exact hst u t he a m1 b m2 _ _ _ _ (h2 u a as hu) hq
      · cases hs
      · cases hs
      · cases hs
      · cases hs; exact h2
    · next b bs hb =>
      cases hs
      intro u a as hu
      simp only [ClassSys.setThr] at hu ⊢
      split_ifs at hu with he
      · cases hu
      · exact h2 u a as hu
    · next b bs i hb =>
      split_ifs at hs
      cases hs
      intro u a as hu
      simp only [ClassSys.setThr] at hu ⊢
      split_ifs at hu with he
      · cases hu
      · exact h2 u a as hu
  refine (classRun_induction (P := fun s => ClassSuff rears s ∧ ∀ t a as, s.thr t = ⟨a :: as, .run⟩ →
      (a.precondition s.obj s.model).out = .ok true) key ⟨fun _ => List.suffix_refl _, ?_⟩ hr).2 t a as ht
  intro t a as h
  simp [classInit] at h

/-- Actions on different parts of the object do not interfere. -/
example (sched : List (Fin 2)) (s : ClassSys (Nat × Nat) Unit) (t : Fin 2) (a : ClassAct (Nat × Nat) Unit)
    (as : List (ClassAct (Nat × Nat) Unit))
    (hr : classRun sched (classInit (fun t => if t = 0
      then [⟨fun o _ => ⟨[], .ok (o.1 == 0)⟩, fun o _ => ⟨[], .ok (true, (o.1 + 1, o.2), ())⟩⟩]
      else [⟨fun o _ => ⟨[], .ok (o.2 == 0)⟩, fun o _ => ⟨[], .ok (true, (o.1, o.2 + 1), ())⟩⟩]) (0, 0) ()) = .running s)
    (ht : s.thr t = ⟨a :: as, .run⟩) : (a.precondition s.obj s.model).out = .ok true := by
  refine C116_precondition_partial _ _ _ sched ?_ s hr t a as ht
  intro t u htu a ha b hb o m o' m' h1 h2
  by_cases h : t = 0
  · have hu : u ≠ 0 := fun e => htu (h.trans e.symm)
    simp [h] at ha
    simp [hu] at hb
    subst ha hb
    simp at h1 h2 ⊢
    rw [← h2]; exact h1
  · have hu : u = 0 := by omega
    simp [h] at ha
    simp [hu] at hb
    subst ha hb
    simp at h1 h2 ⊢
    rw [← h2]; exact h1

end Concurrency
end Verif
