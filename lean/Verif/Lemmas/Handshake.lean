import Verif.Spec.Handshake
import Verif.Lemmas.ConcurrencyRun
import Mathlib.Algebra.BigOperators.Fin
import Mathlib.Algebra.Order.BigOperators.Group.Finset
/-! Helper lemmas about the creation, start and end of rear threads. -/
namespace Verif
open Stateful
namespace Concurrency
variable {N : Nat} {μ : Type}

/-- Steps of the threads alone. -/
def bodyRun (body : μ → Fin N → Res μ) : List (Fin N) → μ → Res μ
  | [], m => .running m
  | t :: sched, m =>
    match body m t with
    | .running m' => bodyRun body sched m'
    | .ub => .ub
    | .terminated => .terminated

theorem bodyRun_step {O M : Type} (sched : List (Fin N)) (s : Sys N O M) : bodyRun step sched s = run sched s := by
  induction sched generalizing s with
  | nil => rfl
  | cons t l ih =>
    simp only [bodyRun, run]
    cases step s t <;> simp [ih]

theorem bodyRun_classStep {O M : Type} (sched : List (Fin 2)) (s : ClassSys O M) :
    bodyRun classStep sched s = classRun sched s := by
  induction sched generalizing s with
  | nil => rfl
  | cons t l ih =>
    simp only [bodyRun, classRun]
    cases classStep s t <;> simp [ih]

theorem bodyRun_append (body : μ → Fin N → Res μ) (l l' : List (Fin N)) (m m' : μ)
    (h : bodyRun body l m = .running m') : bodyRun body (l ++ l') m = bodyRun body l' m' := by
  induction l generalizing m with
  | nil => simp only [bodyRun, Res.running.injEq] at h; subst h; rfl
  | cons t l ih =>
    simp only [bodyRun, List.cons_append] at h ⊢
    cases hb : body m t with
    | running m1 => rw [hb] at h; exact ih _ h
    | ub => rw [hb] at h; cases h
    | terminated => rw [hb] at h; cases h

theorem handRun_append (body : μ → Fin N → Res μ) (ended : μ → Fin N → Bool) (l l' : List (Option (Fin N)))
    (s s' : Hand N μ) (h : handRun body ended l s = .running s') :
    handRun body ended (l ++ l') s = handRun body ended l' s' := by
  induction l generalizing s with
  | nil => simp only [handRun, Res.running.injEq] at h; subst h; rfl
  | cons t l ih =>
    simp only [handRun, List.cons_append] at h ⊢
    cases hb : handStep body ended s t with
    | running m1 => rw [hb] at h; exact ih _ h
    | ub => rw [hb] at h; cases h
    | terminated => rw [hb] at h; cases h

/-- What always holds. -/
structure Hand.Ok (ended : μ → Fin N → Bool) (mem : μ) (s : Hand N μ) : Prop where
  unborn : ∀ t, s.pc t = .unborn ↔ ∃ i, s.main = .spawn i ∧ i ≤ t.val
  ready : ∀ t, s.ready t = true ↔ (s.pc t = .spin ∨ s.pc t = .body ∨ s.pc t = .exited)
  sync : s.sync = true ↔ (s.main = .after ∨ ∃ i, s.main = .join i)
  started : ∀ t, (s.pc t = .body ∨ s.pc t = .exited) → s.sync = true
  waited : ∀ i, s.main = .wait i → ∀ t : Fin N, t.val < i → s.ready t = true
  all : (s.main = .release ∨ s.sync = true) → ∀ t, s.ready t = true
  joined : ∀ i, s.main = .join i → ∀ t : Fin N, t.val < i → s.pc t = .exited
  done : s.main = .after → ∀ t, s.pc t = .exited
  mem : s.sync = false → s.mem = mem
  fin : ∀ t, s.pc t = .exited → ended s.mem t = true

theorem Hand.Ok.init (ended : μ → Fin N → Bool) (mem : μ) : (handInit N mem).Ok ended mem := by
  constructor <;> simp [handInit]

theorem Hand.Ok.mainStep {ended : μ → Fin N → Bool} {mem : μ} {s : Hand N μ} (h : s.Ok ended mem) :
    (mainStep s).Ok ended mem := by
  obtain ⟨h1, h2, h3, h4, h5, h6, h7, h8, h9, h10⟩ := h
  unfold Concurrency.mainStep
  cases hm : s.main with
  | spawn i =>
    simp only [hm, MainPc.spawn.injEq, exists_eq_left', reduceCtorEq, false_or, exists_false, or_false, iff_false,
      Bool.not_eq_true, false_implies, implies_true] at h1 h3 h5 h7 h8
    have hsync : s.sync = false := by simpa using h3
    by_cases hi : i < N
    · simp only [hi, dite_true]
      refine ⟨?_, ?_, ?_, ?_, ?_, ?_, ?_, ?_, ?_, ?_⟩
      · intro t
        simp only [MainPc.spawn.injEq, exists_eq_left']
        by_cases ht : t = ⟨i, hi⟩
        · subst ht; simp
        · have : t.val ≠ i := fun e => ht (Fin.ext e)
          simp only [ht, if_false, h1]; omega
      · intro t
        by_cases ht : t = ⟨i, hi⟩
        · subst ht
          have hu := (h1 ⟨i, hi⟩).2 (Nat.le_refl _)
          have := h2 ⟨i, hi⟩
          rw [hu] at this
          simp at this
          simp [this]
        · simp only [ht, if_false]; exact h2 t
      · simp [hsync]
      · intro t ht
        by_cases e : t = ⟨i, hi⟩
        · subst e; simp at ht
        · simp only [e, if_false] at ht; exact h4 t ht
      · simp
      · intro hh; simp [hsync] at hh
      · simp
      · simp
      · exact h9
      · intro t ht
        by_cases e : t = ⟨i, hi⟩
        · subst e; simp at ht
        · simp only [e, if_false] at ht; exact h10 t ht
    · simp only [hi, dite_false]
      refine ⟨?_, h2, by simp [hsync], h4, by simp, by simp [hsync], by simp, by simp, h9, h10⟩
      intro t
      simp only [reduceCtorEq, false_and, exists_false, iff_false]
      rw [h1]; have := t.isLt; omega
  | wait i =>
    simp only [hm, reduceCtorEq, false_and, exists_false, or_false, iff_false, Bool.not_eq_true, MainPc.wait.injEq,
      false_or] at h1 h3 h5 h6
    have hsync : s.sync = false := by simpa using h3
    by_cases hi : i < N
    · simp only [hi, dite_true]
      by_cases hr : s.ready ⟨i, hi⟩ = true
      · simp only [hr, if_true]
        refine ⟨?_, h2, by simp [hsync], h4, ?_, by simp [hsync], by simp, by simp, h9, h10⟩
        · intro t; simp only [reduceCtorEq, false_and, exists_false, iff_false]; exact h1 t
        · intro j hj t ht
          simp only [MainPc.wait.injEq] at hj
          subst hj
          by_cases e : t.val = i
          · have : t = ⟨i, hi⟩ := Fin.ext e
            rw [this]; exact hr
          · exact h5 i rfl t (by omega)
      · simp only [hr]
        refine ⟨?_, h2, by simp [hm, hsync], h4, ?_, by simp [hm, hsync], by simp [hm], by simp [hm], h9, h10⟩
        · intro t; simp [hm, h1]
        · intro j hj; simp [hm] at hj; exact h5 j hj
    · simp only [hi, dite_false]
      refine ⟨?_, h2, by simp [hsync], h4, by simp, ?_, by simp, by simp, h9, h10⟩
      · intro t; simp only [reduceCtorEq, false_and, exists_false, iff_false]; exact h1 t
      · intro _ t; exact h5 i rfl t (by have := t.isLt; omega)
  | release =>
    simp only [hm, reduceCtorEq, false_and, exists_false, iff_false, or_false, Bool.not_eq_true] at h1 h3 h6
    refine ⟨?_, h2, by simp, by simp, by simp, ?_, ?_, by simp, by simp, h10⟩
    · intro t; simp only [reduceCtorEq, false_and, exists_false, iff_false]; exact h1 t
    · intro _ t; exact h6 (by simp) t
    · intro j hj t ht; simp only [MainPc.join.injEq] at hj; omega
  | join i =>
    simp only [hm, reduceCtorEq, false_and, exists_false, iff_false, false_or, MainPc.join.injEq, exists_eq', iff_true]
      at h1 h3 h6 h7
    by_cases hi : i < N
    · simp only [hi, dite_true]
      by_cases hr : s.pc ⟨i, hi⟩ = .exited
      · simp only [hr, if_true]
        refine ⟨?_, h2, by simp [h3], h4, by simp, ?_, ?_, by simp, h9, h10⟩
        · intro t; simp only [reduceCtorEq, false_and, exists_false, iff_false]; exact h1 t
        · intro _; exact h6 h3
        · intro j hj t ht
          simp only [MainPc.join.injEq] at hj
          subst hj
          by_cases e : t.val = i
          · have : t = ⟨i, hi⟩ := Fin.ext e
            rw [this]; exact hr
          · exact h7 i rfl t (by omega)
      · simp only [hr, if_false]
        refine ⟨?_, h2, by simp [hm, h3], h4, by simp [hm], ?_, ?_, by simp [hm], h9, h10⟩
        · intro t; simp [hm, h1]
        · intro _; exact h6 h3
        · intro j hj; simp [hm] at hj; exact h7 j hj
    · simp only [hi, dite_false]
      refine ⟨?_, h2, by simp [h3], h4, by simp, ?_, by simp, ?_, h9, h10⟩
      · intro t; simp only [reduceCtorEq, false_and, exists_false, iff_false]; exact h1 t
      · intro _; exact h6 h3
      · intro _ t; exact h7 i rfl t (by have := t.isLt; omega)
  | after => exact ⟨h1, h2, h3, h4, h5, h6, h7, h8, h9, h10⟩

/-- A thread at the end of its list stays there. -/
def Stable (body : μ → Fin N → Res μ) (ended : μ → Fin N → Bool) : Prop :=
  ∀ m m' t u, ended m t = true → body m u = .running m' → ended m' t = true

theorem Hand.Ok.rearStep {body : μ → Fin N → Res μ} {ended : μ → Fin N → Bool} (hst : Stable body ended) {mem : μ}
    {s s' : Hand N μ} (h : s.Ok ended mem) {t : Fin N} (e : rearStep body ended s t = .running s') :
    s'.Ok ended mem := by
  have hs := h
  obtain ⟨h1, h2, h3, h4, h5, h6, h7, h8, h9, h10⟩ := h
  unfold Concurrency.rearStep at e
  cases hp : s.pc t with
  | unborn => simp only [hp, Res.running.injEq] at e; subst e; exact hs
  | exited => simp only [hp, Res.running.injEq] at e; subst e; exact hs
  | hello =>
    simp only [hp, Res.running.injEq] at e; subst e
    have hu : ¬ ∃ i, s.main = .spawn i ∧ i ≤ t.val := by rw [← h1, hp]; simp
    refine ⟨?_, ?_, h3, ?_, ?_, ?_, ?_, ?_, h9, ?_⟩
    · intro u
      by_cases ht : u = t
      · subst ht; simpa using hu
      · simp only [ht, if_false]; exact h1 u
    · intro u
      by_cases ht : u = t
      · subst ht; simp
      · simp only [ht, if_false]; exact h2 u
    · intro u
      by_cases ht : u = t
      · subst ht; simp
      · simp only [ht, if_false]; exact h4 u
    · intro i hi u hlt
      by_cases ht : u = t
      · subst ht; simp
      · simp only [ht, if_false]; exact h5 i hi u hlt
    · intro hh u
      by_cases ht : u = t
      · subst ht; simp
      · simp only [ht, if_false]; exact h6 hh u
    · intro i hi u hlt
      by_cases ht : u = t
      · subst ht; have := h7 i hi u hlt; rw [hp] at this; cases this
      · simp only [ht, if_false]; exact h7 i hi u hlt
    · intro hi u
      by_cases ht : u = t
      · subst ht; have := h8 hi u; rw [hp] at this; cases this
      · simp only [ht, if_false]; exact h8 hi u
    · intro u
      by_cases ht : u = t
      · subst ht; simp
      · simp only [ht, if_false]; exact h10 u
  | spin =>
    simp only [hp, Res.running.injEq] at e
    by_cases hsy : s.sync = true
    · rw [if_pos hsy] at e
      subst e
      have hu : ¬ ∃ i, s.main = .spawn i ∧ i ≤ t.val := by rw [← h1, hp]; simp
      have hr : s.ready t = true := by rw [h2]; exact .inl hp
      refine ⟨?_, ?_, h3, ?_, h5, h6, ?_, ?_, h9, ?_⟩
      · intro u
        by_cases ht : u = t
        · subst ht; simpa using hu
        · simp only [ht, if_false]; exact h1 u
      · intro u
        by_cases ht : u = t
        · subst ht; simp [hr]
        · simp only [ht, if_false]; exact h2 u
      · intro u _; exact hsy
      · intro i hi u hlt
        by_cases ht : u = t
        · subst ht; have := h7 i hi u hlt; rw [hp] at this; cases this
        · simp only [ht, if_false]; exact h7 i hi u hlt
      · intro hi u
        by_cases ht : u = t
        · subst ht; have := h8 hi u; rw [hp] at this; cases this
        · simp only [ht, if_false]; exact h8 hi u
      · intro u
        by_cases ht : u = t
        · subst ht; simp
        · simp only [ht, if_false]; exact h10 u
    · simp only [hsy] at e; subst e; exact hs
  | body =>
    have hsy := h4 t (.inl hp)
    simp only [hp] at e
    by_cases hen : ended s.mem t = true
    · simp only [hen, if_true, Res.running.injEq] at e
      subst e
      have hu : ¬ ∃ i, s.main = .spawn i ∧ i ≤ t.val := by rw [← h1, hp]; simp
      have hr : s.ready t = true := by rw [h2]; exact .inr (.inl hp)
      refine ⟨?_, ?_, h3, ?_, h5, h6, ?_, ?_, h9, ?_⟩
      · intro u
        by_cases ht : u = t
        · subst ht; simpa using hu
        · simp only [ht, if_false]; exact h1 u
      · intro u
        by_cases ht : u = t
        · subst ht; simp [hr]
        · simp only [ht, if_false]; exact h2 u
      · intro u _; exact hsy
      · intro i hi u hlt
        by_cases ht : u = t
        · subst ht; simp
        · simp only [ht, if_false]; exact h7 i hi u hlt
      · intro hi u
        by_cases ht : u = t
        · subst ht; simp
        · simp only [ht, if_false]; exact h8 hi u
      · intro u
        by_cases ht : u = t
        · subst ht; intro _; exact hen
        · simp only [ht, if_false]; exact h10 u
    · simp only [hen] at e
      cases hb : body s.mem t with
      | running m =>
        simp only [hb, Bool.false_eq_true, if_false, Res.running.injEq] at e
        subst e
        exact ⟨h1, h2, h3, h4, h5, h6, h7, h8, (by simp [hsy]), fun u hu => hst _ _ _ _ (h10 u hu) hb⟩
      | ub => simp [hb] at e
      | terminated => simp [hb] at e

theorem Hand.Ok.step {body : μ → Fin N → Res μ} {ended : μ → Fin N → Bool} (hst : Stable body ended) {mem : μ}
    {s s' : Hand N μ} (h : s.Ok ended mem) {a : Option (Fin N)} (e : handStep body ended s a = .running s') :
    s'.Ok ended mem := by
  cases a with
  | none => simp only [handStep, Res.running.injEq] at e; subst e; exact h.mainStep
  | some t => exact h.rearStep hst e

theorem Hand.Ok.run {body : μ → Fin N → Res μ} {ended : μ → Fin N → Bool} (hst : Stable body ended) {mem : μ}
    {s s' : Hand N μ} (h : s.Ok ended mem) {l : List (Option (Fin N))} (e : handRun body ended l s = .running s') :
    s'.Ok ended mem := by
  induction l generalizing s with
  | nil => simp only [handRun, Res.running.injEq] at e; subst e; exact h
  | cons a l ih =>
    simp only [handRun] at e
    cases hb : handStep body ended s a with
    | running m1 => rw [hb] at e; exact ih (h.step hst hb) e
    | ub => rw [hb] at e; cases e
    | terminated => rw [hb] at e; cases e

/-! ### The memory evolves by steps of threads only -/

theorem mainStep_mem (s : Hand N μ) : (mainStep s).mem = s.mem := by
  unfold mainStep
  split
  · split <;> rfl
  · split
    · split <;> rfl
    · rfl
  · rfl
  · split
    · split <;> rfl
    · rfl
  · rfl

theorem handRun_sim (body : μ → Fin N → Res μ) (ended : μ → Fin N → Bool) (l : List (Option (Fin N))) (s : Hand N μ) :
    ∃ l', bodyRun body l' s.mem = (handRun body ended l s).mapMem := by
  induction l generalizing s with
  | nil => exact ⟨[], rfl⟩
  | cons a l ih =>
    cases a with
    | none =>
      obtain ⟨l', h⟩ := ih (mainStep s)
      exact ⟨l', by simpa only [handRun, handStep, mainStep_mem] using h⟩
    | some t =>
      simp only [handRun, handStep]
      cases hr : rearStep body ended s t with
      | running s' =>
        obtain ⟨l', h⟩ := ih s'
        unfold rearStep at hr
        split at hr
        · simp only [Res.running.injEq] at hr; subst hr; exact ⟨l', h⟩
        · simp only [Res.running.injEq] at hr; subst hr; exact ⟨l', h⟩
        · simp only [Res.running.injEq] at hr
          split at hr
          · subst hr; exact ⟨l', h⟩
          · subst hr; exact ⟨l', h⟩
        · split at hr
          · simp only [Res.running.injEq] at hr; subst hr; exact ⟨l', h⟩
          · split at hr
            · rename_i m hb
              simp only [Res.running.injEq] at hr
              subst hr
              refine ⟨t :: l', ?_⟩
              simp only [bodyRun, hb]
              exact h
            · cases hr
            · cases hr
        · simp only [Res.running.injEq] at hr; subst hr; exact ⟨l', h⟩
      | ub =>
        refine ⟨[t], ?_⟩
        unfold rearStep at hr
        split at hr
        · cases hr
        · cases hr
        · cases hr
        · split at hr
          · cases hr
          · split at hr
            · cases hr
            · rename_i hb
              simp [bodyRun, hb, Res.mapMem]
            · cases hr
        · cases hr
      | terminated =>
        refine ⟨[t], ?_⟩
        unfold rearStep at hr
        split at hr
        · cases hr
        · cases hr
        · cases hr
        · split at hr
          · cases hr
          · split at hr
            · cases hr
            · cases hr
            · rename_i hb
              simp [bodyRun, hb, Res.mapMem]
        · cases hr

/-! ### Fair executions come to an end -/

/-- Steps a thread has left outside of its list. -/
def RearPc.left : RearPc → Nat
  | .unborn => 4
  | .hello => 3
  | .spin => 2
  | .body => 1
  | .exited => 0

/-- Steps the spawner has left. -/
def MainPc.left (N : Nat) : MainPc → Nat
  | .spawn i => (N - i) + 2 * N + 4
  | .wait i => (N - i) + N + 3
  | .release => N + 2
  | .join i => (N - i) + 1
  | .after => 0

/-- All steps left. -/
def Hand.left (rank : μ → Nat) (s : Hand N μ) : Nat := s.main.left N + (∑ t, (s.pc t).left) + rank s.mem

theorem sum_pc_lt {pc : Fin N → RearPc} {t : Fin N} {p : RearPc} (h : p.left < (pc t).left) :
    ∑ u, (if u = t then p else pc u).left < ∑ u, (pc u).left := by
  refine Finset.sum_lt_sum (fun u _ => ?_) ⟨t, Finset.mem_univ _, by simpa using h⟩
  by_cases e : u = t
  · subst e; simp only [if_true]; omega
  · simp [e]

/-- What a step does to an execution: nothing, or it comes closer to the end. -/
theorem handStep_left {body : μ → Fin N → Res μ} {ended : μ → Fin N → Bool} {rank : μ → Nat} {mem : μ} {P : μ → Prop}
    (hrank : ∀ m t, P m → ended m t = false → ∃ m', body m t = .running m' ∧ P m' ∧ rank m' < rank m)
    {s : Hand N μ} (h : s.Ok ended mem) (hP : P s.mem) (a : Option (Fin N)) :
    ∃ s', handStep body ended s a = .running s' ∧ P s'.mem ∧ (s' = s ∨ s'.left rank < s.left rank) := by
  cases a with
  | none =>
    refine ⟨mainStep s, rfl, by rwa [mainStep_mem], ?_⟩
    unfold mainStep
    split
    · rename_i i hm
      right
      split
      · rename_i hi
        have hu : s.pc ⟨i, hi⟩ = .unborn := (h.unborn _).2 ⟨i, hm, Nat.le_refl _⟩
        have := sum_pc_lt (pc := s.pc) (t := ⟨i, hi⟩) (p := .hello) (by simp [hu, RearPc.left])
        simp only [Hand.left, hm, MainPc.left]
        omega
      · simp only [Hand.left, hm, MainPc.left]
        omega
    · rename_i i hm
      split
      · split
        · right; simp only [Hand.left, hm, MainPc.left]; omega
        · left; rfl
      · right; simp only [Hand.left, hm, MainPc.left]; omega
    · rename_i hm
      right; simp only [Hand.left, hm, MainPc.left]; omega
    · rename_i i hm
      split
      · split
        · right; simp only [Hand.left, hm, MainPc.left]; omega
        · left; rfl
      · right; simp only [Hand.left, hm, MainPc.left]; omega
    · left; rfl
  | some t =>
    simp only [handStep, rearStep]
    split
    · exact ⟨s, rfl, hP, .inl rfl⟩
    · rename_i hp
      refine ⟨_, rfl, hP, .inr ?_⟩
      have := sum_pc_lt (pc := s.pc) (t := t) (p := .spin) (by simp [hp, RearPc.left])
      simp only [Hand.left]; omega
    · rename_i hp
      refine ⟨_, rfl, by split <;> exact hP, ?_⟩
      split
      · right
        have := sum_pc_lt (pc := s.pc) (t := t) (p := .body) (by simp [hp, RearPc.left])
        simp only [Hand.left]; omega
      · left; rfl
    · rename_i hp
      split
      · refine ⟨_, rfl, hP, .inr ?_⟩
        have := sum_pc_lt (pc := s.pc) (t := t) (p := .exited) (by simp [hp, RearPc.left])
        simp only [Hand.left]; omega
      · rename_i hen
        obtain ⟨m', e, hP', hlt⟩ := hrank s.mem t hP (by simpa using hen)
        rw [e]
        refine ⟨_, rfl, hP', .inr ?_⟩
        simp only [Hand.left]; omega
    · exact ⟨s, rfl, hP, .inl rfl⟩

/-- As long as the spawner has not joined all threads, somebody can go on. -/
theorem exists_enabled {body : μ → Fin N → Res μ} {ended : μ → Fin N → Bool} {rank : μ → Nat} {mem : μ} {P : μ → Prop}
    (hrank : ∀ m t, P m → ended m t = false → ∃ m', body m t = .running m' ∧ P m' ∧ rank m' < rank m)
    {s : Hand N μ} (h : s.Ok ended mem) (hP : P s.mem) (hm : s.main ≠ .after) :
    ∃ a s', handStep body ended s a = .running s' ∧ s' ≠ s := by
  have hne : ∀ {s' : Hand N μ}, s'.main ≠ s.main → s' ≠ s := fun h e => h (by rw [e])
  cases hmm : s.main with
  | spawn i =>
    refine ⟨none, _, rfl, hne ?_⟩
    simp only [mainStep, hmm]
    split <;> simp
  | release => exact ⟨none, _, rfl, hne (by simp [mainStep, hmm])⟩
  | after => exact absurd hmm hm
  | wait i =>
    by_cases hi : i < N
    · by_cases hr : s.ready ⟨i, hi⟩ = true
      · exact ⟨none, _, rfl, hne (by simp [mainStep, hmm, hi, hr])⟩
      · have hu : s.pc ⟨i, hi⟩ ≠ .unborn := by rw [Ne, h.unborn]; simp [hmm]
        have hp : s.pc ⟨i, hi⟩ = .hello := by
          have := h.ready ⟨i, hi⟩
          cases hp : s.pc ⟨i, hi⟩ <;> simp_all
        refine ⟨some ⟨i, hi⟩, ?_⟩
        simp only [handStep, rearStep, hp]
        refine ⟨_, rfl, fun e => ?_⟩
        have := congrArg (fun x : Hand N μ => x.pc ⟨i, hi⟩) e
        simp [hp] at this
    · exact ⟨none, _, rfl, hne (by simp [mainStep, hmm, hi])⟩
  | join i =>
    by_cases hi : i < N
    · by_cases hr : s.pc ⟨i, hi⟩ = .exited
      · exact ⟨none, _, rfl, hne (by simp [mainStep, hmm, hi, hr])⟩
      · have hsync : s.sync = true := h.sync.2 (.inr ⟨i, hmm⟩)
        have hrd := (h.ready ⟨i, hi⟩).1 (h.all (.inr hsync) _)
        refine ⟨some ⟨i, hi⟩, ?_⟩
        rcases hrd with hp | hp | hp
        · simp only [handStep, rearStep, hp, hsync, if_true]
          refine ⟨_, rfl, fun e => ?_⟩
          have := congrArg (fun x : Hand N μ => x.pc ⟨i, hi⟩) e
          simp [hp] at this
        · simp only [handStep, rearStep, hp]
          by_cases hen : ended s.mem ⟨i, hi⟩ = true
          · simp only [hen, if_true]
            refine ⟨_, rfl, fun e => ?_⟩
            have := congrArg (fun x : Hand N μ => x.pc ⟨i, hi⟩) e
            simp [hp] at this
          · obtain ⟨m', e, _, hlt⟩ := hrank s.mem ⟨i, hi⟩ hP (by simpa using hen)
            rw [e]
            simp only [hen]
            refine ⟨_, rfl, fun e' => ?_⟩
            have := congrArg Hand.mem e'
            simp only at this
            rw [this] at hlt
            omega
        · exact absurd hp hr
    · exact ⟨none, _, rfl, hne (by simp [mainStep, hmm, hi])⟩

/-- Under a fair scheduler the spawner joins all threads. -/
theorem fair_ends {body : μ → Fin N → Res μ} {ended : μ → Fin N → Bool} (hst : Stable body ended) {rank : μ → Nat}
    {mem : μ} {P : μ → Prop}
    (hrank : ∀ m t, P m → ended m t = false → ∃ m', body m t = .running m' ∧ P m' ∧ rank m' < rank m)
    (hP : P mem) (σ : Nat → Option (Fin N)) (hfair : ∀ a k, ∃ j, k ≤ j ∧ σ j = a) :
    ∃ n s, handRun body ended ((List.range n).map σ) (handInit N mem) = .running s ∧ s.main = .after := by
  suffices H : ∀ (b : Nat) (n : Nat) (s : Hand N μ), s.left rank ≤ b →
      handRun body ended ((List.range n).map σ) (handInit N mem) = .running s → P s.mem →
      ∃ n s, handRun body ended ((List.range n).map σ) (handInit N mem) = .running s ∧ s.main = .after from
    H _ 0 (handInit N mem) (Nat.le_refl _) rfl hP
  have hnext : ∀ n s s', handRun body ended ((List.range n).map σ) (handInit N mem) = .running s →
      handStep body ended s (σ n) = .running s' →
      handRun body ended ((List.range (n + 1)).map σ) (handInit N mem) = .running s' := by
    intro n s s' h1 h2
    rw [List.range_succ, List.map_append, handRun_append _ _ _ _ _ _ h1]
    simp [handRun, h2]
  intro b
  induction b with
  | zero =>
    intro n s hb hrun hPs
    refine ⟨n, s, hrun, ?_⟩
    simp only [Hand.left] at hb
    have : s.main.left N = 0 := by omega
    cases hm : s.main with
    | after => rfl
    | _ => simp [hm, MainPc.left] at this
  | succ b ih =>
    intro n s hb hrun hPs
    by_cases hm : s.main = .after
    · exact ⟨n, s, hrun, hm⟩
    have hok := (Hand.Ok.init ended mem).run hst hrun
    obtain ⟨a, s', he, hne⟩ := exists_enabled hrank hok hPs hm
    obtain ⟨j, hj, hja⟩ := hfair a n
    -- until step `j` either nothing happens or something does
    obtain ⟨d, rfl⟩ := Nat.exists_eq_add_of_le hj
    clear hj
    induction d generalizing n with
    | zero =>
      obtain ⟨s1, e1, hP1, hor⟩ := handStep_left hrank hok hPs a
      rw [he] at e1
      simp only [Res.running.injEq] at e1
      subst e1
      rcases hor with h | h
      · exact absurd h hne
      · exact ih (n + 1) s' (by omega) (hnext n s s' hrun (by rw [Nat.add_zero] at hja; rw [hja]; exact he)) hP1
    | succ d ihd =>
      obtain ⟨s1, e1, hP1, hor⟩ := handStep_left hrank hok hPs (σ n)
      have h1 := hnext n s s1 hrun e1
      rcases hor with h | h
      · subst h
        exact ihd (n + 1) h1 (by rw [← hja]; congr 1; omega)
      · exact ih (n + 1) s1 (by omega) h1 hP1

/-! ### Every execution of the bodies is one of the whole -/

/-- The spawner alone for `k` steps. -/
theorem handRun_none (body : μ → Fin N → Res μ) (ended : μ → Fin N → Bool) (k : Nat) (s : Hand N μ) :
    handRun body ended (List.replicate k none) s = .running (mainStep^[k] s) := by
  induction k generalizing s with
  | zero => rfl
  | succ k ih =>
    rw [List.replicate_succ, Function.iterate_succ_apply, ← ih]
    rfl

theorem spawnAll (k : Nat) (hk : k ≤ N) (mem : μ) :
    mainStep^[k] (handInit N mem) =
      ⟨.spawn k, false, fun _ => false, fun u => if u.val < k then .hello else .unborn, mem⟩ := by
  induction k with
  | zero => simp [handInit]
  | succ k ih =>
    rw [Function.iterate_succ_apply', ih (by omega)]
    have hk' : k < N := by omega
    simp only [mainStep, hk', dite_true, Hand.mk.injEq, true_and, and_true]
    funext u
    by_cases e : u = ⟨k, hk'⟩
    · subst e; simp
    · have : u.val ≠ k := fun h => e (Fin.ext h)
      simp only [e, if_false]
      by_cases h : u.val < k
      · simp [h, Nat.lt_succ_of_lt h]
      · simp [h, show ¬ u.val < k + 1 by omega]

/-- Each of a list of threads takes a step that changes only its own flags. -/
theorem handRun_hello (body : μ → Fin N → Res μ) (ended : μ → Fin N → Bool) (l : List (Fin N)) (hl : l.Nodup)
    (s : Hand N μ) (hs : ∀ t ∈ l, s.pc t = .hello) :
    handRun body ended (l.map some) s = .running { s with
      ready := fun u => if u ∈ l then true else s.ready u
      pc := fun u => if u ∈ l then .spin else s.pc u } := by
  induction l generalizing s with
  | nil => simp [handRun]
  | cons t l ih =>
    have ht : s.pc t = .hello := hs t (by simp)
    simp only [List.map_cons, handRun, handStep, rearStep, ht]
    have hn := List.nodup_cons.1 hl
    rw [ih hn.2 _ (fun u hu => by
      have : u ≠ t := fun e => hn.1 (e ▸ hu)
      simp only [this, if_false]; exact hs u (by simp [hu]))]
    simp only [Res.running.injEq, Hand.mk.injEq, true_and, and_true]
    constructor
    · funext u; by_cases e : u = t <;> by_cases e' : u ∈ l <;> simp [e, e']
    · funext u; by_cases e : u = t <;> by_cases e' : u ∈ l <;> simp [e, e']

theorem waitAll (k : Nat) (s : Hand N μ) (h0 : s.main = .wait 0) (hr : ∀ t, s.ready t = true) (hk : k ≤ N) :
    mainStep^[k] s = { s with main := .wait k } := by
  induction k with
  | zero => simp [← h0]
  | succ k ih =>
    rw [Function.iterate_succ_apply', ih (by omega)]
    have hk' : k < N := by omega
    simp [mainStep, hk', hr]

theorem handRun_spin (body : μ → Fin N → Res μ) (ended : μ → Fin N → Bool) (l : List (Fin N)) (hl : l.Nodup)
    (s : Hand N μ) (hsync : s.sync = true) (hs : ∀ t ∈ l, s.pc t = .spin) :
    handRun body ended (l.map some) s = .running { s with pc := fun u => if u ∈ l then .body else s.pc u } := by
  induction l generalizing s with
  | nil => simp [handRun]
  | cons t l ih =>
    have ht : s.pc t = .spin := hs t (by simp)
    simp only [List.map_cons, handRun, handStep, rearStep, ht]
    rw [if_pos hsync]
    have hn := List.nodup_cons.1 hl
    rw [ih hn.2 { s with pc := fun u => if u = t then .body else s.pc u } hsync (fun u hu => by
      have : u ≠ t := fun e => hn.1 (e ▸ hu)
      simp only [this, if_false]; exact hs u (by simp [hu]))]
    simp only [Res.running.injEq, Hand.mk.injEq, true_and, and_true]
    funext u; by_cases e : u = t <;> by_cases e' : u ∈ l <;> simp [e, e']

/-- All threads can be brought to the start of their list before anything else happens. -/
theorem exists_start (body : μ → Fin N → Res μ) (ended : μ → Fin N → Bool) (mem : μ) :
    ∃ l, handRun body ended l (handInit N mem) =
      .running ⟨.join 0, true, fun _ => true, fun _ => .body, mem⟩ := by
  refine ⟨List.replicate (N + 1) none ++ ((List.finRange N).map some ++ (List.replicate (N + 2) none ++
    (List.finRange N).map some)), ?_⟩
  have e1 : mainStep^[N + 1] (handInit N mem) = ⟨.wait 0, false, fun _ => false, fun _ => .hello, mem⟩ := by
    rw [Function.iterate_succ_apply', spawnAll N (Nat.le_refl _)]
    simp [mainStep]
  rw [handRun_append _ _ _ _ _ _ ((handRun_none body ended _ _).trans (by rw [e1]))]
  rw [handRun_append _ _ _ _ _ _ (handRun_hello body ended _ (List.nodup_finRange N) _ (by simp))]
  have e2 : mainStep^[N + 2] (⟨.wait 0, false, fun _ => true, fun _ => .spin, mem⟩ : Hand N μ) =
      ⟨.join 0, true, fun _ => true, fun _ => .spin, mem⟩ := by
    rw [Function.iterate_succ_apply', Function.iterate_succ_apply', waitAll N _ rfl (by simp) (Nat.le_refl _)]
    simp [mainStep]
  simp only [List.mem_finRange, if_true]
  rw [handRun_append _ _ _ _ _ _ ((handRun_none body ended _ _).trans (by rw [e2]))]
  rw [handRun_spin body ended _ (List.nodup_finRange N) _ rfl (by simp)]
  simp

/-- Executions of started threads: steps at the end of the list aside, they are those of the bodies. -/
theorem handRun_body (body : μ → Fin N → Res μ) (ended : μ → Fin N → Bool)
    (hid : ∀ m t, ended m t = true → body m t = .running m) (l : List (Fin N)) (s : Hand N μ)
    (hs : ∀ t, s.pc t = .body ∨ s.pc t = .exited) (hx : ∀ t, s.pc t = .exited → ended s.mem t = true)
    (hst : Stable body ended) :
    (handRun body ended (l.map some) s).mapMem = bodyRun body l s.mem := by
  induction l generalizing s with
  | nil => rfl
  | cons t l ih =>
    simp only [List.map_cons, handRun, handStep, rearStep, bodyRun]
    rcases hs t with hp | hp
    · simp only [hp]
      by_cases hen : ended s.mem t = true
      · simp only [hen, if_true, hid _ _ hen]
        refine ih _ (fun u => ?_) (fun u hu => ?_)
        · by_cases e : u = t
          · simp [e]
          · simp only [e, if_false]; exact hs u
        · by_cases e : u = t
          · rw [e]; exact hen
          · simp only [e, if_false] at hu; exact hx u hu
      · cases hb : body s.mem t with
        | running m =>
          simp only [hen, Bool.false_eq_true, if_false]
          exact ih _ hs (fun u hu => hst _ _ _ _ (hx u hu) hb)
        | ub => simp [hen, Res.mapMem]
        | terminated => simp [hen, Res.mapMem]
    · simp only [hp, hid _ _ (hx t hp)]
      exact ih _ hs hx

theorem exists_handRun (body : μ → Fin N → Res μ) (ended : μ → Fin N → Bool)
    (hid : ∀ m t, ended m t = true → body m t = .running m) (hst : Stable body ended) (l : List (Fin N)) (mem : μ) :
    ∃ l', (handRun body ended l' (handInit N mem)).mapMem = bodyRun body l mem := by
  obtain ⟨l0, h0⟩ := exists_start body ended mem
  refine ⟨l0 ++ l.map some, ?_⟩
  rw [handRun_append _ _ _ _ _ _ h0]
  exact handRun_body body ended hid l _ (by simp) (by simp) hst

/-- All threads return. -/
theorem handRun_exit (body : μ → Fin N → Res μ) (ended : μ → Fin N → Bool) (l : List (Fin N))
    (s : Hand N μ) (hs : ∀ t, s.pc t = .body ∨ s.pc t = .exited) (hen : ∀ t, ended s.mem t = true) :
    handRun body ended (l.map some) s = .running { s with pc := fun u => if u ∈ l then .exited else s.pc u } := by
  induction l generalizing s with
  | nil => simp [handRun]
  | cons t l ih =>
    simp only [List.map_cons, handRun, handStep, rearStep]
    rcases hs t with hp | hp
    · simp only [hp, hen, if_true]
      rw [ih { s with pc := fun u => if u = t then .exited else s.pc u } (fun u => by
        by_cases e : u = t
        · simp [e]
        · simp only [e, if_false]; exact hs u) hen]
      simp only [Res.running.injEq, Hand.mk.injEq, true_and, and_true]
      funext u; by_cases e : u = t <;> by_cases e' : u ∈ l <;> simp [e, e']
    · simp only [hp]
      rw [ih s hs hen]
      simp only [Res.running.injEq, Hand.mk.injEq, true_and, and_true]
      funext u; by_cases e : u = t <;> by_cases e' : u ∈ l <;> simp [e, e', hp]

theorem joinAll (k : Nat) (s : Hand N μ) (h0 : s.main = .join 0) (hr : ∀ t, s.pc t = .exited) (hk : k ≤ N) :
    mainStep^[k] s = { s with main := .join k } := by
  induction k with
  | zero => simp [← h0]
  | succ k ih =>
    rw [Function.iterate_succ_apply', ih (by omega)]
    have hk' : k < N := by omega
    simp [mainStep, hk', hr]

/-- Steps of threads do not move the spawner. -/
theorem handRun_some_main (body : μ → Fin N → Res μ) (ended : μ → Fin N → Bool) (l : List (Fin N)) (s s' : Hand N μ)
    (hs : ∀ t, s.pc t = .body ∨ s.pc t = .exited) (h : handRun body ended (l.map some) s = .running s') :
    s'.main = s.main ∧ s'.sync = s.sync ∧ s'.ready = s.ready ∧ ∀ t, s'.pc t = .body ∨ s'.pc t = .exited := by
  induction l generalizing s with
  | nil => simp only [List.map_nil, handRun, Res.running.injEq] at h; subst h; exact ⟨rfl, rfl, rfl, hs⟩
  | cons t l ih =>
    simp only [List.map_cons, handRun, handStep, rearStep] at h
    rcases hs t with hp | hp
    · simp only [hp] at h
      by_cases hen : ended s.mem t = true
      · simp only [hen, if_true] at h
        exact ih { s with pc := fun u => if u = t then .exited else s.pc u } (fun u => by
          by_cases e : u = t
          · simp [e]
          · simp only [e, if_false]; exact hs u) h
      · cases hb : body s.mem t with
        | running m =>
          simp only [hen, hb, Bool.false_eq_true, if_false] at h
          exact ih { s with mem := m } hs h
        | ub => simp [hen, hb] at h
        | terminated => simp [hen, hb] at h
    · simp only [hp] at h
      exact ih s hs h

/-- An execution of the bodies to their ends is one of the whole in which the spawner joins all threads. -/
theorem exists_handRun_after (body : μ → Fin N → Res μ) (ended : μ → Fin N → Bool)
    (hid : ∀ m t, ended m t = true → body m t = .running m) (hst : Stable body ended) (l : List (Fin N)) (mem m : μ)
    (h : bodyRun body l mem = .running m) (hen : ∀ t, ended m t = true) :
    ∃ l' s, handRun body ended l' (handInit N mem) = .running s ∧ s.main = .after ∧ s.mem = m := by
  obtain ⟨l0, h0⟩ := exists_start body ended mem
  have h1 := handRun_body body ended hid l ⟨.join 0, true, fun _ => true, fun _ => .body, mem⟩ (by simp) (by simp) hst
  rw [h] at h1
  cases h2 : handRun body ended (l.map some) (⟨.join 0, true, fun _ => true, fun _ => .body, mem⟩ : Hand N μ) with
  | ub => rw [h2] at h1; cases h1
  | terminated => rw [h2] at h1; cases h1
  | running s =>
    rw [h2] at h1
    simp only [Res.mapMem, Res.running.injEq] at h1
    obtain ⟨k1, k2, k3, k4⟩ := handRun_some_main body ended l _ _ (by simp) h2
    have h3 := handRun_exit body ended (List.finRange N) s k4 (by rw [h1]; exact hen)
    simp only [List.mem_finRange, if_true] at h3
    refine ⟨l0 ++ (l.map some ++ ((List.finRange N).map some ++ List.replicate (N + 1) none)),
      mainStep^[N + 1] { s with pc := fun _ => .exited }, ?_, ?_⟩
    · rw [handRun_append _ _ _ _ _ _ h0, handRun_append _ _ _ _ _ _ h2, handRun_append _ _ _ _ _ _ h3, handRun_none]
    · rw [Function.iterate_succ_apply', joinAll N { s with pc := fun _ => .exited } k1 (by simp) (Nat.le_refl _)]
      simp [mainStep, h1]

/-! ### The two styles -/

section Styles
variable {O M : Type}

theorem fn_stable : Stable (step (N := N) (O := O) (M := M)) fnEnded := by
  intro m m' t u h e
  simp only [fnEnded, List.isEmpty_iff] at h ⊢
  unfold step at e
  split at e
  · simp only [Res.running.injEq] at e; subst e; exact h
  · next ht =>
    have hu : t ≠ u := fun e' => by subst e'; rw [ht] at h; cases h
    simp only [Res.running.injEq] at e; subst e; simpa [Sys.setThr, hu] using h
  · next ht =>
    have hu : t ≠ u := fun e' => by subst e'; rw [ht] at h; cases h
    split at e
    · simp only [Res.running.injEq] at e; subst e; simpa [Sys.setThr, hu] using h
    · cases e
  · next ht =>
    have hu : t ≠ u := fun e' => by subst e'; rw [ht] at h; cases h
    split at e
    · simp only [Res.running.injEq] at e; subst e; simpa [Sys.setThr, hu] using h
    · cases e
    · cases e
    · simp only [Res.running.injEq] at e; subst e; exact h
  · next ht =>
    have hu : t ≠ u := fun e' => by subst e'; rw [ht] at h; cases h
    simp only [Res.running.injEq] at e; subst e; simpa [Sys.setThr, hu] using h
  · next ht =>
    have hu : t ≠ u := fun e' => by subst e'; rw [ht] at h; cases h
    split at e
    · simp only [Res.running.injEq] at e; subst e; simpa [Sys.setThr, hu] using h
    · cases e

theorem fn_idle (m : Sys N O M) (t : Fin N) (h : fnEnded m t = true) : step m t = .running m := by
  simp only [fnEnded, List.isEmpty_iff] at h
  unfold step
  split
  · rfl
  all_goals next ht => rw [ht] at h; cases h

theorem class_stable : Stable (classStep (O := O) (M := M)) classEnded := by
  intro m m' t u h e
  simp only [classEnded, List.isEmpty_iff] at h ⊢
  unfold classStep at e
  split at e
  · simp only [Res.running.injEq] at e; subst e; exact h
  · next ht =>
    have hu : t ≠ u := fun e' => by subst e'; rw [ht] at h; cases h
    split at e
    · simp only [Res.running.injEq] at e; subst e; simpa [ClassSys.setThr, hu] using h
    · simp only [Res.running.injEq] at e; subst e; simpa [ClassSys.setThr, hu] using h
    · cases e
    · cases e
    · simp only [Res.running.injEq] at e; subst e; exact h
  · next ht =>
    have hu : t ≠ u := fun e' => by subst e'; rw [ht] at h; cases h
    split at e
    · simp only [Res.running.injEq] at e; subst e; simpa [ClassSys.setThr, hu] using h
    · cases e
    · cases e
    · cases e
    · simp only [Res.running.injEq] at e; subst e; exact h
  · next ht =>
    have hu : t ≠ u := fun e' => by subst e'; rw [ht] at h; cases h
    simp only [Res.running.injEq] at e; subst e; simpa [ClassSys.setThr, hu] using h
  · next ht =>
    have hu : t ≠ u := fun e' => by subst e'; rw [ht] at h; cases h
    split at e
    · simp only [Res.running.injEq] at e; subst e; simpa [ClassSys.setThr, hu] using h
    · cases e

theorem class_idle (m : ClassSys O M) (t : Fin 2) (h : classEnded m t = true) : classStep m t = .running m := by
  simp only [classEnded, List.isEmpty_iff] at h
  unfold classStep
  split
  · rfl
  all_goals next ht => rw [ht] at h; cases h

theorem sum_left_lt {f g : Fin N → Nat} {t : Fin N} (h1 : f t < g t) (h2 : ∀ u, u ≠ t → f u = g u) :
    ∑ u, f u < ∑ u, g u := by
  refine Finset.sum_lt_sum (fun u _ => ?_) ⟨t, Finset.mem_univ _, h1⟩
  by_cases e : u = t
  · subst e; exact Nat.le_of_lt h1
  · exact Nat.le_of_eq (h2 u e)

theorem fn_rank {F : Nat} {rears : Fin N → List (Act O M)} (hr : ∀ t, ∀ a ∈ rears t, Act.Returns a)
    (m : Sys N O M) (t : Fin N) (hP : (∃ hist, Inv F rears m hist) ∧ Suff rears m) (h : fnEnded m t = false) :
    ∃ m', step m t = .running m' ∧ ((∃ hist, Inv F rears m' hist) ∧ Suff rears m') ∧
      ∑ u, (m'.thr u).left < ∑ u, (m.thr u).left := by
  obtain ⟨⟨hist, hi⟩, hs⟩ := hP
  obtain ⟨m', h1, h2, h3⟩ := step_progress hi hs hr t
  refine ⟨m', h1, ⟨hi.step h1, hs.step h1⟩, sum_left_lt (t := t) ?_ (fun u hu => by rw [h3 u hu])⟩
  rw [h2]
  have hd : (m.thr t).pc.done ≤ 4 := by cases (m.thr t).pc <;> simp [Pc.done]
  have hl : 0 < (m.thr t).rest.length := by
    rw [List.length_pos_iff]
    simpa [fnEnded] using h
  simp only [Thr.left]
  omega

theorem class_rank {rears : Fin 2 → List (ClassAct O M)} (hr : ∀ t, ∀ a ∈ rears t, ClassAct.Returns a)
    (hl : (rears 0).length + (rears 1).length ≤ classLogSize)
    (m : ClassSys O M) (t : Fin 2) (hP : ClassInv ((rears 0).length + (rears 1).length) m ∧ ClassSuff rears m)
    (h : classEnded m t = false) :
    ∃ m', classStep m t = .running m' ∧ (ClassInv ((rears 0).length + (rears 1).length) m' ∧ ClassSuff rears m') ∧
      ∑ u, (m'.thr u).left < ∑ u, (m.thr u).left := by
  obtain ⟨hi, hs⟩ := hP
  have hdef : ∀ t, ∀ a ∈ rears t, ClassAct.Defined a := by
    intro t a ha o m
    obtain ⟨⟨b, h1⟩, ⟨r, h2⟩⟩ := hr t a ha o m
    exact ⟨by rw [h1]; simp, by rw [h2]; simp⟩
  have hub := classStep_ne_ub hi hs hl hdef t
  suffices H : ∃ m', classStep m t = .running m' ∧ (m'.thr t).left < (m.thr t).left ∧
      ∀ u, u ≠ t → m'.thr u = m.thr u by
    obtain ⟨m', h1, h2, h3⟩ := H
    exact ⟨m', h1, ⟨hi.step h1, hs.step h1⟩, sum_left_lt (t := t) h2 (fun u hu => by rw [h3 u hu])⟩
  have hsf := hs t
  unfold classStep at hub ⊢
  split
  · next ht => simp [classEnded, ht] at h
  · next a as ht =>
    rw [ht] at hsf
    obtain ⟨⟨b, h1⟩, -⟩ := hr t a (hsf.subset (by simp)) m.obj m.model
    rw [h1]
    cases b with
    | true =>
      refine ⟨_, rfl, ?_, fun u hu => by simp [ClassSys.setThr, hu]⟩
      rw [ht]; simp [ClassSys.setThr, ClassThr.left, ClassPc.done]
    | false =>
      refine ⟨_, rfl, ?_, fun u hu => by simp [ClassSys.setThr, hu]⟩
      rw [ht]; simp [ClassSys.setThr, ClassThr.left, ClassPc.done]
  · next a as ht =>
    rw [ht] at hsf
    obtain ⟨-, ⟨⟨o, m'⟩, h2⟩⟩ := hr t a (hsf.subset (by simp)) m.obj m.model
    rw [h2]
    refine ⟨_, rfl, ?_, fun u hu => by simp [ClassSys.setThr, hu]⟩
    rw [ht]; simp [ClassSys.setThr, ClassThr.left, ClassPc.done]; omega
  · next a as ht =>
    refine ⟨_, rfl, ?_, fun u hu => by simp [ClassSys.setThr, hu]⟩
    rw [ht]; simp [ClassSys.setThr, ClassThr.left, ClassPc.done]; omega
  · next a as i ht =>
    rw [ht] at hub
    by_cases hlt : i < m.log.length
    · rw [if_pos hlt]
      refine ⟨_, rfl, ?_, fun u hu => by simp [ClassSys.setThr, hu]⟩
      rw [ht]; simp [ClassSys.setThr, ClassThr.left, ClassPc.done]; omega
    · simp [hlt] at hub

end Styles

end Concurrency
end Verif
