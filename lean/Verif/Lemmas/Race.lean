import Verif.Model.Race
import Verif.Lemmas.ConcurrencyRun
/-! Helper lemmas about data races of rear threads. -/
namespace Verif
namespace Race
variable {N : Nat} {L : Type}

theorem HappensBefore.lt {tr : Trace N L} {i j : Nat} (h : HappensBefore tr i j) : i < j := by
  induction h with
  | own h _ _ => exact h
  | sync h _ _ => exact h
  | trans _ _ h1 h2 => omega

theorem HappensBefore.mem {tr : Trace N L} {i j : Nat} (h : HappensBefore tr i j) :
    (∃ x, tr[i]? = some x) ∧ ∃ y, tr[j]? = some y := by
  induction h with
  | own _ h1 h2 => exact ⟨⟨_, h1⟩, ⟨_, h2⟩⟩
  | sync _ h1 h2 => exact ⟨⟨_, h1⟩, ⟨_, h2⟩⟩
  | trans _ _ h1 h2 => exact ⟨h1.1, h2.2⟩

/-- Between different threads, order comes from the counter only. -/
theorem HappensBefore.through {tr : Trace N L} {i j : Nat} (h : HappensBefore tr i j) :
    ∀ t u k k', tr[i]? = some (t, k) → tr[j]? = some (u, k') →
      t = u ∨ ∃ a b, i ≤ a ∧ a < b ∧ b ≤ j ∧ tr[a]? = some (t, .sync) ∧ tr[b]? = some (u, .sync) := by
  induction h with
  | own _ h1 h2 =>
    intro t u k k' e1 e2
    rw [h1] at e1; rw [h2] at e2
    cases e1; cases e2; exact .inl rfl
  | @sync i j _ _ hlt h1 h2 =>
    intro t u k k' e1 e2
    have e1' := e1; have e2' := e2
    rw [h1] at e1; rw [h2] at e2
    cases e1; cases e2
    exact .inr ⟨i, j, Nat.le_refl _, hlt, Nat.le_refl _, h1, h2⟩
  | @trans i m j h1 h2 ih1 ih2 =>
    intro t u k k' e1 e2
    obtain ⟨⟨v, kv⟩, hv⟩ := h1.mem.2
    have l1 := h1.lt
    have l2 := h2.lt
    rcases ih1 t v k kv e1 hv with rfl | ⟨a, b, p1, p2, p3, p4, p5⟩
    · rcases ih2 t u kv k' hv e2 with rfl | ⟨a', b', q1, q2, q3, q4, q5⟩
      · exact .inl rfl
      · exact .inr ⟨a', b', by omega, q2, q3, q4, q5⟩
    · rcases ih2 v u kv k' hv e2 with rfl | ⟨a', b', q1, q2, q3, q4, q5⟩
      · exact .inr ⟨a, b, p1, p2, by omega, p4, p5⟩
      · exact .inr ⟨a, b', p1, by omega, q3, p4, q5⟩

/-- Two writes of different threads are ordered just if there is a `counter++` of the first after the first, and after that
one of the second before the second. -/
theorem write_before_iff {tr : Trace N L} {i j : Nat} {t u : Fin N} {l l' : L} (hne : t ≠ u)
    (h1 : tr[i]? = some (t, .write l)) (h2 : tr[j]? = some (u, .write l')) :
    HappensBefore tr i j ↔ ∃ a b, i < a ∧ a < b ∧ b < j ∧ tr[a]? = some (t, .sync) ∧ tr[b]? = some (u, .sync) := by
  constructor
  · intro h
    rcases h.through _ _ _ _ h1 h2 with e | ⟨a, b, p1, p2, p3, p4, p5⟩
    · exact absurd e hne
    · refine ⟨a, b, ?_, p2, ?_, p4, p5⟩
      · rcases Nat.lt_or_eq_of_le p1 with h | h
        · exact h
        · subst h; rw [h1] at p4; cases p4
      · rcases Nat.lt_or_eq_of_le p3 with h | h
        · exact h
        · subst h; rw [h2] at p5; cases p5
  · rintro ⟨a, b, p1, p2, p3, p4, p5⟩
    exact ((HappensBefore.own p1 h1 p4).trans (.sync p2 p4 p5)).trans (.own p3 p5 h2)

/-- Two writes of different threads with no `counter++` of the second thread before its write. -/
theorem race_of_no_sync {tr : Trace N L} {i j : Nat} {t u : Fin N} {l : L} (hne : t ≠ u)
    (h1 : tr[i]? = some (t, .write l)) (h2 : tr[j]? = some (u, .write l))
    (ht : ∀ b, b < i → tr[b]? ≠ some (t, .sync)) (hu : ∀ b, b < j → tr[b]? ≠ some (u, .sync)) : DataRace tr l := by
  refine ⟨i, j, t, u, hne, h1, h2, fun h => ?_, fun h => ?_⟩
  · obtain ⟨a, b, -, -, p, -, q⟩ := (write_before_iff hne h1 h2).1 h
    exact hu b p q
  · obtain ⟨a, b, -, -, p, -, q⟩ := (write_before_iff (Ne.symm hne) h2 h1).1 h
    exact ht b p q

/-- Writes of one thread only do not race. -/
theorem no_race_of_one {tr : Trace N L} {l : L} (t : Fin N) (h : ∀ u, (u, Kind.write l) ∈ tr → u = t) :
    ¬ DataRace tr l := by
  rintro ⟨i, j, v, u, hne, h1, h2, -⟩
  exact hne ((h v (List.mem_of_getElem? h1)).trans (h u (List.mem_of_getElem? h2)).symm)

end Race

namespace Concurrency
open Engine Stateful Race
variable {N : Nat} {O M : Type}

theorem runTrace_append (uses : Fin N → Nat → O → M → List Macro) (l l' : List (Fin N)) (s s' : Sys N O M)
    (h : run l s = .running s') : runTrace uses (l ++ l') s = runTrace uses l s ++ runTrace uses l' s' := by
  induction l generalizing s with
  | nil => simp only [run, Res.running.injEq] at h; subst h; rfl
  | cons t l ih =>
    simp only [run] at h
    simp only [List.cons_append, runTrace]
    cases hb : step s t with
    | running s1 => rw [hb] at h; simp only [ih _ h, List.append_assoc]
    | ub => rw [hb] at h; cases h
    | terminated => rw [hb] at h; cases h

theorem classRunTrace_append (uses : Fin 2 → Nat → O → M → List Macro) (l l' : List (Fin 2)) (s s' : ClassSys O M)
    (h : classRun l s = .running s') :
    classRunTrace uses (l ++ l') s = classRunTrace uses l s ++ classRunTrace uses l' s' := by
  induction l generalizing s with
  | nil => simp only [classRun, Res.running.injEq] at h; subst h; rfl
  | cons t l ih =>
    simp only [classRun] at h
    simp only [List.cons_append, classRunTrace]
    cases hb : classStep s t with
    | running s1 => rw [hb] at h; simp only [ih _ h, List.append_assoc]
    | ub => rw [hb] at h; cases h
    | terminated => rw [hb] at h; cases h

/-- What thread `t` writes comes from its actions. -/
theorem mem_stepTrace {uses : Fin N → Nat → O → M → List Macro} {s : Sys N O M} {t u : Fin N} {p : Part}
    (h : (u, Kind.write p) ∈ stepTrace uses s t) :
    u = t ∧ ∃ k o m, k < (s.thr t).rest.length ∧ p ∈ (uses t k o m).flatMap Macro.writes := by
  unfold stepTrace at h
  split at h
  · simp at h
  · rename_i ht
    simp only [List.mem_map, Prod.mk.injEq, Kind.write.injEq] at h
    obtain ⟨q, hq, h1, h2⟩ := h
    subst h2
    exact ⟨h1.symm, _, _, _, by rw [ht]; simp, hq⟩
  · simp at h
  · simp at h

theorem step_rest_le {s s' : Sys N O M} {t : Fin N} (h : step s t = .running s') (u : Fin N) :
    (s'.thr u).rest.length ≤ (s.thr u).rest.length := by
  unfold step at h
  split at h
  · simp only [Res.running.injEq] at h; subst h; exact Nat.le_refl _
  · next ht =>
    simp only [Res.running.injEq] at h; subst h
    by_cases e : u = t
    · subst e; simp [Sys.setThr, ht]
    · simp [Sys.setThr, e]
  · next ht =>
    split at h
    · simp only [Res.running.injEq] at h; subst h
      by_cases e : u = t
      · subst e; simp [Sys.setThr, ht]
      · simp [Sys.setThr, e]
    · cases h
  · next ht =>
    split at h
    · simp only [Res.running.injEq] at h; subst h
      by_cases e : u = t
      · subst e; simp [Sys.setThr, ht]
      · simp [Sys.setThr, e]
    · cases h
    · cases h
    · simp only [Res.running.injEq] at h; subst h; exact Nat.le_refl _
  · next ht =>
    simp only [Res.running.injEq] at h; subst h
    by_cases e : u = t
    · subst e; simp [Sys.setThr, ht]
    · simp [Sys.setThr, e]
  · next ht =>
    split at h
    · simp only [Res.running.injEq] at h; subst h
      by_cases e : u = t
      · subst e; simp [Sys.setThr, ht]
      · simp [Sys.setThr, e]
    · cases h

theorem mem_runTrace {uses : Fin N → Nat → O → M → List Macro} {sched : List (Fin N)} {s : Sys N O M} {u : Fin N}
    {p : Part} (h : (u, Kind.write p) ∈ runTrace uses sched s) :
    ∃ k o m, k < (s.thr u).rest.length ∧ p ∈ (uses u k o m).flatMap Macro.writes := by
  induction sched generalizing s with
  | nil => simp [runTrace] at h
  | cons t l ih =>
    simp only [runTrace, List.mem_append] at h
    rcases h with h | h
    · obtain ⟨rfl, h⟩ := mem_stepTrace h
      exact h
    · cases hb : step s t with
      | running s1 =>
        rw [hb] at h
        obtain ⟨k, o, m, h1, h2⟩ := ih h
        exact ⟨k, o, m, Nat.lt_of_lt_of_le h1 (step_rest_le hb u), h2⟩
      | ub => rw [hb] at h; simp at h
      | terminated => rw [hb] at h; simp at h

theorem mem_classStepTrace {uses : Fin 2 → Nat → O → M → List Macro} {s : ClassSys O M} {t u : Fin 2} {p : Part}
    (h : (u, Kind.write p) ∈ classStepTrace uses s t) :
    u = t ∧ ∃ k o m, k < (s.thr t).rest.length ∧ p ∈ (uses t k o m).flatMap Macro.writes := by
  unfold classStepTrace at h
  split at h
  · rename_i ht
    simp only [List.mem_map, Prod.mk.injEq, Kind.write.injEq] at h
    obtain ⟨q, hq, h1, h2⟩ := h
    subst h2
    exact ⟨h1.symm, _, _, _, by rw [ht]; simp, hq⟩
  · simp at h
  · simp at h

theorem classStep_rest_le {s s' : ClassSys O M} {t : Fin 2} (h : classStep s t = .running s') (u : Fin 2) :
    (s'.thr u).rest.length ≤ (s.thr u).rest.length := by
  unfold classStep at h
  split at h
  · simp only [Res.running.injEq] at h; subst h; exact Nat.le_refl _
  · next ht =>
    split at h
    · simp only [Res.running.injEq] at h; subst h
      by_cases e : u = t
      · subst e; simp [ClassSys.setThr, ht]
      · simp [ClassSys.setThr, e]
    · simp only [Res.running.injEq] at h; subst h
      by_cases e : u = t
      · subst e; simp [ClassSys.setThr, ht]
      · simp [ClassSys.setThr, e]
    · cases h
    · cases h
    · simp only [Res.running.injEq] at h; subst h; exact Nat.le_refl _
  · next ht =>
    split at h
    · simp only [Res.running.injEq] at h; subst h
      by_cases e : u = t
      · subst e; simp [ClassSys.setThr, ht]
      · simp [ClassSys.setThr, e]
    · cases h
    · cases h
    · cases h
    · simp only [Res.running.injEq] at h; subst h; exact Nat.le_refl _
  · next ht =>
    simp only [Res.running.injEq] at h; subst h
    by_cases e : u = t
    · subst e; simp [ClassSys.setThr, ht]
    · simp [ClassSys.setThr, e]
  · next ht =>
    split at h
    · simp only [Res.running.injEq] at h; subst h
      by_cases e : u = t
      · subst e; simp [ClassSys.setThr, ht]
      · simp [ClassSys.setThr, e]
    · cases h

theorem mem_classRunTrace {uses : Fin 2 → Nat → O → M → List Macro} {sched : List (Fin 2)} {s : ClassSys O M} {u : Fin 2}
    {p : Part} (h : (u, Kind.write p) ∈ classRunTrace uses sched s) :
    ∃ k o m, k < (s.thr u).rest.length ∧ p ∈ (uses u k o m).flatMap Macro.writes := by
  induction sched generalizing s with
  | nil => simp [classRunTrace] at h
  | cons t l ih =>
    simp only [classRunTrace, List.mem_append] at h
    rcases h with h | h
    · obtain ⟨rfl, h⟩ := mem_classStepTrace h
      exact h
    · cases hb : classStep s t with
      | running s1 =>
        rw [hb] at h
        obtain ⟨k, o, m, h1, h2⟩ := ih h
        exact ⟨k, o, m, Nat.lt_of_lt_of_le h1 (classStep_rest_le hb u), h2⟩
      | ub => rw [hb] at h; simp at h
      | terminated => rw [hb] at h; simp at h

/-- Where a class style thread is with its first action, and what it has done so far. -/
def First (rears : Fin 2 → List (ClassAct O M)) (p : Part) (tr : Trace 2 Part) (s : ClassSys O M) (u : Fin 2) : Prop :=
  ((s.thr u).rest = rears u ∧ ((s.thr u).pc = .pre ∨ (s.thr u).pc = .run) ∧ ∀ k, (u, k) ∉ tr) ∨
    ∃ j : Nat, tr[j]? = some (u, .write p) ∧ ∀ b, b < j → tr[b]? ≠ some (u, .sync)

theorem First.append {rears : Fin 2 → List (ClassAct O M)} {p : Part} {tr more : Trace 2 Part} {s s' : ClassSys O M}
    {u : Fin 2} (h : First rears p tr s u) (hs : s'.thr u = s.thr u) (hm : ∀ k, (u, k) ∉ more) :
    First rears p (tr ++ more) s' u := by
  rcases h with ⟨h1, h2, h3⟩ | ⟨j, h1, h2⟩
  · exact .inl ⟨by rw [hs]; exact h1, by rw [hs]; exact h2, fun k hk => by
      rcases List.mem_append.1 hk with hk | hk
      · exact h3 k hk
      · exact hm k hk⟩
  · refine .inr ⟨j, ?_, fun b hb => ?_⟩
    · rw [List.getElem?_append_left (by rw [List.getElem?_eq_some_iff] at h1; exact h1.1)]; exact h1
    · have hj : j < tr.length := by rw [List.getElem?_eq_some_iff] at h1; exact h1.1
      rw [List.getElem?_append_left (by omega)]; exact h2 b hb

theorem First.later {rears : Fin 2 → List (ClassAct O M)} {p : Part} {tr more : Trace 2 Part} {s : ClassSys O M}
    {u : Fin 2} (h : ∃ j : Nat, tr[j]? = some (u, .write p) ∧ ∀ b, b < j → tr[b]? ≠ some (u, .sync)) :
    First rears p (tr ++ more) s u := by
  obtain ⟨j, h1, h2⟩ := h
  have hj : j < tr.length := by rw [List.getElem?_eq_some_iff] at h1; exact h1.1
  refine .inr ⟨j, ?_, fun b hb => ?_⟩
  · rw [List.getElem?_append_left hj]; exact h1
  · rw [List.getElem?_append_left (by omega)]; exact h2 b hb

theorem classStep_other {s s' : ClassSys O M} {t u : Fin 2} (h : classStep s t = .running s') (hu : u ≠ t) :
    s'.thr u = s.thr u := by
  unfold classStep at h
  split at h
  · simp only [Res.running.injEq] at h; subst h; rfl
  · split at h
    · simp only [Res.running.injEq] at h; subst h; simp [ClassSys.setThr, hu]
    · simp only [Res.running.injEq] at h; subst h; simp [ClassSys.setThr, hu]
    · cases h
    · cases h
    · simp only [Res.running.injEq] at h; subst h; rfl
  · split at h
    · simp only [Res.running.injEq] at h; subst h; simp [ClassSys.setThr, hu]
    · cases h
    · cases h
    · cases h
    · simp only [Res.running.injEq] at h; subst h; rfl
  · simp only [Res.running.injEq] at h; subst h; simp [ClassSys.setThr, hu]
  · split at h
    · simp only [Res.running.injEq] at h; subst h; simp [ClassSys.setThr, hu]
    · cases h

theorem classStepTrace_thread {uses : Fin 2 → Nat → O → M → List Macro} {s : ClassSys O M} {t u : Fin 2} {k : Kind Part}
    (h : (u, k) ∈ classStepTrace uses s t) : u = t := by
  unfold classStepTrace at h
  split at h
  · simp only [List.mem_map, Prod.mk.injEq] at h
    obtain ⟨q, hq, h1, h2⟩ := h
    exact h1.symm
  · simp only [List.mem_singleton, Prod.mk.injEq] at h; exact h.1
  · simp at h

/-- A step keeps `First`, if the first action of the thread is always executed and always writes `p`. -/
theorem First.step {uses : Fin 2 → Nat → O → M → List Macro} {rears : Fin 2 → List (ClassAct O M)} {p : Part}
    {tr : Trace 2 Part} {s s' : ClassSys O M} {t u : Fin 2}
    (hpre : ∀ a ∈ (rears u).head?, ∀ o m, (a.precondition o m).out ≠ .ok false)
    (huse : ∀ o m, p ∈ (uses u ((rears u).length - 1) o m).flatMap Macro.writes)
    (h : First rears p tr s u) (hs : classStep s t = .running s') :
    First rears p (tr ++ classStepTrace uses s t) s' u := by
  by_cases hu : u = t
  · subst hu
    rcases h with ⟨h1, h2, h3⟩ | h
    · cases hth : s.thr u with
      | mk rest pc =>
        rw [hth] at h1 h2
        simp only at h1 h2
        cases rest with
        | nil =>
          have e1 : s' = s := by
            simp only [classStep, hth, Res.running.injEq] at hs; exact hs.symm
          have e2 : classStepTrace uses s u = [] := by simp [classStepTrace, hth]
          rw [e1, e2, List.append_nil]
          exact .inl ⟨by rw [hth]; exact h1, by rw [hth]; exact h2, h3⟩
        | cons a as =>
          rcases h2 with rfl | rfl
          · have e2 : classStepTrace uses s u = [] := by simp [classStepTrace, hth]
            rw [e2, List.append_nil]
            simp only [classStep, hth] at hs
            have hp := hpre a (by rw [← h1]; simp)
            cases hq : (a.precondition s.obj s.model).out with
            | ok b =>
              cases b with
              | false => exact absurd hq (hp _ _)
              | true =>
                simp only [hq, Res.running.injEq] at hs; subst hs
                exact .inl ⟨by simpa [ClassSys.setThr] using h1, by simp [ClassSys.setThr], h3⟩
            | throws e => simp [hq] at hs
            | ub => simp [hq] at hs
            | diverges =>
              simp only [hq, Res.running.injEq] at hs; subst hs
              exact .inl ⟨by rw [hth]; exact h1, by rw [hth]; simp, h3⟩
          · have hlen : (rears u).length - 1 = as.length := by rw [← h1]; simp
            have hw := huse s.obj s.model
            rw [hlen] at hw
            have e2 : classStepTrace uses s u =
                ((uses u as.length s.obj s.model).flatMap Macro.writes).map fun p => (u, .write p) := by
              simp [classStepTrace, hth]
            obtain ⟨n, hn⟩ := List.getElem?_of_mem hw
            refine .inr ⟨tr.length + n, ?_, fun b hb e => ?_⟩
            · rw [List.getElem?_append_right (by omega), e2, Nat.add_sub_cancel_left, List.getElem?_map, hn]
              rfl
            · have := List.mem_of_getElem? e
              rcases List.mem_append.1 this with h | h
              · exact h3 _ h
              · rw [e2] at h
                simp at h
    · exact First.later h
  · exact h.append (classStep_other hs hu) (fun k hk => hu (classStepTrace_thread hk))

theorem first_run {uses : Fin 2 → Nat → O → M → List Macro} {rears : Fin 2 → List (ClassAct O M)} {p : Part} {u : Fin 2}
    (hpre : ∀ a ∈ (rears u).head?, ∀ o m, (a.precondition o m).out ≠ .ok false)
    (huse : ∀ o m, p ∈ (uses u ((rears u).length - 1) o m).flatMap Macro.writes)
    (sched : List (Fin 2)) (tr : Trace 2 Part) (s s' : ClassSys O M) (h : First rears p tr s u)
    (hs : classRun sched s = .running s') : First rears p (tr ++ classRunTrace uses sched s) s' u := by
  induction sched generalizing s tr with
  | nil => simp only [classRun, Res.running.injEq] at hs; subst hs; simpa [classRunTrace] using h
  | cons t l ih =>
    simp only [classRun] at hs
    simp only [classRunTrace]
    cases hb : classStep s t with
    | running s1 =>
      rw [hb] at hs
      have := ih _ s1 (h.step hpre huse hb) hs
      simpa only [List.append_assoc] using this
    | ub => rw [hb] at hs; cases hs
    | terminated => rw [hb] at hs; cases hs

end Concurrency
end Verif

namespace Verif
namespace Concurrency
open Engine Stateful Race
variable {N : Nat} {O M : Type}

theorem step_other {s s' : Sys N O M} {t u : Fin N} (h : step s t = .running s') (hu : u ≠ t) :
    s'.thr u = s.thr u := by
  unfold step at h
  split at h
  · simp only [Res.running.injEq] at h; subst h; rfl
  · simp only [Res.running.injEq] at h; subst h; simp [Sys.setThr, hu]
  · split at h
    · simp only [Res.running.injEq] at h; subst h; simp [Sys.setThr, hu]
    · cases h
  · split at h
    · simp only [Res.running.injEq] at h; subst h; simp [Sys.setThr, hu]
    · cases h
    · cases h
    · simp only [Res.running.injEq] at h; subst h; rfl
  · simp only [Res.running.injEq] at h; subst h; simp [Sys.setThr, hu]
  · split at h
    · simp only [Res.running.injEq] at h; subst h; simp [Sys.setThr, hu]
    · cases h

/-- What a step of a thread does to the thread and to the trace. -/
theorem step_cases {uses : Fin N → Nat → O → M → List Macro} {s s' : Sys N O M} {t : Fin N}
    (h : step s t = .running s') :
    (stepTrace uses s t = [(t, .sync)] ∧
      ((s.thr t).pc = .start ∧ (s'.thr t).pc ≠ .start ∨ (s.thr t).pc = .stop ∧ (s'.thr t).pc ≠ .start)) ∨
    ((s.thr t).pc = .act ∧ ((s'.thr t).pc = .act ∨ (s'.thr t).pc = .stop) ∧
      ∀ x ∈ stepTrace uses s t, ∃ p, x = (t, .write p)) ∨
    (stepTrace uses s t = [] ∧ (s' = s ∨ (s.thr t).pc ≠ .start ∧ (s.thr t).pc ≠ .act ∧ (s.thr t).pc ≠ .stop)) := by
  unfold step at h
  split at h
  · next ht =>
    simp only [Res.running.injEq] at h; subst h
    exact .inr (.inr ⟨by simp [stepTrace, ht], .inl rfl⟩)
  · next ht =>
    simp only [Res.running.injEq] at h; subst h
    exact .inl ⟨by simp [stepTrace, ht], .inl ⟨by rw [ht], by simp [Sys.setThr]⟩⟩
  · next ht =>
    split at h
    · exact .inr (.inr ⟨by simp [stepTrace, ht], .inr (by rw [ht]; simp)⟩)
    · cases h
  · next ht =>
    have hw : ∀ x ∈ stepTrace uses s t, ∃ p, x = (t, .write p) := by
      intro x hx
      simp only [stepTrace, ht, List.mem_map] at hx
      obtain ⟨p, -, rfl⟩ := hx
      exact ⟨p, rfl⟩
    split at h
    · simp only [Res.running.injEq] at h; subst h
      exact .inr (.inl ⟨by rw [ht], .inr (by simp [Sys.setThr]), hw⟩)
    · cases h
    · cases h
    · simp only [Res.running.injEq] at h; subst h
      exact .inr (.inl ⟨by rw [ht], .inl (by rw [ht]), hw⟩)
  · next ht =>
    simp only [Res.running.injEq] at h; subst h
    exact .inl ⟨by simp [stepTrace, ht], .inr ⟨by rw [ht], by simp [Sys.setThr]⟩⟩
  · next ht =>
    split at h
    · exact .inr (.inr ⟨by simp [stepTrace, ht], .inr (by rw [ht]; simp)⟩)
    · cases h

/-- The order of writes in executions in which actions do not overlap. -/
structure Ordered (tr : Trace N Part) (s : Sys N O M) : Prop where
  all : ∀ (i j : Nat) (t u : Fin N) (p q : Part), t ≠ u → i < j → tr[i]? = some (t, Kind.write p) →
    tr[j]? = some (u, Kind.write q) →
    ∃ a b : Nat, i < a ∧ a < b ∧ b < j ∧ tr[a]? = some (t, Kind.sync) ∧ tr[b]? = some (u, Kind.sync)
  past : ∀ (i : Nat) (t : Fin N) (p : Part), tr[i]? = some (t, Kind.write p) → (s.thr t).pc ≠ .act →
    (s.thr t).pc ≠ .stop → ∃ a : Nat, i < a ∧ tr[a]? = some (t, Kind.sync)
  inside : ∀ u, (s.thr u).pc ≠ .start → ∀ (i : Nat) (t : Fin N) (p : Part), t ≠ u → tr[i]? = some (t, Kind.write p) →
    ∃ a b : Nat, i < a ∧ a < b ∧ tr[a]? = some (t, Kind.sync) ∧ tr[b]? = some (u, Kind.sync)

theorem Ordered.step {uses : Fin N → Nat → O → M → List Macro} {tr : Trace N Part} {s s' : Sys N O M} {v : Fin N}
    (h : Ordered tr s) (hs : step s v = .running s')
    (h1 : ∀ t u, (s.thr t).pc ≠ .start → (s.thr u).pc ≠ .start → t = u)
    (h2 : ∀ t u, (s'.thr t).pc ≠ .start → (s'.thr u).pc ≠ .start → t = u) :
    Ordered (tr ++ stepTrace uses s v) s' := by
  have hoth := fun u hu => step_other (u := u) hs hu
  have some_lt : ∀ {a : Nat} {x : Fin N × Kind Part}, tr[a]? = some x → a < tr.length := by
    intro a x hx; rw [List.getElem?_eq_some_iff] at hx; exact hx.1
  rcases step_cases (uses := uses) hs with ⟨e, hpc⟩ | ⟨hpc, hpc', hw⟩ | ⟨e, hpc⟩
  · rw [e]
    have old : ∀ {i : Nat} {t : Fin N} {p : Part}, (tr ++ [(v, Kind.sync)])[i]? = some (t, Kind.write p) →
        tr[i]? = some (t, Kind.write p) := by
      intro i t p hi
      by_cases hlt : i < tr.length
      · rwa [List.getElem?_append_left hlt] at hi
      · rw [List.getElem?_append_right (by omega), List.getElem?_singleton] at hi
        split at hi <;> simp at hi
    have up : ∀ {i : Nat} {x : Fin N × Kind Part}, tr[i]? = some x → (tr ++ [(v, Kind.sync)])[i]? = some x := by
      intro i x hi
      rw [List.getElem?_append_left (some_lt hi)]; exact hi
    have last : (tr ++ [(v, Kind.sync)])[tr.length]? = some (v, Kind.sync) := by simp
    have hv' : (s'.thr v).pc ≠ .start := by rcases hpc with ⟨_, h⟩ | ⟨_, h⟩ <;> exact h
    refine ⟨?_, ?_, ?_⟩
    · intro i j t u p q hne hij hi hj
      obtain ⟨a, b, k1, k2, k3, k4, k5⟩ := h.all i j t u p q hne hij (old hi) (old hj)
      exact ⟨a, b, k1, k2, k3, up k4, up k5⟩
    · intro i t p hi n1 n2
      by_cases ht : t = v
      · subst ht; exact ⟨tr.length, some_lt (old hi), last⟩
      · rw [hoth t ht] at n1 n2
        obtain ⟨a, k1, k2⟩ := h.past i t p (old hi) n1 n2
        exact ⟨a, k1, up k2⟩
    · intro u hu i t p hne hi
      have huv : u = v := h2 u v hu hv'
      subst huv
      rcases hpc with ⟨hst, -⟩ | ⟨hst, -⟩
      · -- the others are outside
        have ht : (s'.thr t).pc = .start := by
          by_contra hcon
          exact hne (h2 t u hcon hu)
        rw [hoth t hne] at ht
        obtain ⟨a, k1, k2⟩ := h.past i t p (old hi) (by rw [ht]; simp) (by rw [ht]; simp)
        exact ⟨a, tr.length, k1, some_lt k2, up k2, last⟩
      · obtain ⟨a, b, k1, k2, k3, k4⟩ := h.inside u (by rw [hst]; simp) i t p hne (old hi)
        exact ⟨a, b, k1, k2, up k3, up k4⟩
  · have new : ∀ {i : Nat} {t : Fin N} {k : Kind Part}, (tr ++ stepTrace uses s v)[i]? = some (t, k) →
        tr[i]? = some (t, k) ∨ tr.length ≤ i ∧ t = v := by
      intro i t k hi
      by_cases hlt : i < tr.length
      · rw [List.getElem?_append_left hlt] at hi; exact .inl hi
      · rw [List.getElem?_append_right (by omega)] at hi
        obtain ⟨p, hp⟩ := hw _ (List.mem_of_getElem? hi)
        exact .inr ⟨by omega, (Prod.mk.inj hp).1⟩
    have up : ∀ {i : Nat} {x : Fin N × Kind Part}, tr[i]? = some x → (tr ++ stepTrace uses s v)[i]? = some x := by
      intro i x hi
      rw [List.getElem?_append_left (some_lt hi)]; exact hi
    have hv : (s.thr v).pc ≠ .start := by rw [hpc]; simp
    have hv' : (s'.thr v).pc ≠ .start := by rcases hpc' with h | h <;> rw [h] <;> simp
    refine ⟨?_, ?_, ?_⟩
    · intro i j t u p q hne hij hi hj
      rcases new hj with hj' | ⟨hj', rfl⟩
      · rcases new hi with hi' | ⟨hi', -⟩
        · obtain ⟨a, b, k1, k2, k3, k4, k5⟩ := h.all i j t u p q hne hij hi' hj'
          exact ⟨a, b, k1, k2, k3, up k4, up k5⟩
        · have := some_lt hj'; omega
      · rcases new hi with hi' | ⟨hi', e⟩
        · obtain ⟨a, b, k1, k2, k3, k4⟩ := h.inside u hv i t p hne hi'
          exact ⟨a, b, k1, k2, by have := some_lt k4; omega, up k3, up k4⟩
        · exact absurd e hne
    · intro i t p hi n1 n2
      have htv : t ≠ v := by
        rintro rfl
        rcases hpc' with h | h
        · exact n1 h
        · exact n2 h
      rw [hoth t htv] at n1 n2
      rcases new hi with hi' | ⟨-, e⟩
      · obtain ⟨a, k1, k2⟩ := h.past i t p hi' n1 n2
        exact ⟨a, k1, up k2⟩
      · exact absurd e htv
    · intro u hu i t p hne hi
      have huv : u = v := h2 u v hu hv'
      subst huv
      rcases new hi with hi' | ⟨-, e⟩
      · obtain ⟨a, b, k1, k2, k3, k4⟩ := h.inside u hv i t p hne hi'
        exact ⟨a, b, k1, k2, up k3, up k4⟩
      · exact absurd e hne
  · rw [e, List.append_nil]
    rcases hpc with rfl | ⟨n1, n2, n3⟩
    · exact h
    · refine ⟨h.all, ?_, ?_⟩
      · intro i t p hi m1 m2
        by_cases ht : t = v
        · subst ht; exact h.past i t p hi n2 n3
        · rw [hoth t ht] at m1 m2; exact h.past i t p hi m1 m2
      · intro u hu i t p hne hi
        by_cases huv : u = v
        · subst huv; exact h.inside u n1 i t p hne hi
        · rw [hoth u huv] at hu
          exact absurd (h1 u v hu n1) huv

theorem ordered_run {uses : Fin N → Nat → O → M → List Macro} {init : Sys N O M} (h0 : ∀ t, (init.thr t).pc = .start)
    (sched : List (Fin N))
    (hseq : ∀ pre post, sched = pre ++ post → ∀ s, run pre init = .running s →
      ∀ t u, (s.thr t).pc ≠ .start → (s.thr u).pc ≠ .start → t = u)
    (s : Sys N O M) (hs : run sched init = .running s) : Ordered (runTrace uses sched init) s := by
  induction sched using List.reverseRecOn generalizing s with
  | nil =>
    simp only [run, Res.running.injEq] at hs; subst hs
    exact ⟨by simp [runTrace], by simp [runTrace], by simp [runTrace]⟩
  | append_singleton l v ih =>
    cases hl : run l init with
    | ub =>
      rw [run_append, hl] at hs; cases hs
    | terminated =>
      rw [run_append, hl] at hs; cases hs
    | running s1 =>
      have hs1 : step s1 v = .running s := by
        rw [run_append, hl] at hs
        simp only [run] at hs
        cases hb : step s1 v with
        | running s2 => rw [hb] at hs; exact hs
        | ub => rw [hb] at hs; cases hs
        | terminated => rw [hb] at hs; cases hs
      have hord := ih (fun pre post e s => hseq pre (post ++ [v]) (by rw [e, List.append_assoc]) s) s1 hl
      rw [runTrace_append _ _ _ _ _ hl]
      have e : runTrace uses [v] s1 = stepTrace uses s1 v := by simp [runTrace, hs1]
      rw [e]
      exact hord.step hs1 (hseq l [v] rfl s1 hl) (hseq (l ++ [v]) [] (by simp) s hs)

end Concurrency
end Verif
