import Verif.Lemmas.Concurrency
import Verif.Spec.Concurrency
/-
Order of execution and progress of the concurrent runs; invariants of the class style.
-/
namespace Verif
namespace Concurrency
open Engine Stateful
variable {O M : Type} {N : Nat}

/-- The actions of a thread that have not been executed. -/
def Thr.todo (x : Thr O M) : List (Act O M) :=
  match x.pc with
  | .stop => x.rest.tail
  | .stopStore _ => x.rest.tail
  | _ => x.rest

/-- What has been executed so far. -/
def Lin (o₀ : O) (m₀ : M) (rears : Fin N → List (Act O M)) (s : Sys N O M) : Prop :=
  ∃ order, Linear o₀ m₀ order s.obj (fun t => (s.thr t).model) ∧
    ∀ t, ofThread t order ++ (s.thr t).todo = rears t

theorem Lin.quiet {o₀ : O} {m₀ : M} {rears : Fin N → List (Act O M)} {s s' : Sys N O M} (h : Lin o₀ m₀ rears s)
    (t : Fin N) (x : Thr O M) (hs : s'.thr = (s.setThr t x).thr) (ho : s'.obj = s.obj)
    (hm : x.model = (s.thr t).model) (hx : x.todo = (s.thr t).todo) : Lin o₀ m₀ rears s' := by
  obtain ⟨order, h1, h2⟩ := h
  refine ⟨order, ?_, ?_⟩
  · rw [ho, hs]
    have : (fun u => ((s.setThr t x).thr u).model) = fun u => (s.thr u).model := by
      funext u
      simp only [Sys.setThr]
      split_ifs with he
      · rw [hm, he]
      · rfl
    rw [this]; exact h1
  · intro u
    rw [hs]
    simp only [Sys.setThr]
    split_ifs with he
    · rw [hx, he]; exact h2 t
    · exact h2 u

theorem Lin.step {o₀ : O} {m₀ : M} {rears : Fin N → List (Act O M)} {s s' : Sys N O M} (h : Lin o₀ m₀ rears s)
    {t : Fin N} (hs : Concurrency.step s t = .running s') : Lin o₀ m₀ rears s' := by
  unfold Concurrency.step at hs
  split at hs
  · cases hs; exact h
  · next a as m ht => cases hs; exact h.quiet t _ rfl rfl (by rw [ht]) (by rw [ht]; rfl)
  · next a as i m ht => split_ifs at hs; cases hs; exact h.quiet t _ rfl rfl (by rw [ht]) (by rw [ht]; rfl)
  · next a as m ht =>
    split at hs
    · next o m' hq =>
      cases hs
      obtain ⟨order, h1, h2⟩ := h
      refine ⟨order ++ [(t, a)], ?_, ?_⟩
      · have := Linear.snoc order s.obj (fun u => (s.thr u).model) t a o m' h1 (by simp only [ht]; exact hq)
        have he : (fun u => if u = t then m' else (s.thr u).model) =
            fun u => ((s.setThr t ⟨a :: as, .stop, m'⟩).thr u).model := by
          funext u
          simp only [Sys.setThr]
          split_ifs <;> rfl
        rw [he] at this
        exact this
      · intro u
        have := h2 u
        simp only [ofThread, List.filter_append, List.map_append, Sys.setThr] at this ⊢
        by_cases he : u = t
        · subst he
          rw [ht] at this
          simpa [Thr.todo] using this
        · simpa [he, Ne.symm he] using this
    · cases hs
    · cases hs
    · cases hs; exact h
  · next a as m ht => cases hs; exact h.quiet t _ rfl rfl (by rw [ht]) (by rw [ht]; rfl)
  · next a as i m ht => split_ifs at hs; cases hs; exact h.quiet t _ rfl rfl (by rw [ht]) (by rw [ht]; rfl)

theorem run_lin {F : Nat} {rears : Fin N → List (Act O M)} {o : O} {m : M} {sched : List (Fin N)} {s : Sys N O M}
    (hr : run sched (rearInit F rears o m) = .running s) : Lin o m rears s :=
  run_induction (P := Lin o m rears) (fun _ _ _ h hs => h.step hs)
    ⟨[], .nil, fun t => by simp [ofThread, rearInit, Thr.todo]⟩ hr

/-! ### Progress -/

/-- The steps a thread has to do for its current action, less those it has done. -/
def Pc.done : Pc → Nat
  | .start => 0
  | .startStore _ => 1
  | .act => 2
  | .stop => 3
  | .stopStore _ => 4

/-- The steps left for a thread. -/
def Thr.left (x : Thr O M) : Nat := 5 * x.rest.length - x.pc.done

/-- With actions that return, a step of a thread brings it nearer to its end. -/
theorem step_progress {F : Nat} {rears : Fin N → List (Act O M)} {s : Sys N O M} {hist : List (Fin N)}
    (h : Inv F rears s hist) (hs : Suff rears s) (hr : ∀ t, ∀ a ∈ rears t, Act.Returns a) (t : Fin N) :
    ∃ s', Concurrency.step s t = .running s' ∧ (s'.thr t).left = (s.thr t).left - 1 ∧
      ∀ u, u ≠ t → s'.thr u = s.thr u := by
  unfold Concurrency.step
  split
  · next p m ht => exact ⟨s, rfl, by rw [ht]; simp [Thr.left], fun _ _ => rfl⟩
  · next a as m ht =>
    refine ⟨_, rfl, ?_, fun u hu => by simp [Sys.setThr, hu]⟩
    rw [ht]; simp [Sys.setThr, Thr.left, Pc.done]
  · next a as i m ht =>
    rw [if_pos (h.pending_lt (t := t) (by rw [ht]; rfl))]
    refine ⟨_, rfl, ?_, fun u hu => by simp [Sys.setThr, hu]⟩
    rw [ht]; simp [Sys.setThr, Thr.left, Pc.done]; omega
  · next a as m ht =>
    have hsf := hs t
    rw [ht] at hsf
    obtain ⟨⟨o, m'⟩, hq⟩ := hr t a (hsf.subset (by simp)) s.obj m
    rw [hq]
    refine ⟨_, rfl, ?_, fun u hu => by simp [Sys.setThr, hu]⟩
    rw [ht]; simp [Sys.setThr, Thr.left, Pc.done]; omega
  · next a as m ht =>
    refine ⟨_, rfl, ?_, fun u hu => by simp [Sys.setThr, hu]⟩
    rw [ht]; simp [Sys.setThr, Thr.left, Pc.done]; omega
  · next a as i m ht =>
    rw [if_pos (h.pending_lt (t := t) (by rw [ht]; rfl))]
    refine ⟨_, rfl, ?_, fun u hu => by simp [Sys.setThr, hu]⟩
    rw [ht]; simp [Sys.setThr, Thr.left, Pc.done]; omega

theorem run_finishes {F : Nat} {rears : Fin N → List (Act O M)} (hr : ∀ t, ∀ a ∈ rears t, Act.Returns a)
    (sched : List (Fin N)) (s : Sys N O M) (hi : ∃ hist, Inv F rears s hist) (hs : Suff rears s)
    (hc : ∀ t, (s.thr t).left ≤ sched.count t) : ∃ s', run sched s = .running s' ∧ s'.Joined := by
  induction sched generalizing s with
  | nil =>
    obtain ⟨hist, h⟩ := hi
    refine ⟨s, rfl, fun t => ?_⟩
    have := hc t
    have hd : (s.thr t).pc.done ≤ 4 := by cases (s.thr t).pc <;> simp [Pc.done]
    simp only [List.count_nil, Thr.left] at this
    exact List.length_eq_zero_iff.mp (by omega)
  | cons t l ih =>
    obtain ⟨hist, h⟩ := hi
    obtain ⟨s1, h1, h2, h3⟩ := step_progress h hs hr t
    simp only [run, h1]
    refine ih s1 (h.step h1) (hs.step h1) fun u => ?_
    have hu := hc u
    by_cases he : u = t
    · subst he
      rw [List.count_cons_self] at hu
      omega
    · rw [h3 u he]
      rw [List.count_cons_of_ne (Ne.symm he)] at hu
      exact hu

/-! ### Class style -/

/-- The log index a thread has fetched and not yet written. -/
def ClassPc.pending : ClassPc → Option Nat
  | .store i => some i
  | _ => none

/-- How many log indices a thread may still fetch. -/
def ClassThr.pot (x : ClassThr O M) : Nat :=
  match x.pc with
  | .store _ => x.rest.length - 1
  | _ => x.rest.length

/-- Every fetched index has been written, so was within the log, or is about to be written. -/
structure ClassInv (total : Nat) (s : ClassSys O M) : Prop where
  size : s.log.length = classLogSize
  below : ∀ t i, (s.thr t).pc.pending = some i → i < s.counter
  room : s.counter + (s.thr 0).pot + (s.thr 1).pot ≤ total
  seen : ∀ j, j < s.counter → j < classLogSize ∨ ∃ t, (s.thr t).pc.pending = some j
  idle : ∀ t, (s.thr t).rest = [] → (s.thr t).pc = .pre

/-- The unfinished actions of a thread are a suffix of its list. -/
def ClassSuff (rears : Fin 2 → List (ClassAct O M)) (s : ClassSys O M) : Prop :=
  ∀ t, (s.thr t).rest <:+ rears t

/-- What the thread has done for the first of its unfinished actions. -/
def ClassThr.begun (x : ClassThr O M) : List (ClassAct O M × ClassDoes) :=
  match x.rest, x.pc with
  | [], _ => []
  | _, .pre => []
  | a :: _, .run => [(a, .check true)]
  | a :: _, .fetch => [(a, .check true), (a, .run)]
  | a :: _, .store _ => [(a, .check true), (a, .run)]

/-- What has been executed so far. -/
def ClassLin (o₀ : O) (m₀ : M) (rears : Fin 2 → List (ClassAct O M)) (s : ClassSys O M) : Prop :=
  ∃ order, ClassLinear o₀ m₀ order s.obj s.model ∧
    ∀ t, ∃ passed es, rears t = passed ++ (s.thr t).rest ∧ InTurn passed es ∧
      ofThread t order = es ++ (s.thr t).begun

/-- An invariant of steps is an invariant of executions. -/
theorem classRun_induction {P : ClassSys O M → Prop}
    (hstep : ∀ s s' t, P s → classStep s t = .running s' → P s')
    {sched : List (Fin 2)} {s s' : ClassSys O M} (h0 : P s) (hr : classRun sched s = .running s') : P s' := by
  induction sched generalizing s with
  | nil => cases hr; exact h0
  | cons t l ih =>
    simp only [classRun] at hr
    split at hr
    · next s1 h1 => exact ih (hstep _ _ _ h0 h1) hr
    · cases hr
    · cases hr

theorem ClassInv.init (rears : Fin 2 → List (ClassAct O M)) (o : O) (m : M) :
    ClassInv ((rears 0).length + (rears 1).length) (classInit rears o m) where
  size := by simp [classInit]
  below := fun t i h => by simp [classInit, ClassPc.pending] at h
  room := by simp [classInit, ClassThr.pot]
  seen := fun j hj => by simp [classInit] at hj
  idle := fun t _ => rfl

theorem fin2_cases {P : Fin 2 → Prop} (t : Fin 2) (h : P t) (h' : ∀ u, u ≠ t → P u) : ∀ u, P u := fun u => by
  by_cases he : u = t
  · rw [he]; exact h
  · exact h' u he

theorem pot_setThr (s : ClassSys O M) (t : Fin 2) (x : ClassThr O M) :
    ((s.setThr t x).thr 0).pot + ((s.setThr t x).thr 1).pot + (s.thr t).pot =
      (s.thr 0).pot + (s.thr 1).pot + x.pot := by
  rcases (by omega : t = 0 ∨ t = 1) with rfl | rfl <;> simp [ClassSys.setThr] <;> omega

theorem ClassInv.step {total : Nat} {s s' : ClassSys O M} (h : ClassInv total s) {t : Fin 2}
    (hs : classStep s t = .running s') : ClassInv total s' := by
  have quiet : ∀ (x : ClassThr O M) (o : O) (m : M), x.pc.pending = none → (s.thr t).pc.pending = none →
      x.pot ≤ (s.thr t).pot → (x.rest = [] → x.pc = .pre) →
      ClassInv total { s.setThr t x with obj := o, model := m } := by
    intro x o m hx hold hpot hidle
    refine ⟨h.size, ?_, ?_, ?_, ?_⟩
    · intro u i hu
      simp only [ClassSys.setThr] at hu
      split_ifs at hu
      · rw [hx] at hu; cases hu
      · exact h.below u i hu
    · have h1 := pot_setThr s t x
      have h2 := h.room
      show s.counter + _ + _ ≤ _
      simp only at *
      omega
    · intro j hj
      rcases h.seen j hj with hq | ⟨u, hu⟩
      · exact .inl hq
      · refine .inr ⟨u, ?_⟩
        simp only [ClassSys.setThr]
        split_ifs with he
        · rw [he, hold] at hu; cases hu
        · exact hu
    · intro u hu
      simp only [ClassSys.setThr] at hu ⊢
      split_ifs at hu ⊢
      · exact hidle hu
      · exact h.idle u hu
  unfold classStep at hs
  split at hs
  · cases hs; exact h
  · next a as ht =>
    split at hs
    · cases hs
      exact quiet _ s.obj s.model rfl (by rw [ht]; rfl) (by rw [ht]; simp [ClassThr.pot]) (by simp)
    · cases hs
      exact quiet _ s.obj s.model rfl (by rw [ht]; rfl) (by rw [ht]; simp [ClassThr.pot]) (by simp)
    · cases hs
    · cases hs
    · cases hs; exact h
  · next a as ht =>
    split at hs
    · cases hs
      exact quiet _ _ _ rfl (by rw [ht]; rfl) (by rw [ht]; simp [ClassThr.pot]) (by simp)
    · cases hs
    · cases hs
    · cases hs
    · cases hs; exact h
  · next a as ht =>
    cases hs
    refine ⟨h.size, ?_, ?_, ?_, ?_⟩
    · intro u i hu
      simp only [ClassSys.setThr] at hu ⊢
      split_ifs at hu
      · simp [ClassPc.pending] at hu; omega
      · have := h.below u i hu; omega
    · have h1 := pot_setThr s t ⟨a :: as, .store s.counter⟩
      have h2 := h.room
      rw [ht] at h1
      have e1 : (ClassThr.mk (a :: as) (.store s.counter)).pot = as.length := rfl
      have e2 : (ClassThr.mk (a :: as) .fetch).pot = as.length + 1 := rfl
      rw [e1, e2] at h1
      show s.counter + 1 + _ + _ ≤ _
      simp only at *
      omega
    · intro j hj
      simp only at hj
      by_cases hjc : j = s.counter
      · exact .inr ⟨t, by simp [ClassSys.setThr, ClassPc.pending, hjc]⟩
      · rcases h.seen j (by omega) with hq | ⟨u, hu⟩
        · exact .inl hq
        · refine .inr ⟨u, ?_⟩
          simp only [ClassSys.setThr]
          split_ifs with he
          · rw [he, ht] at hu; cases hu
          · exact hu
    · intro u hu
      by_cases he : u = t
      · simp [ClassSys.setThr, he] at hu
      · simp only [ClassSys.setThr, if_neg he] at hu ⊢
        exact h.idle u hu
  · next a as i ht =>
    split_ifs at hs with hi
    cases hs
    refine ⟨by simpa using h.size, ?_, ?_, ?_, ?_⟩
    · intro u j hu
      simp only [ClassSys.setThr] at hu ⊢
      split_ifs at hu
      · cases hu
      · exact h.below u j hu
    · have h1 := pot_setThr s t ⟨as, .pre⟩
      have h2 := h.room
      rw [ht] at h1
      have e1 : (ClassThr.mk (a :: as) (.store i)).pot = as.length := rfl
      have e2 : (ClassThr.mk as .pre).pot = as.length := rfl
      rw [e1, e2] at h1
      show s.counter + _ + _ ≤ _
      simp only at *
      omega
    · intro j hj
      rcases h.seen j hj with hq | ⟨u, hu⟩
      · exact .inl hq
      · by_cases he : u = t
        · rw [he, ht] at hu
          simp only [ClassPc.pending, Option.some.injEq] at hu
          rw [h.size] at hi
          exact .inl (hu ▸ hi)
        · exact .inr ⟨u, by simp [ClassSys.setThr, he, hu]⟩
    · intro u hu
      simp only [ClassSys.setThr] at hu ⊢
      split_ifs at hu ⊢
      · rfl
      · exact h.idle u hu

theorem ClassSuff.step {rears : Fin 2 → List (ClassAct O M)} {s s' : ClassSys O M} (h : ClassSuff rears s)
    {t : Fin 2} (hs : classStep s t = .running s') : ClassSuff rears s' := by
  have key : ∀ (x : ClassThr O M), x.rest <:+ (s.thr t).rest → ∀ u, ((s.setThr t x).thr u).rest <:+ rears u := by
    intro x hx u
    simp only [ClassSys.setThr]
    split_ifs with he
    · subst he; exact hx.trans (h u)
    · exact h u
  unfold classStep at hs
  split at hs
  · cases hs; exact h
  · next a as ht =>
    split at hs
    · cases hs; exact key _ (by rw [ht])
    · cases hs; exact key _ (by rw [ht]; exact List.suffix_cons _ _)
    · cases hs
    · cases hs
    · cases hs; exact h
  · next a as ht =>
    split at hs
    · cases hs; exact key _ (by rw [ht])
    · cases hs
    · cases hs
    · cases hs
    · cases hs; exact h
  · next a as ht => cases hs; exact key _ (by rw [ht])
  · next a as i ht => split_ifs at hs; cases hs; exact key _ (by rw [ht]; exact List.suffix_cons _ _)

theorem classRun_inv {rears : Fin 2 → List (ClassAct O M)} {o : O} {m : M} {sched : List (Fin 2)}
    {s : ClassSys O M} (hr : classRun sched (classInit rears o m) = .running s) :
    ClassInv ((rears 0).length + (rears 1).length) s :=
  classRun_induction (P := ClassInv _) (fun _ _ _ h hs => h.step hs) (ClassInv.init rears o m) hr

theorem classStep_ne_ub {total : Nat} {rears : Fin 2 → List (ClassAct O M)} {s : ClassSys O M}
    (h : ClassInv total s) (hs : ClassSuff rears s) (ht : total ≤ classLogSize)
    (hd : ∀ t, ∀ a ∈ rears t, ClassAct.Defined a) (t : Fin 2) : classStep s t ≠ .ub := by
  intro hu
  have hsf := hs t
  unfold classStep at hu
  split at hu
  · cases hu
  · next a as h1 =>
    rw [h1] at hsf
    have := hd t a (hsf.subset (by simp)) s.obj s.model
    split at hu <;> first | exact this.1 (by assumption) | cases hu
  · next a as h1 =>
    rw [h1] at hsf
    have := hd t a (hsf.subset (by simp)) s.obj s.model
    split at hu <;> first | exact this.2 (by assumption) | cases hu
  · cases hu
  · next a as i h1 =>
    have h2 := h.below t i (by rw [h1]; rfl)
    have h3 := h.room
    rw [if_pos (by rw [h.size]; omega)] at hu
    cases hu

theorem classRun_ne_ub {rears : Fin 2 → List (ClassAct O M)}
    (ht : (rears 0).length + (rears 1).length ≤ classLogSize)
    (hd : ∀ t, ∀ a ∈ rears t, ClassAct.Defined a) (o : O) (m : M) (sched : List (Fin 2)) :
    classRun sched (classInit rears o m) ≠ .ub := by
  have key : ∀ (sched : List (Fin 2)) (s : ClassSys O M),
      ClassInv ((rears 0).length + (rears 1).length) s → ClassSuff rears s → classRun sched s ≠ .ub := by
    intro sched
    induction sched with
    | nil => intro s _ _ h; cases h
    | cons t l ih =>
      intro s h hs hu
      simp only [classRun] at hu
      split at hu
      · next s1 h1 => exact ih s1 (h.step h1) (hs.step h1) hu
      · next h1 => exact classStep_ne_ub h hs ht hd t h1
      · cases hu
  exact key sched _ (ClassInv.init rears o m) (fun _ => List.suffix_refl _)

/-- Steps done for the current action. -/
def ClassPc.done : ClassPc → Nat
  | .pre => 0
  | .run => 1
  | .fetch => 2
  | .store _ => 3

/-- The steps left for a thread all of whose actions are executed. -/
def ClassThr.left (x : ClassThr O M) : Nat := 4 * x.rest.length - x.pc.done

/-- All actions run, so every one takes a log entry. -/
def ClassFull (total : Nat) (s : ClassSys O M) : Prop := s.counter + (s.thr 0).pot + (s.thr 1).pot = total

theorem classStep_progress {rears : Fin 2 → List (ClassAct O M)} {s : ClassSys O M} {total : Nat}
    (hf : ClassFull total s) (hs : ClassSuff rears s) (hr : ∀ t, ∀ a ∈ rears t, ClassAct.Runs a) (t : Fin 2) :
    classStep s t = .ub ∨ ∃ s', classStep s t = .running s' ∧ (s'.thr t).left = (s.thr t).left - 1 ∧
      (∀ u, u ≠ t → s'.thr u = s.thr u) ∧ ClassFull total s' := by
  have hsf := hs t
  have full : ∀ (x : ClassThr O M) (o : O) (m : M) (l : List Int), x.pot = (s.thr t).pot →
      ClassFull total { s.setThr t x with obj := o, model := m, log := l } := by
    intro x o m l hx
    have h1 := pot_setThr s t x
    unfold ClassFull at hf ⊢
    show s.counter + _ + _ = _
    simp only at *
    omega
  unfold classStep
  split
  · next p ht => exact .inr ⟨s, rfl, by rw [ht]; simp [ClassThr.left], fun _ _ => rfl, hf⟩
  · next a as ht =>
    rw [ht] at hsf
    rw [(hr t a (hsf.subset (by simp)) s.obj s.model).1]
    refine .inr ⟨_, rfl, ?_, fun u hu => by simp [ClassSys.setThr, hu], ?_⟩
    · rw [ht]; simp [ClassSys.setThr, ClassThr.left, ClassPc.done]
    · exact full _ s.obj s.model s.log (by rw [ht]; rfl)
  · next a as ht =>
    rw [ht] at hsf
    obtain ⟨⟨o, m⟩, hq⟩ := (hr t a (hsf.subset (by simp)) s.obj s.model).2
    rw [hq]
    refine .inr ⟨_, rfl, ?_, fun u hu => by simp [ClassSys.setThr, hu], ?_⟩
    · rw [ht]; simp [ClassSys.setThr, ClassThr.left, ClassPc.done]; omega
    · exact full _ o m s.log (by rw [ht]; rfl)
  · next a as ht =>
    refine .inr ⟨_, rfl, ?_, fun u hu => by simp [ClassSys.setThr, hu], ?_⟩
    · rw [ht]; simp [ClassSys.setThr, ClassThr.left, ClassPc.done]; omega
    · have h1 := pot_setThr s t ⟨a :: as, .store s.counter⟩
      rw [ht] at h1
      unfold ClassFull at hf ⊢
      simp only [ClassThr.pot, List.length_cons] at h1 hf ⊢
      omega
  · next a as i ht =>
    by_cases hi : i < s.log.length
    · rw [if_pos hi]
      refine .inr ⟨_, rfl, ?_, fun u hu => by simp [ClassSys.setThr, hu], ?_⟩
      · rw [ht]; simp [ClassSys.setThr, ClassThr.left, ClassPc.done]; omega
      · exact full _ s.obj s.model _ (by rw [ht]; simp [ClassThr.pot])
    · rw [if_neg hi]; exact .inl rfl

theorem classRun_progress {rears : Fin 2 → List (ClassAct O M)} {total : Nat}
    (hr : ∀ t, ∀ a ∈ rears t, ClassAct.Runs a) (sched : List (Fin 2)) (s : ClassSys O M)
    (hf : ClassFull total s) (hs : ClassSuff rears s) (hc : ∀ t, (s.thr t).left ≤ sched.count t) :
    classRun sched s = .ub ∨ ∃ s', classRun sched s = .running s' ∧ s'.Joined ∧ ClassFull total s' := by
  induction sched generalizing s with
  | nil =>
    refine .inr ⟨s, rfl, fun t => ?_, hf⟩
    have := hc t
    have hd : (s.thr t).pc.done ≤ 3 := by cases (s.thr t).pc <;> simp [ClassPc.done]
    simp only [List.count_nil, ClassThr.left] at this
    exact List.length_eq_zero_iff.mp (by omega)
  | cons t l ih =>
    rcases classStep_progress hf hs hr t with h1 | ⟨s1, h1, h2, h3, h4⟩
    · left; simp only [classRun, h1]
    · simp only [classRun, h1]
      refine ih s1 h4 (hs.step h1) fun u => ?_
      have hu := hc u
      by_cases he : u = t
      · subst he
        rw [List.count_cons_self] at hu
        omega
      · rw [h3 u he]
        rw [List.count_cons_of_ne (Ne.symm he)] at hu
        exact hu

theorem ofThread_snoc {N : Nat} {α : Type} (u t : Fin N) (order : List (Fin N × α)) (x : α) :
    ofThread u (order ++ [(t, x)]) = ofThread u order ++ if u = t then [x] else [] := by
  by_cases h : u = t
  · simp [ofThread, h]
  · simp [ofThread, h, Ne.symm h]

theorem ClassLin.step {o₀ : O} {m₀ : M} {rears : Fin 2 → List (ClassAct O M)} {s s' : ClassSys O M}
    (h : ClassLin o₀ m₀ rears s) {t : Fin 2} (hs : classStep s t = .running s') : ClassLin o₀ m₀ rears s' := by
  unfold classStep at hs
  split at hs
  · cases hs; exact h
  · next a as ht =>
    split at hs
    · next hq =>
      cases hs
      obtain ⟨order, h1, h2⟩ := h
      refine ⟨order ++ [(t, a, .check true)], .check t a true h1 hq, fun u => ?_⟩
      obtain ⟨passed, es, h3, h4, h5⟩ := h2 u
      rw [ofThread_snoc, h5]
      by_cases he : u = t
      · subst he
        rw [ht] at h3 ⊢
        exact ⟨passed, es, by simpa [ClassSys.setThr] using h3, h4, by simp [ClassSys.setThr, ClassThr.begun]⟩
      · exact ⟨passed, es, by simpa [ClassSys.setThr, he] using h3, h4, by simp [ClassSys.setThr, he]⟩
    · next hq =>
      cases hs
      obtain ⟨order, h1, h2⟩ := h
      refine ⟨order ++ [(t, a, .check false)], .check t a false h1 hq, fun u => ?_⟩
      obtain ⟨passed, es, h3, h4, h5⟩ := h2 u
      rw [ofThread_snoc, h5]
      by_cases he : u = t
      · subst he
        rw [ht] at h3 ⊢
        refine ⟨passed ++ [a], es ++ [(a, .check false)], by simpa [ClassSys.setThr] using h3,
          h4.append (.skip a .nil), ?_⟩
        cases as <;> simp [ClassSys.setThr, ClassThr.begun]
      · exact ⟨passed, es, by simpa [ClassSys.setThr, he] using h3, h4, by simp [ClassSys.setThr, he]⟩
    · cases hs
    · cases hs
    · cases hs; exact h
  · next a as ht =>
    split at hs
    · next o m hq =>
      cases hs
      obtain ⟨order, h1, h2⟩ := h
      refine ⟨order ++ [(t, a, .run)], .run t a o m h1 hq, fun u => ?_⟩
      obtain ⟨passed, es, h3, h4, h5⟩ := h2 u
      rw [ofThread_snoc, h5]
      by_cases he : u = t
      · subst he
        rw [ht] at h3 ⊢
        exact ⟨passed, es, by simpa [ClassSys.setThr] using h3, h4, by simp [ClassSys.setThr, ClassThr.begun]⟩
      · exact ⟨passed, es, by simpa [ClassSys.setThr, he] using h3, h4, by simp [ClassSys.setThr, he]⟩
    · cases hs
    · cases hs
    · cases hs
    · cases hs; exact h
  · next a as ht =>
    cases hs
    obtain ⟨order, h1, h2⟩ := h
    refine ⟨order, h1, fun u => ?_⟩
    obtain ⟨passed, es, h3, h4, h5⟩ := h2 u
    rw [h5]
    by_cases he : u = t
    · subst he
      rw [ht] at h3 ⊢
      exact ⟨passed, es, by simpa [ClassSys.setThr] using h3, h4, by simp [ClassSys.setThr, ClassThr.begun]⟩
    · exact ⟨passed, es, by simpa [ClassSys.setThr, he] using h3, h4, by simp [ClassSys.setThr, he]⟩
  · next a as i ht =>
    split_ifs at hs
    cases hs
    obtain ⟨order, h1, h2⟩ := h
    refine ⟨order, h1, fun u => ?_⟩
    obtain ⟨passed, es, h3, h4, h5⟩ := h2 u
    rw [h5]
    by_cases he : u = t
    · subst he
      rw [ht] at h3 ⊢
      refine ⟨passed ++ [a], es ++ [(a, .check true), (a, .run)], by simpa [ClassSys.setThr] using h3,
        h4.append (.exec a .nil), ?_⟩
      cases as <;> simp [ClassSys.setThr, ClassThr.begun]
    · exact ⟨passed, es, by simpa [ClassSys.setThr, he] using h3, h4, by simp [ClassSys.setThr, he]⟩

theorem classRun_lin {rears : Fin 2 → List (ClassAct O M)} {o : O} {m : M} {sched : List (Fin 2)}
    {s : ClassSys O M} (hr : classRun sched (classInit rears o m) = .running s) : ClassLin o m rears s :=
  classRun_induction (P := ClassLin o m rears) (fun _ _ _ h hs => h.step hs)
    ⟨[], .nil, fun t => ⟨[], [], by simp [classInit], .nil, by
      cases h : rears t <;> simp [ofThread, classInit, ClassThr.begun, h]⟩⟩ hr

theorem classRun_suff {rears : Fin 2 → List (ClassAct O M)} {o : O} {m : M} {sched : List (Fin 2)}
    {s : ClassSys O M} (hr : classRun sched (classInit rears o m) = .running s) : ClassSuff rears s :=
  classRun_induction (P := ClassSuff rears) (fun _ _ _ h hs => h.step hs) (fun _ => List.suffix_refl _) hr

end Concurrency
end Verif
