import Mathlib.Algebra.BigOperators.Fin
import Mathlib.Algebra.Order.BigOperators.Group.Finset
import Mathlib.Data.List.Count
import Mathlib.Tactic.Ring
import Mathlib.Tactic.Linarith
import Mathlib.Tactic.SplitIfs
import Verif.Model.Concurrency
/-
Invariants of the concurrent runs.
-/
namespace Verif
namespace Concurrency
open Engine Stateful
variable {O M : Type} {N : Nat}

/-- The log index a thread has fetched and not yet written. -/
def Pc.pending : Pc → Option Nat
  | .startStore i => some i
  | .stopStore i => some i
  | _ => none

/-- How many log indices the thread has fetched for its current action. -/
def Pc.fetched : Pc → Nat
  | .start => 0
  | .startStore _ => 1
  | .act => 1
  | .stop => 1
  | .stopStore _ => 2

/-- How many log indices thread `t` has fetched. -/
def fetched (rears : Fin N → List (Act O M)) (s : Sys N O M) (t : Fin N) : Nat :=
  2 * ((rears t).length - (s.thr t).rest.length) + (s.thr t).pc.fetched

/-- `hist` lists the threads that have fetched a log index, oldest first. -/
structure Inv (F : Nat) (rears : Fin N → List (Act O M)) (s : Sys N O M) (hist : List (Fin N)) : Prop where
  counter : s.counter = F + hist.length
  size : s.log.length = F + ∑ t, (rears t).length * 2
  front : ∀ j, j < F → s.log[j]? = some frontId
  written : ∀ k (hk : k < hist.length),
    s.log[F + k]? = some ((hist[k] : Nat) : Int) ∨ (s.thr hist[k]).pc.pending = some (F + k)
  pending : ∀ t i, (s.thr t).pc.pending = some i → ∃ k, i = F + k ∧ hist[k]? = some t
  count : ∀ t, hist.count t = fetched rears s t
  suffix : ∀ t, (s.thr t).rest.length ≤ (rears t).length
  idle : ∀ t, (s.thr t).rest = [] → (s.thr t).pc = .start

theorem length_eq_sum_count (l : List (Fin N)) : l.length = ∑ t, l.count t := by
  induction l with
  | nil => simp
  | cons a l ih =>
    simp only [List.length_cons, List.count_cons, Finset.sum_add_distrib, ih]
    simp

theorem rearInit_size (F : Nat) (rears : Fin N → List (Act O M)) (o : O) (m : M) :
    (rearInit F rears o m).log.length = F + ∑ t, (rears t).length * 2 := by
  simp [rearInit, List.length_flatten, List.map_map, Function.comp_def, Fin.sum_univ_def]

theorem Inv.init (F : Nat) (rears : Fin N → List (Act O M)) (o : O) (m : M) :
    Inv F rears (rearInit F rears o m) [] where
  counter := by simp [rearInit]
  size := rearInit_size F rears o m
  front := fun j hj => by
    simp only [rearInit]
    rw [List.getElem?_append_left (by simpa using hj)]
    simp [hj]
  written := fun k hk => by simp at hk
  pending := fun t i h => by simp [rearInit, Pc.pending] at h
  count := fun t => by simp [fetched, rearInit, Pc.fetched]
  suffix := fun t => by simp [rearInit]
  idle := fun t _ => rfl

theorem fetched_le {F : Nat} {rears : Fin N → List (Act O M)} {s : Sys N O M} {hist : List (Fin N)}
    (h : Inv F rears s hist) (t : Fin N) : fetched rears s t ≤ (rears t).length * 2 := by
  have h1 := h.suffix t
  have h2 := h.idle t
  unfold fetched
  cases hr : (s.thr t).rest with
  | nil => simp [h2 hr, Pc.fetched]; omega
  | cons a as =>
    rw [hr] at h1
    simp only [List.length_cons] at h1 ⊢
    have : (s.thr t).pc.fetched ≤ 2 := by cases (s.thr t).pc <;> simp [Pc.fetched]
    omega

theorem Inv.hist_le {F : Nat} {rears : Fin N → List (Act O M)} {s : Sys N O M} {hist : List (Fin N)}
    (h : Inv F rears s hist) : hist.length ≤ ∑ t, (rears t).length * 2 := by
  rw [length_eq_sum_count]
  apply Finset.sum_le_sum
  intro t _
  rw [h.count t]
  exact fetched_le h t

theorem Inv.pending_lt {F : Nat} {rears : Fin N → List (Act O M)} {s : Sys N O M} {hist : List (Fin N)}
    (h : Inv F rears s hist) {t : Fin N} {i : Nat} (hp : (s.thr t).pc.pending = some i) : i < s.log.length := by
  obtain ⟨k, rfl, hk⟩ := h.pending t i hp
  have := (List.getElem?_eq_some_iff.mp hk).1
  have := h.hist_le
  rw [h.size]; omega

/-- A step that fetches a log index. -/
theorem Inv.fetch {F : Nat} {rears : Fin N → List (Act O M)} {s : Sys N O M} {hist : List (Fin N)}
    (h : Inv F rears s hist) (t : Fin N) (x : Thr O M) (hrest : x.rest = (s.thr t).rest)
    (hne : x.rest ≠ []) (hpc : x.pc.fetched = (s.thr t).pc.fetched + 1) (hpen : x.pc.pending = some s.counter)
    (hold : (s.thr t).pc.pending = none) :
    Inv F rears { s.setThr t x with counter := s.counter + 1 } (hist ++ [t]) where
  counter := by simp [h.counter]; omega
  size := h.size
  front := h.front
  written := fun k hk => by
    simp only [List.length_append, List.length_singleton] at hk
    by_cases hkl : k < hist.length
    · rw [List.getElem_append_left hkl]
      rcases h.written k hkl with hw | hw
      · exact .inl hw
      · right
        simp only [Sys.setThr]
        split_ifs with he
        · rw [he, hold] at hw; cases hw
        · exact hw
    · obtain rfl : k = hist.length := by omega
      right
      simp [Sys.setThr, hpen, h.counter]
  pending := fun u i hu => by
    simp only [Sys.setThr] at hu
    split_ifs at hu with he
    · rw [hpen] at hu
      cases hu
      exact ⟨hist.length, h.counter, by simp [he]⟩
    · obtain ⟨k, rfl, hk⟩ := h.pending u i hu
      refine ⟨k, rfl, ?_⟩
      rw [List.getElem?_append_left (List.getElem?_eq_some_iff.mp hk).1]
      exact hk
  count := fun u => by
    have hu := h.count u
    simp only [List.count_append, fetched, Sys.setThr] at hu ⊢
    split_ifs with he
    · subst he
      rw [hrest, hpc, hu]
      simp; omega
    · rw [hu]
      simp [Ne.symm he]
  suffix := fun u => by
    simp only [Sys.setThr]
    split_ifs with he
    · subst he; rw [hrest]; exact h.suffix u
    · exact h.suffix u
  idle := fun u hu => by
    simp only [Sys.setThr] at hu ⊢
    split_ifs at hu ⊢ with he
    · exact absurd hu hne
    · exact h.idle u hu

/-- A step that writes a fetched index. -/
theorem Inv.store {F : Nat} {rears : Fin N → List (Act O M)} {s : Sys N O M} {hist : List (Fin N)}
    (h : Inv F rears s hist) (t : Fin N) (x : Thr O M) (i : Nat)
    (hold : (s.thr t).pc.pending = some i) (hpen : x.pc.pending = none)
    (hcount : 2 * ((rears t).length - x.rest.length) + x.pc.fetched = fetched rears s t)
    (hsuf : x.rest.length ≤ (rears t).length) (hidle : x.rest = [] → x.pc = .start) :
    Inv F rears { s.setThr t x with log := s.log.set i ((t : Nat) : Int) } hist where
  counter := h.counter
  size := by simpa using h.size
  front := fun j hj => by
    obtain ⟨k, rfl, hk⟩ := h.pending t i hold
    simp only [List.getElem?_set]
    rw [if_neg (by omega)]
    exact h.front j hj
  written := fun k hk => by
    obtain ⟨k', hi, hk'⟩ := h.pending t i hold
    have hlt := h.pending_lt hold
    have hk'' := List.getElem?_eq_some_iff.mp hk'
    subst hi
    by_cases hkk : k = k'
    · subst hkk
      left
      simp only [List.getElem?_set, if_true]
      rw [if_pos hlt, hk''.2]
    · rcases h.written k hk with hw | hw
      · left
        simp only [List.getElem?_set]
        rw [if_neg (by omega)]
        exact hw
      · right
        simp only [Sys.setThr]
        split_ifs with he
        · rw [he, hold] at hw
          simp at hw; omega
        · exact hw
  pending := fun u j hu => by
    simp only [Sys.setThr] at hu
    split_ifs at hu with he
    · rw [hpen] at hu; cases hu
    · exact h.pending u j hu
  count := fun u => by
    have hu := h.count u
    simp only [fetched, Sys.setThr] at hu hcount ⊢
    split_ifs with he
    · subst he; rw [hcount]; exact hu
    · exact hu
  suffix := fun u => by
    simp only [Sys.setThr]
    split_ifs with he
    · subst he; exact hsuf
    · exact h.suffix u
  idle := fun u hu => by
    simp only [Sys.setThr] at hu ⊢
    split_ifs at hu ⊢ with he
    · exact hidle hu
    · exact h.idle u hu

/-- A step that runs an action. -/
theorem Inv.acted {F : Nat} {rears : Fin N → List (Act O M)} {s : Sys N O M} {hist : List (Fin N)}
    (h : Inv F rears s hist) (t : Fin N) (x : Thr O M) (o : O) (hrest : x.rest = (s.thr t).rest)
    (hne : x.rest ≠ []) (hpc : x.pc.fetched = (s.thr t).pc.fetched) (hpen : x.pc.pending = none)
    (hold : (s.thr t).pc.pending = none) :
    Inv F rears { s.setThr t x with obj := o } hist where
  counter := h.counter
  size := h.size
  front := h.front
  written := fun k hk => by
    rcases h.written k hk with hw | hw
    · exact .inl hw
    · right
      simp only [Sys.setThr]
      split_ifs with he
      · rw [he, hold] at hw; cases hw
      · exact hw
  pending := fun u i hu => by
    simp only [Sys.setThr] at hu
    split_ifs at hu with he
    · rw [hpen] at hu; cases hu
    · exact h.pending u i hu
  count := fun u => by
    have hu := h.count u
    simp only [fetched, Sys.setThr] at hu ⊢
    split_ifs with he
    · subst he
      rw [hrest, hpc]; exact hu
    · exact hu
  suffix := fun u => by
    simp only [Sys.setThr]
    split_ifs with he
    · subst he; rw [hrest]; exact h.suffix u
    · exact h.suffix u
  idle := fun u hu => by
    simp only [Sys.setThr] at hu ⊢
    split_ifs at hu ⊢ with he
    · exact absurd hu hne
    · exact h.idle u hu

/-- The invariant is kept by every step that does not end the run. -/
theorem Inv.step {F : Nat} {rears : Fin N → List (Act O M)} {s s' : Sys N O M} {hist : List (Fin N)}
    (h : Inv F rears s hist) {t : Fin N} (hs : step s t = .running s') :
    ∃ hist', Inv F rears s' hist' := by
  unfold Concurrency.step at hs
  split at hs
  · cases hs; exact ⟨hist, h⟩
  · next a as m ht =>
    cases hs
    exact ⟨_, h.fetch t _ (by rw [ht]) (by simp) (by rw [ht]; rfl) rfl (by rw [ht]; rfl)⟩
  · next a as i m ht =>
    have h2 := h.suffix t
    rw [ht] at h2
    split_ifs at hs
    cases hs
    exact ⟨hist, h.store t _ i (by rw [ht]; rfl) rfl (by unfold fetched; rw [ht]; rfl) h2 (by simp)⟩
  · next a as m ht =>
    split at hs
    · cases hs
      exact ⟨hist, h.acted t _ _ (by rw [ht]) (by simp) (by rw [ht]; rfl) rfl (by rw [ht]; rfl)⟩
    · cases hs
    · cases hs
    · cases hs; exact ⟨hist, h⟩
  · next a as m ht =>
    cases hs
    exact ⟨_, h.fetch t _ (by rw [ht]) (by simp) (by rw [ht]; rfl) rfl (by rw [ht]; rfl)⟩
  · next a as i m ht =>
    have h2 := h.suffix t
    rw [ht] at h2
    simp only [List.length_cons] at h2
    split_ifs at hs
    cases hs
    refine ⟨hist, h.store t _ i (by rw [ht]; rfl) rfl ?_ (by simp; omega) (by simp)⟩
    unfold fetched
    rw [ht]
    simp [Pc.fetched]
    omega

/-- The actions never run into undefined behaviour by themselves. -/
def Defined (rears : Fin N → List (Act O M)) : Prop :=
  ∀ t, ∀ a ∈ rears t, ∀ o m, (a o m).out ≠ .ub

/-- The unfinished actions of a thread are a suffix of its list. -/
def Suff (rears : Fin N → List (Act O M)) (s : Sys N O M) : Prop :=
  ∀ t, (s.thr t).rest <:+ rears t

theorem Suff.step {rears : Fin N → List (Act O M)} {s s' : Sys N O M} (h : Suff rears s) {t : Fin N}
    (hs : step s t = .running s') : Suff rears s' := by
  unfold Concurrency.step at hs
  have key : ∀ (x : Thr O M), x.rest <:+ (s.thr t).rest → ∀ u, ((s.setThr t x).thr u).rest <:+ rears u := by
    intro x hx u
    simp only [Sys.setThr]
    split_ifs with he
    · subst he; exact hx.trans (h u)
    · exact h u
  split at hs
  · cases hs; exact h
  · next a as m ht => cases hs; exact key _ (by rw [ht])
  · next a as i m ht => split_ifs at hs; cases hs; exact key _ (by rw [ht])
  · next a as m ht =>
    split at hs
    · cases hs; exact key _ (by rw [ht])
    · cases hs
    · cases hs
    · cases hs; exact h
  · next a as m ht => cases hs; exact key _ (by rw [ht])
  · next a as i m ht => split_ifs at hs; cases hs; exact key _ (by rw [ht]; exact List.suffix_cons _ _)

theorem Inv.step_ne_ub {F : Nat} {rears : Fin N → List (Act O M)} {s : Sys N O M} {hist : List (Fin N)}
    (h : Inv F rears s hist) (hd : Defined rears) (hs : Suff rears s) (t : Fin N) :
    Concurrency.step s t ≠ .ub := by
  intro hu
  unfold Concurrency.step at hu
  split at hu
  · cases hu
  · cases hu
  · next a as i m ht =>
    rw [if_pos (h.pending_lt (t := t) (by rw [ht]; rfl))] at hu; cases hu
  · next a as m ht =>
    split at hu
    · cases hu
    · cases hu
    · next hq =>
      have hsf := hs t
      rw [ht] at hsf
      exact hd t a (hsf.subset (by simp)) _ _ hq
    · cases hu
  · cases hu
  · next a as i m ht =>
    rw [if_pos (h.pending_lt (t := t) (by rw [ht]; rfl))] at hu; cases hu

theorem run_append (s : Sys N O M) (l l' : List (Fin N)) :
    run (l ++ l') s = match run l s with
      | .running s' => run l' s'
      | .ub => .ub
      | .terminated => .terminated := by
  induction l generalizing s with
  | nil => rfl
  | cons t l ih =>
    simp only [List.cons_append, run]
    cases step s t with
    | running s' => exact ih s'
    | ub => rfl
    | terminated => rfl

/-- An invariant of steps is an invariant of executions. -/
theorem run_induction {P : Sys N O M → Prop} (hstep : ∀ s s' t, P s → step s t = .running s' → P s')
    {sched : List (Fin N)} {s s' : Sys N O M} (h0 : P s) (hr : run sched s = .running s') : P s' := by
  induction sched generalizing s with
  | nil => cases hr; exact h0
  | cons t l ih =>
    simp only [run] at hr
    split at hr
    · next s1 h1 => exact ih (hstep _ _ _ h0 h1) hr
    · cases hr
    · cases hr

theorem run_inv {F : Nat} {rears : Fin N → List (Act O M)} {o : O} {m : M} {sched : List (Fin N)} {s : Sys N O M}
    (hr : run sched (rearInit F rears o m) = .running s) : ∃ hist, Inv F rears s hist :=
  run_induction (P := fun s => ∃ hist, Inv F rears s hist) (fun _ _ _ ⟨_, h⟩ hs => h.step hs)
    ⟨[], Inv.init F rears o m⟩ hr

theorem run_suff {F : Nat} {rears : Fin N → List (Act O M)} {o : O} {m : M} {sched : List (Fin N)} {s : Sys N O M}
    (hr : run sched (rearInit F rears o m) = .running s) : Suff rears s :=
  run_induction (P := Suff rears) (fun _ _ _ h hs => h.step hs) (fun _ => List.suffix_refl _) hr

theorem run_ne_ub {F : Nat} {rears : Fin N → List (Act O M)} (hd : Defined rears) (o : O) (m : M)
    (sched : List (Fin N)) : run sched (rearInit F rears o m) ≠ .ub := by
  have key : ∀ (sched : List (Fin N)) (s : Sys N O M), (∃ hist, Inv F rears s hist) → Suff rears s →
      run sched s ≠ .ub := by
    intro sched
    induction sched with
    | nil => intro s _ _ h; cases h
    | cons t l ih =>
      rintro s ⟨hist, h⟩ hs hu
      simp only [run] at hu
      split at hu
      · next s1 h1 => exact ih s1 (h.step h1) (hs.step h1) hu
      · next h1 => exact h.step_ne_ub hd hs t h1
      · cases hu
  exact key sched _ ⟨[], Inv.init F rears o m⟩ (fun _ => List.suffix_refl _)

/-- The log once all threads are done. -/
theorem Inv.joined {F : Nat} {rears : Fin N → List (Act O M)} {s : Sys N O M} {hist : List (Fin N)}
    (h : Inv F rears s hist) (hj : s.Joined) :
    s.counter = s.log.length ∧ s.log = List.replicate F frontId ++ hist.map (fun t : Fin N => ((t : Nat) : Int)) ∧
      ∀ t, hist.count t = (rears t).length * 2 := by
  have hc : ∀ t, hist.count t = (rears t).length * 2 := by
    intro t
    rw [h.count t, fetched, hj t, h.idle t (hj t)]
    simp [Pc.fetched]; omega
  have hl : hist.length = ∑ t, (rears t).length * 2 := by
    rw [length_eq_sum_count]; exact Finset.sum_congr rfl fun t _ => hc t
  refine ⟨by rw [h.counter, h.size, hl], ?_, hc⟩
  apply List.ext_getElem?
  intro j
  by_cases hjF : j < F
  · rw [h.front j hjF, List.getElem?_append_left (by simpa using hjF)]
    simp [hjF]
  · rw [List.getElem?_append_right (by simp; omega)]
    simp only [List.length_replicate]
    by_cases hjl : j - F < hist.length
    · have := h.written (j - F) hjl
      rw [show F + (j - F) = j by omega] at this
      rcases this with hw | hw
      · rw [hw, List.getElem?_map, List.getElem?_eq_getElem hjl]; rfl
      · rw [h.idle _ (hj _)] at hw; cases hw
    · have h1 := h.size
      rw [List.getElem?_eq_none (by omega), List.getElem?_eq_none (by simp; omega)]

/-! ### Replay -/

/-- The thread of a printed rear event. -/
def Shown.thread? : Shown N → Option (Fin N)
  | .front _ => none
  | .start t _ => some t
  | .stop t _ => some t

/-- What the replay prints for a thread with `n` log entries left. -/
def expected (t : Fin N) : Nat → Bool → Nat → List (Shown N)
  | _, _, 0 => []
  | k, true, n + 1 => .stop t k :: expected t (k + 1) false n
  | k, false, n + 1 => .start t k :: expected t k true n

theorem expected_eq (t : Fin N) (k n : Nat) :
    expected t k false (n * 2) = (List.range' k n).flatMap fun j => [Shown.start t j, Shown.stop t j] := by
  induction n generalizing k with
  | zero => rfl
  | succ n ih =>
    rw [show (n + 1) * 2 = n * 2 + 1 + 1 by ring]
    simp only [expected, List.range'_succ, List.flatMap_cons, ih]
    rfl

theorem replay_hist (F : Nat) (len : Fin N → Nat) (hist : List (Fin N)) (r : Replay N)
    (hle : ∀ t, 2 * r.rearItrs t + (r.started t).toNat + hist.count t ≤ 2 * len t) :
    ∃ shown, replay F len (hist.map (fun t : Fin N => ((t : Nat) : Int))) r = .ok shown ∧
      (∀ t, shown.filter (fun e => e.thread? = some t) = expected t (r.rearItrs t) (r.started t) (hist.count t)) ∧
      shown.filter (fun e => e.thread? = none) = [] := by
  induction hist generalizing r with
  | nil => exact ⟨[], rfl, fun t => by simp [expected], rfl⟩
  | cons u hist ih =>
    have hu := hle u
    simp only [List.count_cons_self] at hu
    have hlt : r.rearItrs u < len u := by omega
    simp only [List.map_cons, replay]
    rw [if_neg (by simp [frontId]), dif_pos ⟨by omega, by simp⟩]
    have hfin : ∀ hN, (⟨((u : Nat) : Int).toNat, hN⟩ : Fin N) = u := fun hN => Fin.ext (by simp)
    simp only [hfin]
    rw [if_pos hlt]
    by_cases hst : r.started u = true
    · rw [if_pos hst]
      obtain ⟨shown, h1, h2, h3⟩ := ih
        { r with
          rearItrs := fun v => if v = u then r.rearItrs u + 1 else r.rearItrs v
          started := fun v => if v = u then false else r.started v } (by
          intro v
          have hv := hle v
          simp only
          split_ifs with he
          · subst he; rw [hst] at hu; simp at hu ⊢; omega
          · rw [List.count_cons_of_ne (Ne.symm he)] at hv; exact hv)
      refine ⟨.stop u (r.rearItrs u) :: shown, by rw [h1]; rfl, ?_, ?_⟩
      · intro v
        by_cases he : u = v
        · subst he
          have := h2 u
          simp only [if_true] at this
          rw [List.filter_cons_of_pos (by simp [Shown.thread?]), this, List.count_cons_self, hst, expected]
        · have := h2 v
          simp only [if_neg (Ne.symm he)] at this
          rw [List.filter_cons_of_neg (by simp [Shown.thread?, he]), this, List.count_cons_of_ne he]
      · rw [List.filter_cons_of_neg (by simp [Shown.thread?]), h3]
    · simp only [Bool.not_eq_true] at hst
      rw [if_neg (by simp [hst])]
      obtain ⟨shown, h1, h2, h3⟩ := ih
        { r with started := fun v => if v = u then true else r.started v } (by
          intro v
          have hv := hle v
          simp only
          split_ifs with he
          · subst he; rw [hst] at hu; simp at hu ⊢; omega
          · rw [List.count_cons_of_ne (Ne.symm he)] at hv; exact hv)
      refine ⟨.start u (r.rearItrs u) :: shown, by rw [h1]; rfl, ?_, ?_⟩
      · intro v
        by_cases he : u = v
        · subst he
          have := h2 u
          simp only [if_true] at this
          rw [List.filter_cons_of_pos (by simp [Shown.thread?]), this, List.count_cons_self, hst, expected]
        · have := h2 v
          simp only [if_neg (Ne.symm he)] at this
          rw [List.filter_cons_of_neg (by simp [Shown.thread?, he]), this, List.count_cons_of_ne he]
      · rw [List.filter_cons_of_neg (by simp [Shown.thread?]), h3]

theorem replay_front (F : Nat) (len : Fin N → Nat) (log : List Int) (n : Nat) (r : Replay N)
    (hn : r.frontItr + n = F) {shown : List (Shown N)}
    (h : replay F len log { r with frontItr := F } = .ok shown) :
    replay F len (List.replicate n frontId ++ log) r =
      .ok ((List.range' r.frontItr n).map Shown.front ++ shown) := by
  induction n generalizing r with
  | zero =>
    obtain rfl : r.frontItr = F := by omega
    simpa using h
  | succ n ih =>
    rw [List.replicate_succ, List.cons_append, replay, if_pos rfl, if_pos (by omega)]
    have := ih { r with frontItr := r.frontItr + 1 } (by simp; omega) h
    rw [this]
    simp [List.range'_succ]

end Concurrency
end Verif
