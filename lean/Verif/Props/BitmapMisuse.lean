import Verif.Model.BitmapMisuse
import Verif.Props.Bitmap
/-
C164 and C165: the slot allocator when slots are given back by threads that do not hold them, when it is copied and when it
is reset.
-/
namespace Verif
namespace Bitmap

/-! ### C164 -/

/-- What holds for slot `m` between any two steps if it is given back only by threads that hold it. -/
structure InvAt (m : Nat) (s : Sys) : Prop where
  putCas : ∀ t, s.pc t = .putCas m → m ∈ s.held t
  available : s.bits m = .available → ∀ t, (s.held t).count m = 0 ∧ (s.pc t).changing ≠ some m
  unavailable : s.bits m = .unavailable → ∃ o, (s.held o).count m = 1 ∧
    ∀ t, (t ≠ o → (s.held t).count m = 0) ∧ (s.pc t).changing ≠ some m
  changing : s.bits m = .changing → ∃ o, (s.pc o).changing = some m ∧
    ∀ t, (s.held t).count m = 0 ∧ (t ≠ o → (s.pc t).changing ≠ some m)

theorem invAt_init (m : Nat) : InvAt m Sys.init where
  putCas := fun t h => by simp [Sys.init] at h
  available := fun _ t => by simp [Sys.init, Pc.changing]
  unavailable := fun h => by simp [Sys.init, Bitmap.init] at h
  changing := fun h => by simp [Sys.init, Bitmap.init] at h

/-- A step that does not touch slot `m`. -/
theorem InvAt.same {m : Nat} {s s' : Sys} (h : InvAt m s) (hb : s'.bits m = s.bits m)
    (hh : ∀ t, (s'.held t).count m = (s.held t).count m)
    (hc : ∀ t, (s'.pc t).changing = some m ↔ (s.pc t).changing = some m)
    (hp : ∀ t, s'.pc t = .putCas m → m ∈ s.held t) : InvAt m s' where
  putCas := fun t ht => by
    rw [← List.count_pos_iff, hh, List.count_pos_iff]
    exact hp t ht
  available := fun ha t => by
    rw [hh, ne_eq, hc]
    exact h.available (hb ▸ ha) t
  unavailable := fun ha => by
    obtain ⟨o, h1, h2⟩ := h.unavailable (hb ▸ ha)
    refine ⟨o, by rw [hh]; exact h1, fun t => ?_⟩
    rw [hh, ne_eq ((s'.pc t).changing), hc]
    exact h2 t
  changing := fun ha => by
    obtain ⟨o, h1, h2⟩ := h.changing (hb ▸ ha)
    refine ⟨o, (hc o).2 h1, fun t => ?_⟩
    rw [hh, ne_eq ((s'.pc t).changing), hc]
    exact h2 t

theorem InvAt.mem {m : Nat} {s : Sys} (h : InvAt m s) {t : Nat} (ht : m ∈ s.held t) :
    s.bits m = .unavailable ∧ (s.held t).count m = 1 ∧ (∀ u, u ≠ t → (s.held u).count m = 0) ∧
      ∀ u, (s.pc u).changing ≠ some m := by
  have hpos := List.count_pos_iff.2 ht
  cases hb : s.bits m with
  | available => have := (h.available hb t).1; omega
  | changing =>
    obtain ⟨o, _, h2⟩ := h.changing hb
    have := (h2 t).1
    omega
  | unavailable =>
    obtain ⟨o, h1, h2⟩ := h.unavailable hb
    by_cases e : t = o
    · subst e
      exact ⟨rfl, h1, fun u hu => (h2 u).1 hu, fun u => (h2 u).2⟩
    · have := (h2 t).1 e
      omega

theorem InvAt.mid {m : Nat} {s : Sys} (h : InvAt m s) {t : Nat} (ht : (s.pc t).changing = some m) :
    s.bits m = .changing ∧ (∀ u, (s.held u).count m = 0) ∧ ∀ u, u ≠ t → (s.pc u).changing ≠ some m := by
  cases hb : s.bits m with
  | available => exact absurd ht (h.available hb t).2
  | unavailable =>
    obtain ⟨o, _, h2⟩ := h.unavailable hb
    exact absurd ht (h2 t).2
  | changing =>
    obtain ⟨o, h1, h2⟩ := h.changing hb
    have e : t = o := by
      by_contra hc
      exact (h2 t).2 hc ht
    subst e
    exact ⟨rfl, fun u => (h2 u).1, fun u hu => (h2 u).2 hu⟩

/-- A thread that moves to a place where it works on the same slot as before, or on none in both. -/
theorem InvAt.goto {m : Nat} {s : Sys} (h : InvAt m s) (t : Nat) (p : Pc)
    (hc : p.changing = some m ↔ (s.pc t).changing = some m) (hp : p = .putCas m → m ∈ s.held t) : InvAt m (s.goto t p) := by
  refine h.same rfl (fun _ => rfl) (fun u => ?_) (fun u hu => ?_)
  · by_cases e : u = t
    · subst e; simp only [Sys.goto, if_true]; exact hc
    · simp [Sys.goto, e]
  · by_cases e : u = t
    · subst e; simp only [Sys.goto, if_true] at hu; exact hp hu
    · simp only [Sys.goto, e, if_false] at hu; exact h.putCas u hu

theorem step_invAt (m : Nat) (s : Sys) (h : InvAt m s) (t : Nat) (cmd : Cmd) (notes : List Note) (s' : Sys)
    (hs : stepAny s t cmd = .ok (notes, s')) (hw : ∀ u, .wrong u m ∉ notes) :
    InvAt m s' ∧ ∀ u, .threw u m ∉ notes := by
  unfold stepAny at hs
  cases hp : s.pc t with
  | idle =>
    cases cmd with
    | acquire =>
      simp only [hp, step, Outcome.ok_bind, Outcome.pure_eq, Outcome.ok.injEq, Prod.mk.injEq] at hs
      obtain ⟨rfl, rfl⟩ := hs
      exact ⟨h.goto t _ (by rw [hp]; simp [Pc.changing]) (by simp), by simp⟩
    | tryAcquire =>
      simp only [hp, step, Outcome.ok_bind, Outcome.pure_eq, Outcome.ok.injEq, Prod.mk.injEq] at hs
      obtain ⟨rfl, rfl⟩ := hs
      exact ⟨h.goto t _ (by rw [hp]; simp [Pc.changing]) (by simp), by simp⟩
    | unacquire n =>
      simp only [hp] at hs
      split at hs
      · cases hs
      · simp only [Outcome.ok.injEq, Prod.mk.injEq] at hs
        obtain ⟨rfl, rfl⟩ := hs
        refine ⟨h.goto t _ (by rw [hp]; simp [Pc.changing]) (fun e => ?_), fun u => by split <;> simp⟩
        cases e
        by_contra hc
        rw [if_neg hc] at hw
        exact hw t (by simp)
  | scan retry i =>
    simp only [hp, step] at hs
    by_cases hi : i < size
    · by_cases hb : s.bits i = .available
      · simp only [hi, hb, if_true, Outcome.ok_bind, Outcome.pure_eq, Outcome.ok.injEq, Prod.mk.injEq] at hs
        obtain ⟨rfl, rfl⟩ := hs
        refine ⟨?_, by simp⟩
        by_cases e : i = m
        · subst e
          have ha := h.available hb
          refine ⟨fun u hu => ?_, fun hx => ?_, fun hx => ?_, fun _ => ⟨t, ?_, fun u => ⟨(ha u).1, fun hu => ?_⟩⟩⟩
          · by_cases e : u = t
            · subst e; simp [Sys.goto] at hu
            · simp only [Sys.goto, Sys.store, e, if_false] at hu; exact h.putCas u hu
          · simp [Sys.goto, Sys.store, Bits.set] at hx
          · simp [Sys.goto, Sys.store, Bits.set] at hx
          · simp [Sys.goto, Pc.changing]
          · simp only [Sys.goto, Sys.store, hu, if_false]; exact (ha u).2
        · refine h.same ?_ (fun _ => rfl) (fun u => ?_) (fun u hu => ?_)
          · simp [Sys.goto, Sys.store, Bits.set, Ne.symm e]
          · by_cases eu : u = t
            · subst eu; simp [Sys.goto, Pc.changing, hp, e]
            · simp [Sys.goto, Sys.store, eu]
          · by_cases eu : u = t
            · subst eu; simp [Sys.goto] at hu
            · simp only [Sys.goto, Sys.store, eu, if_false] at hu; exact h.putCas u hu
      · simp only [hi, hb, if_true, if_false, Outcome.ok_bind, Outcome.pure_eq, Outcome.ok.injEq, Prod.mk.injEq] at hs
        obtain ⟨rfl, rfl⟩ := hs
        exact ⟨h.goto t _ (by rw [hp]; simp [Pc.changing]) (by simp), by simp⟩
    · cases retry <;>
      · simp only [hi, if_false, if_true, Bool.false_eq_true, Outcome.ok_bind, Outcome.pure_eq, Outcome.ok.injEq,
          Prod.mk.injEq] at hs
        obtain ⟨rfl, rfl⟩ := hs
        exact ⟨h.goto t _ (by rw [hp]; simp [Pc.changing]) (by simp), by simp⟩
  | takeLoad n =>
    simp only [hp] at hs
    by_cases hb : s.bits n = .changing
    · simp only [hb, ne_eq, not_true, if_false, Outcome.ok.injEq, Prod.mk.injEq] at hs
      obtain ⟨rfl, rfl⟩ := hs
      exact ⟨h.goto t _ (by rw [hp]; simp [Pc.changing]) (by simp), by simp⟩
    · simp only [ne_eq, hb, not_false_eq_true, if_true, Outcome.ok.injEq, Prod.mk.injEq] at hs
      obtain ⟨rfl, rfl⟩ := hs
      have e : n ≠ m := by
        rintro rfl
        exact hb (h.mid (t := t) (by rw [hp]; rfl)).1
      exact ⟨h.goto t _ (by rw [hp]; simp [Pc.changing, e]) (by simp), by simp [Ne.symm e]⟩
  | putLoad n =>
    simp only [hp] at hs
    by_cases hb : s.bits n = .changing
    · simp only [hb, ne_eq, not_true, if_false, Outcome.ok.injEq, Prod.mk.injEq] at hs
      obtain ⟨rfl, rfl⟩ := hs
      exact ⟨h.goto t _ (by rw [hp]; simp [Pc.changing]) (by simp), by simp⟩
    · simp only [ne_eq, hb, not_false_eq_true, if_true, Outcome.ok.injEq, Prod.mk.injEq] at hs
      obtain ⟨rfl, rfl⟩ := hs
      have e : n ≠ m := by
        rintro rfl
        exact hb (h.mid (t := t) (by rw [hp]; rfl)).1
      exact ⟨h.goto t _ (by rw [hp]; simp [Pc.changing, e]) (by simp), by simp [Ne.symm e]⟩
  | takeStore n =>
    simp only [hp, step, Outcome.ok_bind, Outcome.pure_eq, Outcome.ok.injEq, Prod.mk.injEq] at hs
    obtain ⟨rfl, rfl⟩ := hs
    refine ⟨?_, by simp⟩
    have hpc : ∀ u, (((s.store n .unavailable).goto t .idle).hold t (n :: s.held t)).pc u = if u = t then .idle else s.pc u :=
      fun _ => rfl
    have hheld : ∀ u, (((s.store n .unavailable).goto t .idle).hold t (n :: s.held t)).held u =
        if u = t then n :: s.held t else s.held u := fun _ => rfl
    by_cases e : n = m
    · subst e
      obtain ⟨_, h2, h3⟩ := h.mid (t := t) (by rw [hp]; rfl)
      refine ⟨fun u hu => ?_, fun hx => ?_, fun _ => ⟨t, ?_, fun u => ⟨fun hu => ?_, ?_⟩⟩, fun hx => ?_⟩
      · rw [hpc] at hu
        split at hu
        · cases hu
        · have := List.count_pos_iff.2 (h.putCas u hu); have := h2 u; omega
      · simp [Sys.goto, Sys.store, Sys.hold, Bits.set] at hx
      · rw [hheld, if_pos rfl, List.count_cons_self, h2]
      · rw [hheld, if_neg hu, h2]
      · rw [hpc]
        split
        · simp [Pc.changing]
        · rename_i hu; exact h3 u hu
      · simp [Sys.goto, Sys.store, Sys.hold, Bits.set] at hx
    · refine h.same ?_ (fun u => ?_) (fun u => ?_) (fun u hu => ?_)
      · simp [Sys.goto, Sys.store, Sys.hold, Bits.set, Ne.symm e]
      · rw [hheld]
        split
        · rename_i hu; rw [hu, List.count_cons_of_ne (by simpa using e)]
        · rfl
      · rw [hpc]
        split
        · rename_i hu; rw [hu, hp]; simp [Pc.changing, e]
        · rfl
      · rw [hpc] at hu
        split at hu
        · cases hu
        · exact h.putCas u hu
  | putCas n =>
    simp only [hp, step] at hs
    by_cases hb : s.bits n = .unavailable
    · simp only [hb, if_true, Outcome.ok_bind, Outcome.pure_eq, Outcome.ok.injEq, Prod.mk.injEq] at hs
      obtain ⟨rfl, rfl⟩ := hs
      refine ⟨?_, by simp⟩
      have hpc : ∀ u, (((s.store n .changing).goto t (.putLoad n)).hold t ((s.held t).erase n)).pc u =
          if u = t then .putLoad n else s.pc u := fun _ => rfl
      have hheld : ∀ u, (((s.store n .changing).goto t (.putLoad n)).hold t ((s.held t).erase n)).held u =
          if u = t then (s.held t).erase n else s.held u := fun _ => rfl
      by_cases e : n = m
      · subst e
        obtain ⟨_, h2, h3, h4⟩ := h.mem (h.putCas t hp)
        have hz : ∀ u, ((((s.store n .changing).goto t (.putLoad n)).hold t ((s.held t).erase n)).held u).count n = 0 := by
          intro u
          rw [hheld]
          split
          · rw [List.count_erase_self, h2]
          · rename_i hu; exact h3 u hu
        refine ⟨fun u hu => ?_, fun hx => ?_, fun hx => ?_, fun _ => ⟨t, ?_, fun u => ⟨hz u, fun hu => ?_⟩⟩⟩
        · rw [hpc] at hu
          split at hu
          · cases hu
          · rename_i hne
            have := List.count_pos_iff.2 (h.putCas u hu); have := h3 u hne; omega
        · simp [Sys.goto, Sys.store, Sys.hold, Bits.set] at hx
        · simp [Sys.goto, Sys.store, Sys.hold, Bits.set] at hx
        · rw [hpc, if_pos rfl]; rfl
        · rw [hpc, if_neg hu]; exact h4 u
      · refine h.same ?_ (fun u => ?_) (fun u => ?_) (fun u hu => ?_)
        · simp [Sys.goto, Sys.store, Sys.hold, Bits.set, Ne.symm e]
        · rw [hheld]
          split
          · rename_i hu; rw [hu, List.count_erase_of_ne (Ne.symm e)]
          · rfl
        · rw [hpc]
          split
          · rename_i hu; rw [hu, hp]; simp [Pc.changing, e]
          · rfl
        · rw [hpc] at hu
          split at hu
          · cases hu
          · exact h.putCas u hu
    · simp only [hb, if_false, Outcome.ok_bind, Outcome.pure_eq, Outcome.ok.injEq, Prod.mk.injEq] at hs
      obtain ⟨rfl, rfl⟩ := hs
      have e : n ≠ m := by
        rintro rfl
        exact hb (h.mem (h.putCas t hp)).1
      exact ⟨h.goto t _ (by rw [hp]; simp [Pc.changing, e]) (by simp), by simp⟩
  | putStore n =>
    simp only [hp, step, Outcome.ok_bind, Outcome.pure_eq, Outcome.ok.injEq, Prod.mk.injEq] at hs
    obtain ⟨rfl, rfl⟩ := hs
    refine ⟨?_, by simp⟩
    have hpc : ∀ u, ((s.store n .available).goto t .idle).pc u = if u = t then .idle else s.pc u := fun _ => rfl
    by_cases e : n = m
    · subst e
      obtain ⟨_, h2, h3⟩ := h.mid (t := t) (by rw [hp]; rfl)
      refine ⟨fun u hu => ?_, fun _ u => ⟨h2 u, ?_⟩, fun hx => ?_, fun hx => ?_⟩
      · rw [hpc] at hu
        split at hu
        · cases hu
        · exact h.putCas u hu
      · rw [hpc]
        split
        · simp [Pc.changing]
        · rename_i hu; exact h3 u hu
      · simp [Sys.goto, Sys.store, Bits.set] at hx
      · simp [Sys.goto, Sys.store, Bits.set] at hx
    · refine h.same ?_ (fun u => rfl) (fun u => ?_) (fun u hu => ?_)
      · simp [Sys.goto, Sys.store, Bits.set, Ne.symm e]
      · rw [hpc]
        split
        · rename_i hu; rw [hu, hp]; simp [Pc.changing, e]
        · rfl
      · rw [hpc] at hu
        split at hu
        · cases hu
        · exact h.putCas u hu

theorem run_invAt (m : Nat) (sched : List (Nat × Cmd)) (s : Sys) (h : InvAt m s) (notes : List Note) (s' : Sys)
    (hs : runAny sched s = .ok (notes, s')) (hw : ∀ u, .wrong u m ∉ notes) :
    InvAt m s' ∧ ∀ u, .threw u m ∉ notes := by
  induction sched generalizing s notes with
  | nil =>
    simp only [runAny, Outcome.ok.injEq, Prod.mk.injEq] at hs
    obtain ⟨rfl, rfl⟩ := hs
    exact ⟨h, by simp⟩
  | cons x sched ih =>
    obtain ⟨t, cmd⟩ := x
    rw [runAny] at hs
    cases h1 : stepAny s t cmd with
    | ok r =>
      obtain ⟨a, s1⟩ := r
      rw [h1, Outcome.ok_bind] at hs
      cases h2 : runAny sched s1 with
      | ok r =>
        obtain ⟨b, s2⟩ := r
        simp only [h2, Outcome.ok_bind, Outcome.pure_eq, Outcome.ok.injEq, Prod.mk.injEq] at hs
        obtain ⟨rfl, rfl⟩ := hs
        have k1 := step_invAt m s h t cmd a s1 h1 (fun u hu => hw u (by simp [hu]))
        have k2 := ih s1 k1.1 b h2 (fun u hu => hw u (by simp [hu]))
        refine ⟨k2.1, fun u hu => ?_⟩
        rcases List.mem_append.1 hu with hu | hu
        · exact k1.2 u hu
        · exact k2.2 u hu
      | throws e => simp [h2] at hs
      | ub => simp [h2] at hs
      | diverges => simp [h2] at hs
    | throws e => simp [h1] at hs
    | ub => simp [h1] at hs
    | diverges => simp [h1] at hs

theorem stepAny_ok (s : Sys) (t : Nat) (cmd : Cmd) (hc : ∀ n, cmd = .unacquire n → n < size) :
    ∃ r, stepAny s t cmd = .ok r := by
  unfold stepAny
  cases hp : s.pc t with
  | idle =>
    cases cmd with
    | unacquire n =>
      have := hc n rfl
      simp only
      rw [if_neg (by omega)]
      exact ⟨_, rfl⟩
    | acquire => simp only [step, hp]; exact ⟨_, rfl⟩
    | tryAcquire => simp only [step, hp]; exact ⟨_, rfl⟩
  | scan retry i => simp only [step, hp]; split_ifs <;> exact ⟨_, rfl⟩
  | takeLoad n => simp only; split_ifs <;> exact ⟨_, rfl⟩
  | takeStore n => simp only [step, hp]; exact ⟨_, rfl⟩
  | putCas n => simp only [step, hp]; split_ifs <;> exact ⟨_, rfl⟩
  | putLoad n => simp only; split_ifs <;> exact ⟨_, rfl⟩
  | putStore n => simp only [step, hp]; exact ⟨_, rfl⟩

theorem runAny_ok (sched : List (Nat × Cmd)) (s : Sys) (hc : ∀ t n, (t, .unacquire n) ∈ sched → n < size) :
    ∃ r, runAny sched s = .ok r := by
  induction sched generalizing s with
  | nil => exact ⟨_, rfl⟩
  | cons x sched ih =>
    obtain ⟨t, cmd⟩ := x
    obtain ⟨⟨a, s1⟩, h1⟩ := stepAny_ok s t cmd (fun n e => hc t n (by simp [e]))
    obtain ⟨⟨b, s2⟩, h2⟩ := ih s1 (fun t n h => hc t n (by simp [h]))
    exact ⟨(a ++ b, s2), by rw [runAny, h1, Outcome.ok_bind]; simp only [h2]; rfl⟩

/-- C164. Whatever slots are given back by threads that do not hold them: for all other slots the allocator works as it should.
No two threads hold such a slot, no thread holds it twice, and no thread that takes it or gives it back gets an exception.
Missing: the slots that were given back wrongly, see `C164_twice_violated` and `C164_victim_violated`. -/
theorem C164_others_partial (sched : List (Nat × Cmd)) (hc : ∀ t n, (t, .unacquire n) ∈ sched → n < size) :
    ∃ notes s, runAny sched Sys.init = .ok (notes, s) ∧ ∀ m, (∀ t, .wrong t m ∉ notes) →
      (∀ t u, m ∈ s.held t → m ∈ s.held u → t = u) ∧ (∀ t, (s.held t).count m ≤ 1) ∧ ∀ t, .threw t m ∉ notes := by
  obtain ⟨⟨notes, s⟩, h⟩ := runAny_ok sched Sys.init hc
  refine ⟨notes, s, h, fun m hw => ?_⟩
  obtain ⟨h1, h2⟩ := run_invAt m sched Sys.init (invAt_init m) notes s h hw
  refine ⟨fun t u ht hu => ?_, fun t => ?_, h2⟩
  · by_contra hne
    have := (h1.mem hu).2.2.1 t hne
    have := List.count_pos_iff.2 ht
    omega
  · by_cases ht : m ∈ s.held t
    · have := (h1.mem ht).2.1; omega
    · rw [List.count_eq_zero.2 ht]; omega

/-- Thread 1 takes slots 0 and 1, thread 2 gives back slot 0, which it does not hold, thread 1 goes on to hold slot 1. -/
example : (match runAny ([(1, .acquire)] ++ List.replicate 3 (1, .acquire) ++ [(1, .acquire)] ++ List.replicate 4 (1, .acquire) ++
      List.replicate 4 (2, .unacquire 0)) Sys.init with
    | .ok (notes, s) => some (notes, s.held 1, s.bits 0, s.bits 1)
    | _ => none) = some ([.wrong 2 0], [1, 0], .available, .unavailable) := by decide +kernel

/-- C164. A slot that is free is given back, with no step of another thread in between: the mistake is reported and nothing
has changed. Missing: other threads at work on the slot, see `C164_victim_violated`. -/
theorem C164_detected_partial (s : Sys) (t n : Nat) (c1 c2 : Cmd) (hn : n < size) (hp : s.pc t = .idle)
    (hb : s.bits n = .available) (hh : n ∉ s.held t) :
    runAny [(t, .unacquire n), (t, c1), (t, c2)] s = .ok ([.wrong t n, .threw t n], s) := by
  have e : (s.goto t .idle) = s := by
    simp only [Sys.goto]
    congr 1
    funext u
    split_ifs with hu
    · rw [hu, hp]
    · rfl
  have h1 : stepAny s t (.unacquire n) = .ok ([.wrong t n], s.goto t (.putCas n)) := by
    simp only [stepAny, hp]
    rw [if_neg (by omega), if_neg hh]
  have h2 : stepAny (s.goto t (.putCas n)) t c1 = .ok ([], s.goto t (.putLoad n)) := by
    have : stepAny (s.goto t (.putCas n)) t c1 = .ok ([], (s.goto t (.putCas n)).goto t (.putLoad n)) := by
      simp [stepAny, step, Sys.goto, hb]
    rw [this, goto_goto]
  have h3 : stepAny (s.goto t (.putLoad n)) t c2 = .ok ([.threw t n], s) := by
    have : stepAny (s.goto t (.putLoad n)) t c2 = .ok ([.threw t n], (s.goto t (.putLoad n)).goto t .idle) := by
      simp [stepAny, Sys.goto, hb]
    rw [this, goto_goto, e]
  simp only [runAny, h1, h2, h3, Outcome.ok_bind, Outcome.pure_eq]
  rfl

example : (match runAny [(4, .unacquire 7), (4, .acquire), (4, .acquire)] Sys.init with
    | .ok (notes, _) => some notes
    | _ => none) = some [.wrong 4 7, .threw 4 7] := by decide +kernel

theorem stepAny_of_step (s s' : Sys) (t : Nat) (cmd : Cmd) (hc : ∀ n, cmd ≠ .unacquire n) (h : step s t cmd = .ok s') :
    stepAny s t cmd = .ok ([], s') := by
  unfold stepAny
  cases hp : s.pc t with
  | idle =>
    cases cmd with
    | unacquire n => exact absurd rfl (hc n)
    | _ => simp only [h]; rfl
  | takeLoad n =>
    simp only [step, hp] at h ⊢
    split_ifs at h ⊢ with hb
    cases h; rfl
  | putLoad n =>
    simp only [step, hp] at h ⊢
    split_ifs at h ⊢ with hb
    cases h; rfl
  | _ => simp only [h]; rfl

theorem runAny_of_run (sched : List (Nat × Cmd)) (s s' : Sys) (hc : ∀ t n, (t, .unacquire n) ∉ sched)
    (h : run sched s = .ok s') : runAny sched s = .ok ([], s') := by
  induction sched generalizing s with
  | nil => cases h; rfl
  | cons x sched ih =>
    obtain ⟨t, cmd⟩ := x
    rw [run] at h
    split at h
    · rename_i s1 h1
      rw [runAny, stepAny_of_step s s1 t cmd (fun n e => hc t n (by simp [e])) h1]
      simp only [Outcome.ok_bind]
      rw [ih s1 (fun t n hm => hc t n (by simp [hm])) h]
      rfl
    · cases h
    · cases h
    · cases h

theorem runAny_append (a b : List (Nat × Cmd)) (s s1 s2 : Sys) (n1 n2 : List Note) (h1 : runAny a s = .ok (n1, s1))
    (h2 : runAny b s1 = .ok (n2, s2)) : runAny (a ++ b) s = .ok (n1 ++ n2, s2) := by
  induction a generalizing s n1 with
  | nil =>
    simp only [runAny, Outcome.ok.injEq, Prod.mk.injEq] at h1
    obtain ⟨rfl, rfl⟩ := h1
    simpa using h2
  | cons x a ih =>
    obtain ⟨t, cmd⟩ := x
    simp only [runAny, List.cons_append] at h1 ⊢
    cases e : stepAny s t cmd with
    | ok r =>
      obtain ⟨na, sa⟩ := r
      simp only [e, Outcome.ok_bind] at h1 ⊢
      cases e2 : runAny a sa with
      | ok r =>
        obtain ⟨nb, sb⟩ := r
        simp only [e2, Outcome.ok_bind, Outcome.pure_eq, Outcome.ok.injEq, Prod.mk.injEq] at h1
        obtain ⟨rfl, rfl⟩ := h1
        rw [ih sa nb e2]
        simp
      | throws _ => simp [e2] at h1
      | ub => simp [e2] at h1
      | diverges => simp [e2] at h1
    | throws _ => simp [e] at h1
    | ub => simp [e] at h1
    | diverges => simp [e] at h1

/-- The four steps of a thread that gives back a slot which is taken. -/
theorem gives_back (s : Sys) (t n : Nat) (c1 c2 c3 : Cmd) (hn : n < size) (hp : s.pc t = .idle)
    (hb : s.bits n = .unavailable) (hh : n ∉ s.held t) :
    ∃ s', runAny [(t, .unacquire n), (t, c1), (t, c2), (t, c3)] s = .ok ([.wrong t n], s') ∧
      s'.pc = s.pc ∧ s'.bits = s.bits.set n .available ∧ s'.held = s.held := by
  have h1 : stepAny s t (.unacquire n) = .ok ([.wrong t n], s.goto t (.putCas n)) := by
    simp only [stepAny, hp]
    rw [if_neg (by omega), if_neg hh]
  have h2 : stepAny (s.goto t (.putCas n)) t c1 =
      .ok ([], (((s.goto t (.putCas n)).store n .changing).goto t (.putLoad n)).hold t ((s.held t).erase n)) := by
    simp [stepAny, step, Sys.goto, hb]
  simp only [runAny, h1, h2, Outcome.ok_bind]
  have h3 : stepAny ((((s.goto t (.putCas n)).store n .changing).goto t (.putLoad n)).hold t ((s.held t).erase n)) t c2 =
      .ok ([], ((((s.goto t (.putCas n)).store n .changing).goto t (.putLoad n)).hold t ((s.held t).erase n)).goto t (.putStore n)) := by
    simp [stepAny, Sys.goto, Sys.store, Sys.hold, Bits.set]
  simp only [h3, Outcome.ok_bind]
  have h4 : ∀ x : Sys, x.pc t = .putStore n → stepAny x t c3 = .ok ([], (x.store n .available).goto t .idle) := by
    intro x hx
    simp [stepAny, step, hx]
  rw [h4 _ (by simp [Sys.goto])]
  refine ⟨_, rfl, ?_, ?_, ?_⟩
  · funext u
    by_cases hu : u = t
    · subst hu; simp [Sys.goto, hp]
    · simp [Sys.goto, Sys.store, Sys.hold, hu]
  · funext m
    simp only [Sys.goto, Sys.store, Sys.hold, Bits.set]
    split_ifs <;> rfl
  · funext u
    by_cases hu : u = t
    · subst hu; simp [Sys.goto, Sys.store, Sys.hold, List.erase_of_not_mem hh]
    · simp [Sys.goto, Sys.store, Sys.hold, hu]

/-- C164 is violated: a thread that gives back a slot that another thread holds gets no exception; and if it then asks for a
slot, it can get the very same one, so that two threads hold it. -/
theorem C164_twice_violated (s : Sys) (t u n : Nat) (hn : n < size) (htu : t ≠ u) (ht : n ∈ s.held t)
    (hb : s.bits n = .unavailable) (hu : n ∉ s.held u) (hp : s.pc u = .idle) (hlow : ∀ m, m < n → s.bits m ≠ .available) :
    ∃ sched s', (∀ x ∈ sched, x.1 = u) ∧ runAny sched s = .ok ([.wrong u n], s') ∧ n ∈ s'.held t ∧ n ∈ s'.held u := by
  obtain ⟨s1, h1, hpc, hbits, hheld⟩ := gives_back s u n .tryAcquire .tryAcquire .tryAcquire hn hp hb hu
  have h2 : stepAny s1 u .tryAcquire = .ok ([], s1.goto u (.scan false 0)) :=
    stepAny_of_step _ _ _ _ (by simp) (by simp [step, hpc, hp])
  have h3 := scan_finds u .tryAcquire false n (s1.goto u (.scan false 0)) 0 (by simp [Sys.goto]) (by omega)
    (by simp [Sys.goto, hbits, Bits.set]) (fun j _ hj => by
      have : j ≠ n := by omega
      simpa [Sys.goto, hbits, Bits.set, this] using hlow j (by omega))
  have h4 := runAny_of_run _ _ _ (by simp) h3
  have h5 : ∀ x, runAny (List.replicate (n + 3) (u, .tryAcquire)) (s1.goto u (.scan false 0)) = .ok ([], x) →
      runAny ((u, .tryAcquire) :: List.replicate (n + 3) (u, .tryAcquire)) s1 = .ok ([], x) := by
    intro x hx
    rw [runAny, h2, Outcome.ok_bind]
    simp only [hx, Outcome.ok_bind]
    rfl
  refine ⟨_, _, ?_, runAny_append _ _ _ _ _ _ _ h1 (h5 _ h4), ?_, ?_⟩
  · simp
  · simp [Sys.hold, Sys.goto, Sys.store, htu, hheld, ht]
  · simp [Sys.hold]

/-- Thread 1 has taken slot 0. -/
example : ∃ s, runAny (List.replicate 4 (1, .acquire)) Sys.init = .ok ([], s) ∧ 0 ∈ s.held 1 ∧ s.bits 0 = .unavailable ∧
    0 ∉ s.held 2 ∧ s.pc 2 = .idle := ⟨_, rfl, by decide, by decide, by decide, by decide⟩

/-- C164 is violated: if thread `t` is about to take a slot, and thread `u` gives it back without ever having had it, it is `t`
that gets the exception, although it has made no mistake, and not `u`. -/
theorem C164_victim_violated (s : Sys) (t u n : Nat) (c1 c2 c3 c4 : Cmd) (hn : n < size) (htu : t ≠ u)
    (ht : s.pc t = .takeLoad n) (hb : s.bits n = .changing) (hu : n ∉ s.held u) (hp : s.pc u = .idle) :
    ∃ s', runAny [(u, .unacquire n), (u, c1), (u, c2), (u, c3), (t, c4)] s = .ok ([.wrong u n, .threw t n], s') ∧
      s'.pc t = .idle ∧ s'.pc u = .idle := by
  have h1 : stepAny s u (.unacquire n) = .ok ([.wrong u n], s.goto u (.putCas n)) := by
    simp only [stepAny, hp]
    rw [if_neg (by omega), if_neg hu]
  have h2 : stepAny (s.goto u (.putCas n)) u c1 = .ok ([], (s.goto u (.putCas n)).goto u (.putLoad n)) := by
    simp [stepAny, step, Sys.goto, hb]
  have h3 : stepAny ((s.goto u (.putCas n)).goto u (.putLoad n)) u c2 =
      .ok ([], ((s.goto u (.putCas n)).goto u (.putLoad n)).goto u (.putStore n)) := by
    simp [stepAny, Sys.goto, hb]
  have h4 : stepAny (((s.goto u (.putCas n)).goto u (.putLoad n)).goto u (.putStore n)) u c3 =
      .ok ([], ((((s.goto u (.putCas n)).goto u (.putLoad n)).goto u (.putStore n)).store n .available).goto u .idle) := by
    simp [stepAny, step, Sys.goto]
  have h5 : ∀ x : Sys, x.pc t = .takeLoad n → x.bits n = .available → stepAny x t c4 = .ok ([.threw t n], x.goto t .idle) := by
    intro x h1 h2
    simp [stepAny, h1, h2]
  simp only [runAny, h1, h2, h3, h4, Outcome.ok_bind]
  rw [h5 _ (by simp [Sys.goto, Sys.store, htu, ht]) (by simp [Sys.goto, Sys.store, Bits.set])]
  exact ⟨_, rfl, by simp [Sys.goto], by simp [Sys.goto, Ne.symm htu]⟩

/-- Thread 1 is in `acquire`, about to take slot 0. -/
example : ∃ s, runAny (List.replicate 2 (1, .acquire)) Sys.init = .ok ([], s) ∧ s.pc 1 = .takeLoad 0 ∧ s.bits 0 = .changing ∧
    0 ∉ s.held 2 ∧ s.pc 2 = .idle := ⟨_, rfl, by decide, by decide, by decide, by decide⟩

/-! ### C165 -/

theorem copyFrom_spec (others : Nat → List (Nat × Cmd)) : ∀ todo i (s : Sys), Inv s →
    ∃ r s', copyFrom others todo i s = .ok (r, s') ∧ r.length = todo ∧ Inv s' ∧
      run ((List.range todo).flatMap fun k => others (i + k)) s = .ok s' ∧
      ∀ k, k < todo → ∃ s1, run ((List.range (k + 1)).flatMap fun j => others (i + j)) s = .ok s1 ∧ r[k]? = some (s1.bits (i + k)) := by
  intro todo
  induction todo with
  | zero => intro i s h; exact ⟨[], s, rfl, rfl, h, rfl, fun k hk => by omega⟩
  | succ todo ih =>
    intro i s h
    obtain ⟨s1, h1, hi1⟩ := run_inv (others i) s h
    obtain ⟨r, s', h2, hl, hi, h3, h4⟩ := ih (i + 1) s1 hi1
    have key : ∀ k, ((List.range (k + 1)).flatMap fun j => others (i + j)) =
        others i ++ (List.range k).flatMap fun j => others (i + 1 + j) := by
      intro k
      rw [List.range_succ_eq_map, List.flatMap_cons, List.flatMap_map]
      simp only [Nat.add_zero]
      congr 2
      funext j
      congr 1
      omega
    refine ⟨s1.bits i :: r, s', ?_, by simp [hl], hi, ?_, fun k hk => ?_⟩
    · simp only [copyFrom, h1, Outcome.ok_bind, h2, Outcome.pure_eq]
    · rw [key, run_append _ _ _ _ h1]; exact h3
    · cases k with
      | zero => exact ⟨s1, by rw [key, run_append _ _ _ _ h1]; rfl, by simp⟩
      | succ k =>
        obtain ⟨s2, h5, h6⟩ := h4 k (by omega)
        exact ⟨s2, by rw [key, run_append _ _ _ _ h1]; exact h5, by simpa [Nat.add_assoc, Nat.add_comm 1 k] using h6⟩

/-- C165. Each element of a copy is the one the original had when it was read, the steps of the other threads before each read
being `others`; the original is not changed by copying. -/
theorem C165_copy (sched : List (Nat × Cmd)) (s : Sys) (h : run sched Sys.init = .ok s) (others : Nat → List (Nat × Cmd)) :
    ∃ b s', copy others s = .ok (b, s') ∧ run ((List.range size).flatMap others) s = .ok s' ∧
      ∀ n, n < size → ∃ s1, run ((List.range (n + 1)).flatMap others) s = .ok s1 ∧ b n = s1.bits n := by
  obtain ⟨s0, h0, hi⟩ := run_inv sched Sys.init inv_init
  rw [h] at h0
  cases h0
  obtain ⟨r, s', h1, hl, _, h3, h4⟩ := copyFrom_spec others size 0 s hi
  simp only [Nat.zero_add] at h3 h4
  refine ⟨_, s', by rw [copy, h1]; rfl, h3, fun n hn => ?_⟩
  obtain ⟨s1, h5, h6⟩ := h4 n hn
  exact ⟨s1, h5, by simp [List.getD, h6]⟩

/-- C165. If no other thread is at work the copy is equal to the original. Missing: copies made while other threads are at work, see
`C165_lost_violated`. -/
theorem C165_quiet_partial (sched : List (Nat × Cmd)) (s : Sys) (h : run sched Sys.init = .ok s) :
    ∃ b, copy (fun _ => []) s = .ok (b, s) ∧ ∀ n, n < size → b n = s.bits n := by
  obtain ⟨b, s', h1, h2, h3⟩ := C165_copy sched s h fun _ => []
  have e : ∀ k : Nat, ((List.range k).flatMap fun _ => ([] : List (Nat × Cmd))) = [] := fun k => by simp
  rw [e] at h2
  cases h2
  refine ⟨b, h1, fun n hn => ?_⟩
  obtain ⟨s1, h4, h5⟩ := h3 n hn
  rw [e] at h4
  cases h4
  exact h5

example : ∃ s, run (List.replicate 4 (1, .acquire)) Sys.init = .ok s ∧ s.bits 0 = .unavailable := ⟨_, rfl, by decide⟩

/-- A slot that is marked as changing and that no thread is at work on stays so. -/
theorem step_stuck (n : Nat) (s s' : Sys) (t : Nat) (cmd : Cmd) (hs : step s t cmd = .ok s') (hb : s.bits n = .changing)
    (hf : ∀ u, n ∉ s.held u ∧ (s.pc u).changing ≠ some n ∧ s.pc u ≠ .putCas n) :
    s'.bits n = .changing ∧ ∀ u, n ∉ s'.held u ∧ (s'.pc u).changing ≠ some n ∧ s'.pc u ≠ .putCas n := by
  have hg : ∀ (x : Sys) (p : Pc), x.bits n = .changing →
      (∀ u, n ∉ x.held u ∧ (u ≠ t → (x.pc u).changing ≠ some n ∧ x.pc u ≠ .putCas n)) →
      p.changing ≠ some n → p ≠ .putCas n →
      (x.goto t p).bits n = .changing ∧
        ∀ u, n ∉ (x.goto t p).held u ∧ ((x.goto t p).pc u).changing ≠ some n ∧ (x.goto t p).pc u ≠ .putCas n := by
    intro x p h1 h2 h3 h4
    refine ⟨h1, fun u => ⟨(h2 u).1, ?_⟩⟩
    by_cases hu : u = t
    · subst hu; simp only [Sys.goto, if_true]; exact ⟨h3, h4⟩
    · simp only [Sys.goto, hu, if_false]; exact (h2 u).2 hu
  have hf' : ∀ u, n ∉ s.held u ∧ (u ≠ t → (s.pc u).changing ≠ some n ∧ s.pc u ≠ .putCas n) :=
    fun u => ⟨(hf u).1, fun _ => (hf u).2⟩
  have hother : ∀ i v, i ≠ n → (s.store i v).bits n = .changing := by
    intro i v hi
    simp [Sys.store, Bits.set, Ne.symm hi, hb]
  unfold step at hs
  cases hp : s.pc t with
  | idle =>
    cases cmd with
    | acquire =>
      simp only [hp, Outcome.ok.injEq] at hs
      subst hs
      exact hg s _ hb hf' (by simp [Pc.changing]) (by simp)
    | tryAcquire =>
      simp only [hp, Outcome.ok.injEq] at hs
      subst hs
      exact hg s _ hb hf' (by simp [Pc.changing]) (by simp)
    | unacquire m =>
      simp only [hp] at hs
      split_ifs at hs with hm <;> simp only [Outcome.ok.injEq] at hs <;> subst hs
      · refine hg s _ hb hf' (by simp [Pc.changing]) ?_
        intro e
        cases e
        exact (hf t).1 hm
      · exact ⟨hb, hf⟩
  | scan retry i =>
    simp only [hp] at hs
    split_ifs at hs with h1 h2 h3 <;> simp only [Outcome.ok.injEq] at hs <;> subst hs
    · have hi : i ≠ n := by
        rintro rfl
        rw [hb] at h2
        cases h2
      exact hg _ _ (hother i _ hi) hf' (by simp [Pc.changing, hi]) (by simp)
    · exact hg s _ hb hf' (by simp [Pc.changing]) (by simp)
    · exact hg s _ hb hf' (by simp [Pc.changing]) (by simp)
    · exact hg s _ hb hf' (by simp [Pc.changing]) (by simp)
  | takeLoad m =>
    have hm : m ≠ n := by
      rintro rfl
      exact (hf t).2.1 (by rw [hp]; rfl)
    simp only [hp] at hs
    split_ifs at hs
    simp only [Outcome.ok.injEq] at hs
    subst hs
    exact hg s _ hb hf' (by simp [Pc.changing, hm]) (by simp)
  | takeStore m =>
    have hm : m ≠ n := by
      rintro rfl
      exact (hf t).2.1 (by rw [hp]; rfl)
    simp only [hp, Outcome.ok.injEq] at hs
    subst hs
    have := hg (s.store m .unavailable) .idle (hother m _ hm) hf' (by simp [Pc.changing]) (by simp)
    refine ⟨this.1, fun u => ⟨?_, (this.2 u).2⟩⟩
    by_cases hu : u = t
    · subst hu; simpa [Sys.hold, Ne.symm hm] using (hf u).1
    · simpa [Sys.hold, Sys.goto, Sys.store, hu] using (hf u).1
  | putCas m =>
    have hm : m ≠ n := by
      rintro rfl
      exact (hf t).2.2 hp
    simp only [hp] at hs
    split_ifs at hs <;> simp only [Outcome.ok.injEq] at hs <;> subst hs
    · have := hg (s.store m .changing) (.putLoad m) (hother m _ hm) hf' (by simp [Pc.changing, hm]) (by simp)
      refine ⟨this.1, fun u => ⟨?_, (this.2 u).2⟩⟩
      by_cases hu : u = t
      · subst hu
        simp only [Sys.hold, if_true]
        exact fun h => (hf u).1 (List.mem_of_mem_erase h)
      · simpa [Sys.hold, Sys.goto, Sys.store, hu] using (hf u).1
    · exact hg s _ hb hf' (by simp [Pc.changing, hm]) (by simp)
  | putLoad m =>
    have hm : m ≠ n := by
      rintro rfl
      exact (hf t).2.1 (by rw [hp]; rfl)
    simp only [hp] at hs
    split_ifs at hs
    simp only [Outcome.ok.injEq] at hs
    subst hs
    exact hg s _ hb hf' (by simp [Pc.changing, hm]) (by simp)
  | putStore m =>
    have hm : m ≠ n := by
      rintro rfl
      exact (hf t).2.1 (by rw [hp]; rfl)
    simp only [hp, Outcome.ok.injEq] at hs
    subst hs
    exact hg _ _ (hother m _ hm) hf' (by simp [Pc.changing]) (by simp)

theorem run_stuck (n : Nat) (sched : List (Nat × Cmd)) (s s' : Sys) (hs : run sched s = .ok s') (hb : s.bits n = .changing)
    (hf : ∀ u, n ∉ s.held u ∧ (s.pc u).changing ≠ some n ∧ s.pc u ≠ .putCas n) :
    s'.bits n = .changing ∧ ∀ u, n ∉ s'.held u := by
  induction sched generalizing s with
  | nil => cases hs; exact ⟨hb, fun u => (hf u).1⟩
  | cons x sched ih =>
    obtain ⟨t, cmd⟩ := x
    rw [run] at hs
    split at hs
    · rename_i s1 h1
      obtain ⟨h2, h3⟩ := step_stuck n s s1 t cmd h1 hb hf
      exact ih s1 hs h2 h3
    · cases hs
    · cases hs
    · cases hs

/-- C165 is violated: a copy that is made while a thread is taking or giving back slot `n` can have lost this slot: threads that
use the copy, any number of them and in any order, never get it. -/
theorem C165_lost_violated (sched : List (Nat × Cmd)) (s : Sys) (h : run sched Sys.init = .ok s) (t n : Nat)
    (ht : (s.pc t).changing = some n) :
    ∃ b, copy (fun _ => []) s = .ok (b, s) ∧ b n = .changing ∧
      ∀ sched' s', run sched' ⟨b, fun _ => .idle, fun _ => []⟩ = .ok s' → s'.bits n = .changing ∧ ∀ u, n ∉ s'.held u := by
  obtain ⟨s0, h0, hi⟩ := run_inv sched Sys.init inv_init
  rw [h] at h0
  cases h0
  obtain ⟨b, h1, h2⟩ := C165_quiet_partial sched s h
  have hb : b n = .changing := by rw [h2 n (hi.range t n (Or.inr ht)), hi.changing t n ht]
  exact ⟨b, h1, hb, fun sched' s' hs => run_stuck n sched' _ s' hs hb fun u => by simp [Pc.changing]⟩

/-- Thread 1 is in `acquire`, about to take slot 0. -/
example : ∃ s, run (List.replicate 2 (1, .acquire)) Sys.init = .ok s ∧ (s.pc 1).changing = some 0 := ⟨_, rfl, by decide⟩

/-- C165. `reset` when no thread is in a call and none holds a slot: the allocator is as new. -/
theorem C165_reset (s : Sys) (hp : ∀ t, s.pc t = .idle) (hh : ∀ t, s.held t = []) : reset s = Sys.init := by
  simp only [reset, Sys.init, funext hp, funext hh]

example : ∃ s, run (List.replicate 4 (1, .acquire) ++ List.replicate 4 (1, .unacquire 0)) Sys.init = .ok s ∧ s.held 1 = [] ∧
    s.pc 1 = .idle := ⟨_, rfl, by decide, by decide⟩

/-- C165. `reset` forgets who holds slots: one that is in use is then given out a second time. -/
theorem C165_reset_forgets (s : Sys) (t u : Nat) (htu : t ≠ u) (ht : 0 ∈ s.held t) (hu : s.pc u = .idle) :
    ∃ s', run (List.replicate 4 (u, .acquire)) (reset s) = .ok s' ∧ 0 ∈ s'.held t ∧ 0 ∈ s'.held u := by
  have h1 : step (reset s) u .acquire = .ok ((reset s).goto u (.scan true 0)) := by simp [step, reset, hu]
  have h2 := scan_finds u .acquire true 0 ((reset s).goto u (.scan true 0)) 0 (by simp [Sys.goto]) (by decide)
    (by simp [Sys.goto, reset, init]) (fun j h1 h2 => by omega)
  have h3 : run (List.replicate 4 (u, .acquire)) (reset s) =
      run (List.replicate (0 + 3) (u, .acquire)) ((reset s).goto u (.scan true 0)) := by
    rw [List.replicate_succ, run, h1]
  refine ⟨_, h3.trans h2, ?_, ?_⟩
  · simp [Sys.hold, Sys.goto, Sys.store, reset, htu, ht]
  · simp [Sys.hold]

/-- Thread 1 holds slot 0 when the allocator is reset. -/
example : ∃ s, run (List.replicate 4 (1, .acquire)) Sys.init = .ok s ∧ 0 ∈ s.held 1 ∧ s.pc 2 = .idle :=
  ⟨_, rfl, by decide, by decide⟩

end Bitmap
end Verif
