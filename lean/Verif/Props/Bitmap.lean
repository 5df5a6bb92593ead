import Verif.Model.Bitmap
import Mathlib.Data.List.Basic
import Mathlib.Data.List.Nodup
/-
C66 and C67: the slot allocator.
-/
namespace Verif
namespace Bitmap

/-! ### C66 -/

/-- The slot that the thread has marked as changing. -/
def Pc.changing : Pc → Option Nat
  | .takeLoad n => some n
  | .takeStore n => some n
  | .putLoad n => some n
  | .putStore n => some n
  | _ => none

/-- Thread `t` owns slot `n`: it holds it, or is taking or giving it back. -/
def Owns (s : Sys) (t n : Nat) : Prop := n ∈ s.held t ∨ (s.pc t).changing = some n

/-- What holds between any two steps. -/
structure Inv (s : Sys) : Prop where
  exclusive : ∀ n t u, Owns s t n → Owns s u n → t = u
  nodup : ∀ t, (s.held t).Nodup
  once : ∀ t n, (s.pc t).changing = some n → n ∉ s.held t
  putCas : ∀ t n, s.pc t = .putCas n → n ∈ s.held t
  range : ∀ t n, Owns s t n → n < size
  held : ∀ t n, n ∈ s.held t → s.bits n = .unavailable
  changing : ∀ t n, (s.pc t).changing = some n → s.bits n = .changing
  taken : ∀ n, s.bits n ≠ .available → ∃ t, Owns s t n

theorem inv_init : Inv Sys.init where
  exclusive := fun n t u h _ => by simp [Owns, Sys.init, Pc.changing] at h
  nodup := fun t => by simp [Sys.init]
  once := fun t n h => by simp [Sys.init, Pc.changing] at h
  putCas := fun t n h => by simp [Sys.init] at h
  range := fun t n h => by simp [Owns, Sys.init, Pc.changing] at h
  held := fun t n h => by simp [Sys.init] at h
  changing := fun t n h => by simp [Sys.init, Pc.changing] at h
  taken := fun n h => by simp [Sys.init, Bitmap.init] at h

/-- Moving a thread without touching slots keeps the invariant. -/
theorem inv_goto {s : Sys} (h : Inv s) (t : Nat) (p : Pc) (hp : p.changing = (s.pc t).changing)
    (hc : ∀ n, p = .putCas n → n ∈ s.held t) : Inv (s.goto t p) := by
  have hpc : ∀ u, ((s.goto t p).pc u).changing = (s.pc u).changing := by
    intro u
    by_cases hu : u = t
    · subst hu; simp [Sys.goto, hp]
    · simp [Sys.goto, hu]
  have hown : ∀ u n, Owns (s.goto t p) u n ↔ Owns s u n := by
    intro u n
    unfold Owns
    rw [hpc]
    rfl
  refine ⟨?_, h.nodup, ?_, ?_, ?_, h.held, ?_, ?_⟩
  · intro n u v h1 h2; exact h.exclusive n u v ((hown u n).mp h1) ((hown v n).mp h2)
  · intro u n h1; rw [hpc] at h1; exact h.once u n h1
  · intro u n h1
    by_cases hu : u = t
    · subst hu
      simp only [Sys.goto, if_true] at h1
      exact hc n h1
    · simp only [Sys.goto, hu, if_false] at h1
      exact h.putCas u n h1
  · intro u n h1; exact h.range u n ((hown u n).mp h1)
  · intro u n h1; rw [hpc] at h1; exact h.changing u n h1
  · intro n h1
    obtain ⟨u, hu⟩ := h.taken n h1
    exact ⟨u, (hown u n).mpr hu⟩

theorem step_inv (s : Sys) (h : Inv s) (t : Nat) (cmd : Cmd) : ∃ s', step s t cmd = .ok s' ∧ Inv s' := by
  unfold step
  cases hp : s.pc t with
  | idle =>
    cases cmd with
    | acquire => exact ⟨_, rfl, inv_goto h t _ (by rw [hp]; rfl) (by simp)⟩
    | tryAcquire => exact ⟨_, rfl, inv_goto h t _ (by rw [hp]; rfl) (by simp)⟩
    | unacquire n =>
      by_cases hn : n ∈ s.held t
      · simp only [hn, if_true]
        exact ⟨_, rfl, inv_goto h t _ (by rw [hp]; rfl) (by intro m hm; cases hm; exact hn)⟩
      · simp only [hn, if_false]
        exact ⟨_, rfl, h⟩
  | scan retry i =>
    simp only
    by_cases hi : i < size
    · simp only [hi, if_true]
      by_cases hb : s.bits i = .available
      · simp only [hb, if_true]
        refine ⟨_, rfl, ?_⟩
        have hfree : ∀ u, ¬ Owns s u i := by
          rintro u (h1 | h1)
          · rw [h.held u i h1] at hb; cases hb
          · rw [h.changing u i h1] at hb; cases hb
        have hown : ∀ u n, Owns ((s.store i .changing).goto t (.takeLoad i)) u n ↔ Owns s u n ∨ (u = t ∧ n = i) := by
          intro u n
          unfold Owns
          by_cases hu : u = t
          · subst hu
            simp only [Sys.goto, Sys.store, if_true, Pc.changing, hp, true_and, Option.some.injEq, eq_comm]
            simp
          · simp [Sys.goto, Sys.store, hu]
        have hbits : ∀ n, n ≠ i → ((s.store i .changing).goto t (.takeLoad i)).bits n = s.bits n := by
          intro n hn; simp [Sys.goto, Sys.store, Bits.set, hn]
        have hbi : ((s.store i .changing).goto t (.takeLoad i)).bits i = .changing := by
          simp [Sys.goto, Sys.store, Bits.set]
        refine ⟨?_, h.nodup, ?_, ?_, ?_, ?_, ?_, ?_⟩
        · intro n u v h1 h2
          rcases (hown u n).mp h1 with h3 | ⟨h3, h3'⟩
          · rcases (hown v n).mp h2 with h4 | ⟨h4, h4'⟩
            · exact h.exclusive n u v h3 h4
            · exact absurd (h4' ▸ h3) (hfree u)
          · rcases (hown v n).mp h2 with h4 | ⟨h4, _⟩
            · exact absurd (h3' ▸ h4) (hfree v)
            · rw [h3, h4]
        · intro u n h1
          by_cases hu : u = t
          · subst hu
            simp only [Sys.goto, if_true, Pc.changing, Option.some.injEq] at h1
            subst h1
            exact fun h2 => hfree u (Or.inl h2)
          · simp only [Sys.goto, Sys.store, hu, if_false] at h1
            exact h.once u n h1
        · intro u n h1
          by_cases hu : u = t
          · subst hu; simp [Sys.goto] at h1
          · simp only [Sys.goto, Sys.store, hu, if_false] at h1
            exact h.putCas u n h1
        · intro u n h1
          rcases (hown u n).mp h1 with h1 | ⟨_, rfl⟩
          · exact h.range u n h1
          · exact hi
        · intro u n h1
          have : n ≠ i := fun e => hfree u (Or.inl (e ▸ h1))
          rw [hbits n this]
          exact h.held u n h1
        · intro u n h1
          by_cases hn : n = i
          · subst hn; exact hbi
          · rw [hbits n hn]
            by_cases hu : u = t
            · subst hu
              simp only [Sys.goto, if_true, Pc.changing, Option.some.injEq] at h1
              exact absurd h1.symm hn
            · simp only [Sys.goto, Sys.store, hu, if_false] at h1
              exact h.changing u n h1
        · intro n h1
          by_cases hn : n = i
          · exact ⟨t, (hown t n).mpr (Or.inr ⟨rfl, hn⟩)⟩
          · rw [hbits n hn] at h1
            obtain ⟨u, hu⟩ := h.taken n h1
            exact ⟨u, (hown u n).mpr (Or.inl hu)⟩
      · simp only [hb, if_false]
        exact ⟨_, rfl, inv_goto h t _ (by rw [hp]; rfl) (by simp)⟩
    · simp only [hi, if_false]
      cases retry
      · exact ⟨_, rfl, inv_goto h t _ (by rw [hp]; rfl) (by simp)⟩
      · exact ⟨_, rfl, inv_goto h t _ (by rw [hp]; rfl) (by simp)⟩
  | takeLoad n =>
    have hb := h.changing t n (by rw [hp]; rfl)
    simp only [hb, ne_eq, not_true, if_false]
    exact ⟨_, rfl, inv_goto h t _ (by rw [hp]; rfl) (by simp)⟩
  | putLoad n =>
    have hb := h.changing t n (by rw [hp]; rfl)
    simp only [hb, ne_eq, not_true, if_false]
    exact ⟨_, rfl, inv_goto h t _ (by rw [hp]; rfl) (by simp)⟩
  | takeStore i =>
    refine ⟨_, rfl, ?_⟩
    have hti : Owns s t i := Or.inr (by rw [hp]; rfl)
    have hni : i ∉ s.held t := h.once t i (by rw [hp]; rfl)
    have hown : ∀ u n, Owns (((s.store i .unavailable).goto t .idle).hold t (i :: s.held t)) u n ↔ Owns s u n := by
      intro u n
      unfold Owns
      by_cases hu : u = t
      · subst hu
        simp only [Sys.goto, Sys.store, Sys.hold, if_true, Pc.changing, hp, Option.some.injEq, List.mem_cons]
        constructor
        · rintro ((rfl | h) | h)
          · exact Or.inr rfl
          · exact Or.inl h
          · cases h
        · rintro (h | h)
          · exact Or.inl (Or.inr h)
          · exact Or.inl (Or.inl h.symm)
      · simp [Sys.goto, Sys.store, Sys.hold, hu]
    refine ⟨?_, ?_, ?_, ?_, ?_, ?_, ?_, ?_⟩
    · intro n u v h1 h2; exact h.exclusive n u v ((hown u n).mp h1) ((hown v n).mp h2)
    · intro u
      by_cases hu : u = t
      · subst hu; simpa [Sys.hold] using ⟨hni, h.nodup u⟩
      · simpa [Sys.hold, Sys.goto, Sys.store, hu] using h.nodup u
    · intro u n h1
      by_cases hu : u = t
      · subst hu; simp [Sys.goto, Sys.hold, Pc.changing] at h1
      · simp only [Sys.goto, Sys.store, Sys.hold, hu, if_false] at h1 ⊢
        exact h.once u n h1
    · intro u n h1
      by_cases hu : u = t
      · subst hu; simp [Sys.goto, Sys.hold] at h1
      · simp only [Sys.goto, Sys.store, Sys.hold, hu, if_false] at h1 ⊢
        exact h.putCas u n h1
    · intro u n h1; exact h.range u n ((hown u n).mp h1)
    · intro u n h1
      by_cases hn : n = i
      · subst hn; simp [Sys.goto, Sys.store, Sys.hold, Bits.set]
      · have : Owns s u n := (hown u n).mp (Or.inl h1)
        have h2 : n ∈ s.held u := by
          by_cases hu : u = t
          · subst hu
            simp only [Sys.hold, if_true, List.mem_cons, hn, false_or] at h1
            exact h1
          · simpa [Sys.hold, Sys.goto, Sys.store, hu] using h1
        simpa [Sys.goto, Sys.store, Sys.hold, Bits.set, hn] using h.held u n h2
    · intro u n h1
      by_cases hu : u = t
      · subst hu; simp [Sys.goto, Sys.hold, Pc.changing] at h1
      · simp only [Sys.goto, Sys.store, Sys.hold, hu, if_false] at h1
        have hn : n ≠ i := fun e => hu (h.exclusive i u t (Or.inr (e ▸ h1)) hti)
        simpa [Sys.goto, Sys.store, Sys.hold, Bits.set, hn] using h.changing u n h1
    · intro n h1
      by_cases hn : n = i
      · exact ⟨t, (hown t n).mpr (hn ▸ hti)⟩
      · have : s.bits n ≠ .available := by simpa [Sys.goto, Sys.store, Sys.hold, Bits.set, hn] using h1
        obtain ⟨u, hu⟩ := h.taken n this
        exact ⟨u, (hown u n).mpr hu⟩
  | putCas i =>
    have hin := h.putCas t i hp
    have hbi := h.held t i hin
    have hti : Owns s t i := Or.inl hin
    simp only [hbi, if_true]
    refine ⟨_, rfl, ?_⟩
    have hown : ∀ u n, Owns (((s.store i .changing).goto t (.putLoad i)).hold t ((s.held t).erase i)) u n ↔ Owns s u n := by
      intro u n
      unfold Owns
      by_cases hu : u = t
      · subst hu
        simp only [Sys.goto, Sys.store, Sys.hold, if_true, Pc.changing, hp, Option.some.injEq]
        rw [(h.nodup u).mem_erase_iff]
        constructor
        · rintro (h | rfl)
          · exact Or.inl h.2
          · exact Or.inl hin
        · rintro (h | h)
          · by_cases hn : n = i
            · exact Or.inr hn.symm
            · exact Or.inl ⟨hn, h⟩
          · cases h
      · simp [Sys.goto, Sys.store, Sys.hold, hu]
    have hheld : ∀ u n, n ∈ (((s.store i .changing).goto t (.putLoad i)).hold t ((s.held t).erase i)).held u →
        n ∈ s.held u ∧ n ≠ i := by
      intro u n h1
      by_cases hu : u = t
      · subst hu
        simp only [Sys.hold, if_true] at h1
        have := (h.nodup u).mem_erase_iff.mp h1
        exact ⟨this.2, this.1⟩
      · simp only [Sys.hold, Sys.goto, Sys.store, hu, if_false] at h1
        exact ⟨h1, fun e => hu (h.exclusive i u t (Or.inl (e ▸ h1)) hti)⟩
    refine ⟨?_, ?_, ?_, ?_, ?_, ?_, ?_, ?_⟩
    · intro n u v h1 h2; exact h.exclusive n u v ((hown u n).mp h1) ((hown v n).mp h2)
    · intro u
      by_cases hu : u = t
      · subst hu; simpa [Sys.hold] using (h.nodup u).erase i
      · simpa [Sys.hold, Sys.goto, Sys.store, hu] using h.nodup u
    · intro u n h1 h2
      obtain ⟨h3, h4⟩ := hheld u n h2
      by_cases hu : u = t
      · subst hu
        simp only [Sys.goto, Sys.hold, if_true, Pc.changing, Option.some.injEq] at h1
        exact h4 h1.symm
      · simp only [Sys.goto, Sys.store, Sys.hold, hu, if_false] at h1
        exact h.once u n h1 h3
    · intro u n h1
      by_cases hu : u = t
      · subst hu; simp [Sys.goto, Sys.hold] at h1
      · simp only [Sys.goto, Sys.store, Sys.hold, hu, if_false] at h1 ⊢
        exact h.putCas u n h1
    · intro u n h1; exact h.range u n ((hown u n).mp h1)
    · intro u n h1
      obtain ⟨h3, h4⟩ := hheld u n h1
      simpa [Sys.goto, Sys.store, Sys.hold, Bits.set, h4] using h.held u n h3
    · intro u n h1
      by_cases hn : n = i
      · subst hn; simp [Sys.goto, Sys.store, Sys.hold, Bits.set]
      · by_cases hu : u = t
        · subst hu
          simp only [Sys.goto, Sys.hold, if_true, Pc.changing, Option.some.injEq] at h1
          exact absurd h1.symm hn
        · simp only [Sys.goto, Sys.store, Sys.hold, hu, if_false] at h1
          simpa [Sys.goto, Sys.store, Sys.hold, Bits.set, hn] using h.changing u n h1
    · intro n h1
      by_cases hn : n = i
      · exact ⟨t, (hown t n).mpr (hn ▸ hti)⟩
      · have : s.bits n ≠ .available := by simpa [Sys.goto, Sys.store, Sys.hold, Bits.set, hn] using h1
        obtain ⟨u, hu⟩ := h.taken n this
        exact ⟨u, (hown u n).mpr hu⟩
  | putStore i =>
    refine ⟨_, rfl, ?_⟩
    have hti : Owns s t i := Or.inr (by rw [hp]; rfl)
    have hni : i ∉ s.held t := h.once t i (by rw [hp]; rfl)
    have hown : ∀ u n, Owns ((s.store i .available).goto t .idle) u n ↔ Owns s u n ∧ n ≠ i := by
      intro u n
      unfold Owns
      by_cases hu : u = t
      · subst hu
        simp only [Sys.goto, Sys.store, if_true, Pc.changing, hp, Option.some.injEq]
        constructor
        · rintro (h | h)
          · exact ⟨Or.inl h, fun e => hni (e ▸ h)⟩
          · cases h
        · rintro ⟨h | h, h2⟩
          · exact Or.inl h
          · exact absurd h.symm h2
      · simp only [Sys.goto, Sys.store, hu, if_false]
        constructor
        · intro h1
          exact ⟨h1, fun e => hu (h.exclusive i u t (e ▸ h1) hti)⟩
        · exact fun h1 => h1.1
    have hbits : ∀ n, n ≠ i → ((s.store i .available).goto t .idle).bits n = s.bits n := by
      intro n hn; simp [Sys.goto, Sys.store, Bits.set, hn]
    refine ⟨?_, h.nodup, ?_, ?_, ?_, ?_, ?_, ?_⟩
    · intro n u v h1 h2; exact h.exclusive n u v ((hown u n).mp h1).1 ((hown v n).mp h2).1
    · intro u n h1
      by_cases hu : u = t
      · subst hu; simp [Sys.goto, Pc.changing] at h1
      · simp only [Sys.goto, Sys.store, hu, if_false] at h1
        exact h.once u n h1
    · intro u n h1
      by_cases hu : u = t
      · subst hu; simp [Sys.goto] at h1
      · simp only [Sys.goto, Sys.store, hu, if_false] at h1
        exact h.putCas u n h1
    · intro u n h1; exact h.range u n ((hown u n).mp h1).1
    · intro u n h1
      have := (hown u n).mp (Or.inl h1)
      rw [hbits n this.2]
      exact h.held u n h1
    · intro u n h1
      have := (hown u n).mp (Or.inr h1)
      rw [hbits n this.2]
      by_cases hu : u = t
      · subst hu; simp [Sys.goto, Pc.changing] at h1
      · simp only [Sys.goto, Sys.store, hu, if_false] at h1
        exact h.changing u n h1
    · intro n h1
      have hn : n ≠ i := by
        rintro rfl
        exact h1 (by simp [Sys.goto, Sys.store, Bits.set])
      rw [hbits n hn] at h1
      obtain ⟨u, hu⟩ := h.taken n h1
      exact ⟨u, (hown u n).mpr ⟨hu, hn⟩⟩

theorem run_inv (sched : List (Nat × Cmd)) (s : Sys) (h : Inv s) : ∃ s', run sched s = .ok s' ∧ Inv s' := by
  induction sched generalizing s with
  | nil => exact ⟨s, rfl, h⟩
  | cons x sched ih =>
    obtain ⟨t, cmd⟩ := x
    obtain ⟨s1, h1, h2⟩ := step_inv s h t cmd
    obtain ⟨s', h3, h4⟩ := ih s1 h2
    exact ⟨s', by rw [run, h1]; exact h3, h4⟩

/-- Every execution: whatever number of threads call `acquire`, `tryAcquire` and give back what they hold, and however
their steps interleave, no exception is thrown, no two threads hold the same slot, no thread holds a slot twice, and
the slot numbers are in range. -/
theorem C66_slots_exclusive (sched : List (Nat × Cmd)) :
    ∃ s, run sched Sys.init = .ok s ∧
      (∀ t u n, n ∈ s.held t → n ∈ s.held u → t = u) ∧ (∀ t, (s.held t).Nodup) ∧
      (∀ t n, n ∈ s.held t → n < size) := by
  obtain ⟨s, h1, h2⟩ := run_inv sched Sys.init inv_init
  exact ⟨s, h1, fun t u n h3 h4 => h2.exclusive n t u (Or.inl h3) (Or.inl h4), h2.nodup,
    fun t n h3 => h2.range t n (Or.inl h3)⟩

/-- No slot is lost: when all threads are between calls, a slot is free or held by a thread. -/
theorem C66_no_slot_lost (sched : List (Nat × Cmd)) (s : Sys) (h : run sched Sys.init = .ok s)
    (hi : ∀ t, s.pc t = .idle) (n : Nat) :
    (s.bits n = .available ∧ ∀ t, n ∉ s.held t) ∨ (s.bits n = .unavailable ∧ ∃ t, n ∈ s.held t) := by
  obtain ⟨s', h1, h2⟩ := run_inv sched Sys.init inv_init
  rw [h] at h1
  cases h1
  by_cases hb : s.bits n = .available
  · left
    refine ⟨hb, fun t ht => ?_⟩
    rw [h2.held t n ht] at hb
    cases hb
  · right
    obtain ⟨t, ht | ht⟩ := h2.taken n hb
    · exact ⟨h2.held t n ht, t, ht⟩
    · rw [hi t] at ht; cases ht

/-- Threads 0 and 1 race for slot 0: thread 0 wins, thread 1 gets slot 1; thread 0 gives slot 0 back and thread 1 takes
it. -/
def race : List (Nat × Cmd) :=
  [(0, .acquire), (1, .tryAcquire), (0, .acquire), (1, .acquire), (1, .acquire), (0, .acquire), (0, .acquire),
   (1, .acquire), (1, .acquire), (0, .unacquire 0), (0, .acquire), (0, .acquire), (0, .acquire), (1, .acquire),
   (1, .acquire), (1, .acquire), (1, .acquire)]

example : (match run race Sys.init with
    | .ok s => some (s.held 0, s.held 1)
    | _ => none) = some ([], [0, 1]) := by decide +kernel

example : (match run (race.take 9) Sys.init with
    | .ok s => some (s.held 0, s.held 1)
    | _ => none) = some ([0], [1]) := by decide +kernel

/-! ### C67 -/

/-- No slot is in the intermediate state. -/
def Settled (b : Bits) : Prop := ∀ n, b n ≠ .changing

theorem occupyFrom_spec (b : Bits) (todo i : Nat) :
    (∃ n, i ≤ n ∧ n < i + todo ∧ b n = .available ∧ (∀ m, i ≤ m → m < n → b m ≠ .available) ∧
      occupyFrom b i todo = (some n, b.set n .changing)) ∨
    ((∀ m, i ≤ m → m < i + todo → b m ≠ .available) ∧ occupyFrom b i todo = (none, b)) := by
  induction todo generalizing i with
  | zero => exact Or.inr ⟨fun m h1 h2 => by omega, rfl⟩
  | succ todo ih =>
    by_cases hb : b i = .available
    · exact Or.inl ⟨i, by omega, by omega, hb, fun m h1 h2 => by omega, by simp [occupyFrom, hb]⟩
    · rcases ih (i + 1) with ⟨n, h1, h2, h3, h4, h5⟩ | ⟨h1, h2⟩
      · refine Or.inl ⟨n, by omega, by omega, h3, ?_, by simp [occupyFrom, hb, h5]⟩
        intro m hm1 hm2
        by_cases hm : m = i
        · subst hm; exact hb
        · exact h4 m (by omega) hm2
      · refine Or.inr ⟨?_, by simp [occupyFrom, hb, h2]⟩
        intro m hm1 hm2
        by_cases hm : m = i
        · subst hm; exact hb
        · exact h1 m (by omega) (by omega)

theorem set_set (b : Bits) (n : Nat) (u v : State) : (b.set n u).set n v = b.set n v := by
  funext m
  unfold Bits.set
  split <;> rfl

/-- `tryAcquire` used by one thread takes the smallest free slot; it returns -1, changing nothing, iff there is none.
`acquire` does the same and never returns iff there is none. -/
theorem C67_tryAcquire (b : Bits) :
    (∃ n, n < size ∧ b n = .available ∧ (∀ m, m < n → b m ≠ .available) ∧
      tryAcquire b = (.ok (some n), b.set n .unavailable) ∧ acquire b = (.ok n, b.set n .unavailable)) ∨
    ((∀ m, m < size → b m ≠ .available) ∧ tryAcquire b = (.ok none, b) ∧ acquire b = (.diverges, b)) := by
  rcases occupyFrom_spec b size 0 with ⟨n, _, h2, h3, h4, h5⟩ | ⟨h1, h2⟩
  · refine Or.inl ⟨n, by omega, h3, fun m hm => h4 m (by omega) hm, ?_, ?_⟩
    · unfold tryAcquire
      rw [h5]
      simp only [take]
      rw [if_neg (by simp [Bits.set])]
      simp [set_set]
    · unfold acquire
      rw [h5]
      simp only [take]
      rw [if_neg (by simp [Bits.set])]
      simp [set_set]
  · refine Or.inr ⟨fun m hm => h1 m (by omega) (by omega), ?_, ?_⟩
    · unfold tryAcquire; rw [h2]
    · unfold acquire; rw [h2]

/-- `unacquire(n)` of a slot that is taken frees it; of a slot that is free it throws and changes nothing. -/
theorem C67_unacquire (b : Bits) (n : Nat) (hn : n < size) :
    (b n = .unavailable → unacquire b n = (.ok (), b.set n .available)) ∧
    (b n = .available → unacquire b n = (.throws .runtimeError, b)) := by
  unfold unacquire put
  rw [if_neg (by omega)]
  constructor
  · intro h
    simp only [h, if_true]
    rw [if_neg (by simp [Bits.set])]
    rw [set_set]
  · intro h
    simp [h]

/-- The calls of one thread. -/
inductive Call where
  | tryAcquire
  | unacquire (n : Fin size)

/-- The effect of a call on the bitmap. -/
def Call.run (c : Call) (b : Bits) : Bits :=
  match c with
  | .tryAcquire => (Bitmap.tryAcquire b).2
  | .unacquire n => (Bitmap.unacquire b n).2

/-- No sequence of calls, including `unacquire`s that throw, leaves a slot in the intermediate state. -/
theorem C67_settled (calls : List Call) : Settled (calls.foldl (fun b c => c.run b) init) := by
  suffices h : ∀ b, Settled b → Settled (calls.foldl (fun b c => c.run b) b) from
    h init (fun n => by simp [init])
  induction calls with
  | nil => exact fun b h => h
  | cons c calls ih =>
    intro b hb
    refine ih _ ?_
    have hset : ∀ n v, v ≠ .changing → Settled (b.set n v) := by
      intro n v hv m
      unfold Bits.set
      split
      · exact hv
      · exact hb m
    cases c with
    | tryAcquire =>
      rcases C67_tryAcquire b with ⟨n, _, _, _, h, _⟩ | ⟨_, h, _⟩
      · simp only [Call.run, h]; exact hset n _ (by simp)
      · simp only [Call.run, h]; exact hb
    | unacquire n =>
      have := C67_unacquire b n n.2
      simp only [Call.run]
      cases hn : b n with
      | available => rw [this.2 hn]; exact hb
      | unavailable => rw [this.1 hn]; exact hset n _ (by simp)
      | changing => exact absurd hn (hb n)

example : (tryAcquire (init.set 0 .unavailable)).1 = .ok (some 1) := by decide +kernel

example : (unacquire init 3).1 = .throws .runtimeError := by decide +kernel

/-! ### C117 -/

/-- An upper bound for the steps a call of `tryAcquire` or `unacquire` still makes. -/
def Pc.stepsLeft : Pc → Nat
  | .idle => 0
  | .scan _ i => size - i + 3
  | .takeLoad _ => 2
  | .takeStore _ => 1
  | .putCas _ => 3
  | .putLoad _ => 2
  | .putStore _ => 1

/-- The thread is not within `acquire`. -/
def Pc.Bounded : Pc → Prop
  | .scan retry _ => retry = false
  | _ => True

theorem step_other {s s' : Sys} {t u : Nat} {cmd : Cmd} (h : step s u cmd = .ok s') (hu : u ≠ t) : s'.pc t = s.pc t := by
  have hu' : t ≠ u := fun e => hu e.symm
  unfold step at h
  split at h
  · split at h
    · cases h; simp [Sys.goto, hu']
    · cases h; simp [Sys.goto, hu']
    · split_ifs at h <;> cases h <;> simp [Sys.goto, hu']
  · split_ifs at h <;> cases h <;> simp [Sys.goto, Sys.store, hu']
  · split_ifs at h; cases h; simp [Sys.goto, hu']
  · cases h; simp [Sys.goto, Sys.store, Sys.hold, hu']
  · split_ifs at h <;> cases h <;> simp [Sys.goto, Sys.store, Sys.hold, hu']
  · split_ifs at h; cases h; simp [Sys.goto, hu']
  · cases h; simp [Sys.goto, Sys.store, hu']

theorem step_own {s s' : Sys} {t : Nat} {cmd : Cmd} (h : step s t cmd = .ok s') (hb : (s.pc t).Bounded)
    (hi : s.pc t ≠ .idle) : (s'.pc t).Bounded ∧ (s'.pc t).stepsLeft < (s.pc t).stepsLeft := by
  unfold step at h
  split at h
  · next e => exact absurd e hi
  · next retry i e =>
    rw [e] at hb ⊢
    simp only [Pc.Bounded] at hb
    subst hb
    simp only [Bool.false_eq_true, if_false] at h
    split_ifs at h with h1 h2
    · cases h; simp [Sys.goto, Sys.store, Pc.Bounded, Pc.stepsLeft]
    · cases h; simp [Sys.goto, Pc.Bounded, Pc.stepsLeft]; omega
    · cases h; simp [Sys.goto, Pc.Bounded, Pc.stepsLeft]
  · next n e => rw [e]; split_ifs at h; cases h; simp [Sys.goto, Pc.Bounded, Pc.stepsLeft]
  · next n e => rw [e]; cases h; simp [Sys.goto, Sys.store, Sys.hold, Pc.Bounded, Pc.stepsLeft]
  · next n e =>
    rw [e]; split_ifs at h <;> cases h <;> simp [Sys.goto, Sys.store, Sys.hold, Pc.Bounded, Pc.stepsLeft]
  · next n e => rw [e]; split_ifs at h; cases h; simp [Sys.goto, Pc.Bounded, Pc.stepsLeft]
  · next n e => rw [e]; cases h; simp [Sys.goto, Sys.store, Pc.Bounded, Pc.stepsLeft]

theorem ends_within (t : Nat) : ∀ (rest : List (Nat × Cmd)) (s : Sys), Inv s → (s.pc t).Bounded →
    (s.pc t).stepsLeft ≤ (rest.map Prod.fst).count t →
    ∃ pre post s', rest = pre ++ post ∧ run pre s = .ok s' ∧ s'.pc t = .idle := by
  intro rest
  induction rest with
  | nil =>
    intro s _ hb hl
    refine ⟨[], [], s, rfl, rfl, ?_⟩
    cases h : s.pc t <;> rw [h] at hl <;> simp [Pc.stepsLeft] at hl
  | cons x rest ih =>
    intro s hs hb hl
    obtain ⟨u, cmd⟩ := x
    by_cases hi : s.pc t = .idle
    · exact ⟨[], (u, cmd) :: rest, s, rfl, rfl, hi⟩
    · obtain ⟨s1, h1, h2⟩ := step_inv s hs u cmd
      have next : (s1.pc t).Bounded ∧ (s1.pc t).stepsLeft ≤ (rest.map Prod.fst).count t := by
        by_cases hu : u = t
        · subst hu
          obtain ⟨h3, h4⟩ := step_own h1 hb hi
          simp at hl
          exact ⟨h3, by omega⟩
        · rw [step_other h1 hu]
          have hc : (((u, cmd) :: rest).map Prod.fst).count t = (rest.map Prod.fst).count t := by
            simp [hu]
          exact ⟨hb, by omega⟩
      obtain ⟨pre, post, s', e, hr, hp⟩ := ih s1 h2 next.1 next.2
      exact ⟨(u, cmd) :: pre, post, s', by rw [e]; rfl, by rw [run, h1]; exact hr, hp⟩

/-- C117. `tryAcquire` and `unacquire` are wait-free: in every execution, a thread that has called one of them is done
after at most `size + 3` steps of its own, whatever the other threads do in between. -/
theorem C117_wait_free (sched rest : List (Nat × Cmd)) (s : Sys) (h : run sched Sys.init = .ok s) (t : Nat)
    (hc : s.pc t = .scan false 0 ∨ ∃ n, s.pc t = .putCas n) (hn : size + 3 ≤ (rest.map Prod.fst).count t) :
    ∃ pre post s', rest = pre ++ post ∧ run pre s = .ok s' ∧ s'.pc t = .idle := by
  obtain ⟨s0, h0, hi⟩ := run_inv sched Sys.init inv_init
  rw [h] at h0
  cases h0
  refine ends_within t rest s hi ?_ (Nat.le_trans ?_ hn)
  · rcases hc with e | ⟨n, e⟩ <;> rw [e] <;> simp [Pc.Bounded]
  · rcases hc with e | ⟨n, e⟩ <;> rw [e] <;> simp [Pc.stepsLeft]

/-- Thread 1 calls `tryAcquire`, thread 0 interrupts it. -/
example : ∃ s, run [(1, .tryAcquire)] Sys.init = .ok s ∧ s.pc 1 = .scan false 0 := ⟨_, rfl, rfl⟩

theorem run_append (a b : List (Nat × Cmd)) (s s' : Sys) (h : run a s = .ok s') : run (a ++ b) s = run b s' := by
  induction a generalizing s with
  | nil => cases h; rfl
  | cons x a ih =>
    obtain ⟨t, cmd⟩ := x
    simp only [List.cons_append, run] at h ⊢
    split at h
    · exact ih _ h
    · cases h
    · cases h
    · cases h

theorem goto_goto (s : Sys) (t : Nat) (p q : Pc) : (s.goto t p).goto t q = s.goto t q := by
  simp only [Sys.goto]
  congr 1
  funext u
  split_ifs <;> rfl

/-- Alone, a thread scanning from `i` takes the first free slot from there on. -/
theorem scan_finds (t : Nat) (cmd : Cmd) (retry : Bool) : ∀ d (s : Sys) (i : Nat), s.pc t = .scan retry i → i + d < size →
    s.bits (i + d) = .available → (∀ j, i ≤ j → j < i + d → s.bits j ≠ .available) →
    run (List.replicate (d + 3) (t, cmd)) s =
      .ok (((s.store (i + d) .unavailable).goto t .idle).hold t ((i + d) :: s.held t)) := by
  intro d
  induction d with
  | zero =>
    intro s i hp hl ha _
    simp only [Nat.add_zero] at *
    simp only [List.replicate_succ, List.replicate_zero, run, step, hp, hl, if_true, ha]
    simp only [Sys.goto, Sys.store, Sys.hold, Bits.set, if_true, ne_eq, not_true_eq_false, if_false]
    congr 2
    · exact set_set ..
    · funext u; split_ifs <;> rfl
  | succ d ih =>
    intro s i hp hl ha hb
    have e : List.replicate (d + 1 + 3) (t, cmd) = (t, cmd) :: List.replicate (d + 3) (t, cmd) := rfl
    have h1 : step s t cmd = .ok (s.goto t (.scan retry (i + 1))) := by
      unfold step
      rw [hp]
      simp only
      rw [if_pos (by omega), if_neg (hb i (Nat.le_refl _) (by omega))]
    have e2 : i + (d + 1) = i + 1 + d := by omega
    rw [e, run, h1]
    simp only
    rw [ih (s.goto t (.scan retry (i + 1))) (i + 1) (by simp [Sys.goto]) (by omega) (by rw [← e2]; exact ha)
      (fun j h1 h2 => hb j (by omega) (by omega)), e2]
    simp only [Sys.goto, Sys.store, Sys.hold]
    congr 2
    funext u
    split_ifs <;> rfl

/-- Alone, a thread scanning for `acquire` starts again at 0 if there is no free slot from `i` on. -/
theorem scan_wraps (t : Nat) (cmd : Cmd) : ∀ d (s : Sys) (i : Nat), s.pc t = .scan true i → i + d = size →
    (∀ j, i ≤ j → j < size → s.bits j ≠ .available) →
    run (List.replicate (d + 1) (t, cmd)) s = .ok (s.goto t (.scan true 0)) := by
  intro d
  induction d with
  | zero =>
    intro s i hp hl _
    simp only [List.replicate_succ, List.replicate_zero, run, step, hp]
    rw [if_neg (by omega)]
    rfl
  | succ d ih =>
    intro s i hp hl hb
    have e : List.replicate (d + 1 + 1) (t, cmd) = (t, cmd) :: List.replicate (d + 1) (t, cmd) := rfl
    have h1 : step s t cmd = .ok (s.goto t (.scan true (i + 1))) := by
      unfold step
      rw [hp]
      simp only
      rw [if_pos (by omega), if_neg (hb i (Nat.le_refl _) (by omega))]
    rw [e, run, h1]
    simp only
    rw [ih (s.goto t (.scan true (i + 1))) (i + 1) (by simp [Sys.goto]) (by omega)
      (fun j h1 h2 => hb j (by omega) h2), goto_goto]

theorem first_free (b : Bits) (i : Nat) : ∀ d, (∀ j, i ≤ j → j < i + d → b j ≠ .available) ∨
    ∃ e, e < d ∧ b (i + e) = .available ∧ ∀ j, i ≤ j → j < i + e → b j ≠ .available := by
  intro d
  induction d with
  | zero => left; intro j h1 h2; omega
  | succ d ih =>
    rcases ih with h | ⟨e, h1, h2, h3⟩
    · by_cases ha : b (i + d) = .available
      · exact .inr ⟨d, by omega, ha, h⟩
      · left
        intro j h1 h2
        by_cases hj : j = i + d
        · rw [hj]; exact ha
        · exact h j h1 (by omega)
    · exact .inr ⟨e, by omega, h2, h3⟩

/-- C117. `acquire` is obstruction-free: wherever a thread is in its search, in any state of the array with a free slot,
it gets a slot that was free within `2 * size + 3` steps if the other threads pause. -/
theorem C117_acquire_alone (s : Sys) (t : Nat) (cmd : Cmd) (i : Nat) (hi : i ≤ size) (hp : s.pc t = .scan true i)
    (hf : ∃ n, n < size ∧ s.bits n = .available) :
    ∃ k n, k ≤ 2 * size + 3 ∧ n < size ∧ s.bits n = .available ∧ run (List.replicate k (t, cmd)) s =
      .ok (((s.store n .unavailable).goto t .idle).hold t (n :: s.held t)) := by
  rcases first_free s.bits i (size - i) with h | ⟨e, h1, h2, h3⟩
  · have hw := scan_wraps t cmd (size - i) s i hp (by omega) (fun j h1 h2 => h j h1 (by omega))
    obtain ⟨n, hn, ha⟩ := hf
    have hni : n < i := by
      by_contra hc
      exact h n (by omega) (by omega) ha
    rcases first_free s.bits 0 (n + 1) with h' | ⟨e, h1, h2, h3⟩
    · exact absurd ha (h' n (by omega) (by omega))
    · refine ⟨(size - i + 1) + (e + 3), e, by omega, by omega, by simpa using h2, ?_⟩
      rw [List.replicate_add, run_append _ _ _ _ hw,
        scan_finds t cmd true e (s.goto t (.scan true 0)) 0 (by simp [Sys.goto]) (by omega) h2 h3]
      simp only [Sys.goto, Sys.store, Sys.hold, Nat.zero_add]
      congr 2
      funext u
      split_ifs <;> rfl
  · exact ⟨e + 3, i + e, by omega, by omega, h2, scan_finds t cmd true e s i hp (by omega) h2 h3⟩

example : ∃ s, run [(1, .acquire)] Sys.init = .ok s ∧ s.pc 1 = .scan true 0 ∧ s.bits 5 = .available := ⟨_, rfl, rfl, rfl⟩

end Bitmap
end Verif
