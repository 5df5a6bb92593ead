import Verif.Model.Spawn
import Verif.Lemmas.Handshake
/-! Helper lemmas about threads that cannot be created. -/
namespace Verif
namespace Concurrency
open Engine Stateful
variable {N : Nat} {μ O M : Type}

/-- Nothing has been released. -/
structure Hand.Early (s : Hand N μ) (j : Nat) : Prop where
  main : s.main = .spawn j
  sync : s.sync = false
  pc : ∀ t, s.pc t = .unborn ∨ s.pc t = .hello ∨ s.pc t = .spin

theorem rearStep_early (body : μ → Fin N → Res μ) (ended : μ → Fin N → Bool) (s : Hand N μ) (j : Nat) (h : s.Early j)
    (t : Fin N) : ∃ s', rearStep body ended s t = .running s' ∧ s'.Early j ∧ s'.mem = s.mem := by
  rcases h.pc t with hp | hp | hp
  · exact ⟨s, by simp [rearStep, hp], h, rfl⟩
  · refine ⟨{ s with
      ready := fun u => if u = t then true else s.ready u
      pc := fun u => if u = t then .spin else s.pc u }, by simp only [rearStep, hp], ⟨h.main, h.sync, fun u => ?_⟩, rfl⟩
    dsimp only
    split
    · exact .inr (.inr rfl)
    · exact h.pc u
  · exact ⟨s, by simp [rearStep, hp, h.sync], h, rfl⟩

theorem mainStep_early (s : Hand N μ) (j : Nat) (h : s.Early j) (hj : j < N) :
    (mainStep s).Early (j + 1) ∧ (mainStep s).mem = s.mem := by
  refine ⟨⟨?_, ?_, fun t => ?_⟩, mainStep_mem s⟩
  · simp [mainStep, h.main, hj]
  · simp [mainStep, h.main, hj, h.sync]
  · simp only [mainStep, h.main, dif_pos hj]
    split
    · exact .inr (.inl rfl)
    · exact h.pc t

/-- Before a thread that is refused, only the spawner gets on. -/
theorem spawnRun_refused (refused : Nat → Bool) (body : μ → Fin N → Res μ) (ended : μ → Fin N → Bool) (i : Nat)
    (hi : i < N) (hr : refused i = true) (sched : List (Option (Fin N))) :
    ∀ (s : Hand N μ) (j : Nat), j ≤ i → s.Early j →
      (∃ s', spawnRun refused body ended sched s = .running s' ∧ s'.Early (j + sched.count none) ∧
        j + sched.count none ≤ i ∧ s'.mem = s.mem) ∨ spawnRun refused body ended sched s = .terminated := by
  induction sched with
  | nil => exact fun s j hj h => .inl ⟨s, rfl, by simpa using h, by simpa using hj, rfl⟩
  | cons a sched ih =>
    intro s j hj h
    cases a with
    | none =>
      by_cases hb : j < N ∧ refused j = true
      · exact .inr (by simp [spawnRun, spawnStep, h.main, hb])
      · have hji : j < i := by
          rcases Nat.lt_or_eq_of_le hj with h1 | h1
          · exact h1
          · subst h1; exact absurd ⟨hi, hr⟩ hb
        obtain ⟨h1, h2⟩ := mainStep_early s j h (by omega)
        have he : spawnRun refused body ended (none :: sched) s = spawnRun refused body ended sched (mainStep s) := by
          simp [spawnRun, spawnStep, h.main, hb]
        rw [he]
        rcases ih (mainStep s) (j + 1) hji h1 with ⟨s', e1, e2, e3, e4⟩ | e
        · refine .inl ⟨s', e1, ?_, ?_, e4.trans h2⟩
          · rw [List.count_cons_self, ← Nat.add_assoc, Nat.add_right_comm]; exact e2
          · rw [List.count_cons_self]; omega
        · exact .inr e
    | some t =>
      obtain ⟨s', e1, e2, e3⟩ := rearStep_early body ended s j h t
      have he : spawnRun refused body ended (some t :: sched) s = spawnRun refused body ended sched s' := by
        simp [spawnRun, spawnStep, e1]
      rw [he, List.count_cons_of_ne (by simp)]
      rcases ih s' j hj e2 with ⟨s'', f1, f2, f3, f4⟩ | f
      · exact .inl ⟨s'', f1, f2, f3, f4.trans e3⟩
      · exact .inr f

theorem handInit_early (mem : μ) : (handInit N mem).Early 0 :=
  ⟨rfl, rfl, fun _ => .inl rfl⟩

/-- The spawner is scheduled as often as one likes. -/
theorem exists_count {σ : Nat → Option (Fin N)} (h : ∀ a k, ∃ j, k ≤ j ∧ σ j = a) (m : Nat) :
    ∃ n, m ≤ ((List.range n).map σ).count none := by
  induction m with
  | zero => exact ⟨0, Nat.zero_le _⟩
  | succ m ih =>
    obtain ⟨n, hn⟩ := ih
    obtain ⟨j, h1, h2⟩ := h none n
    refine ⟨j + 1, ?_⟩
    have hm : ((List.range n).map σ).count none ≤ ((List.range j).map σ).count none := by
      refine List.Sublist.count_le _ (List.Sublist.map _ ?_)
      exact List.range_sublist.2 h1
    rw [List.range_succ, List.map_append, List.count_append, List.map_singleton, h2]
    simp only [List.count_singleton_self]
    omega

/-- With no refusal. -/
theorem spawnRun_none (body : μ → Fin N → Res μ) (ended : μ → Fin N → Bool) (refused : Nat → Bool)
    (h : ∀ i, i < N → refused i = false) (sched : List (Option (Fin N))) :
    ∀ s : Hand N μ, spawnRun refused body ended sched s = handRun body ended sched s := by
  induction sched with
  | nil => exact fun _ => rfl
  | cons a sched ih =>
    intro s
    have hs : spawnStep refused body ended s a = handStep body ended s a := by
      cases a with
      | some t => rfl
      | none =>
        simp only [spawnStep, handStep]
        split
        · rw [if_neg]; rintro ⟨h1, h2⟩; rw [h _ h1] at h2; cases h2
        · rfl
    simp only [spawnRun, handRun, hs]
    cases handStep body ended s a with
    | running s' => exact ih s'
    | ub => rfl
    | terminated => rfl

end Concurrency
end Verif
