import Verif.Spec.ChanceNested
import Verif.Lemmas.ChanceGen
import Verif.Lemmas.ChanceTendsto
/-
Alternatives of `oneOf` that have loops themselves.
-/
namespace Verif
open Shr Random Comb Filter Topology
variable {α σ : Type}

/-- Probabilities of all alternatives, from some number of rounds on, and their weighted sum. -/
theorem limits_of_alts {E : Shr α → Bool} (qs : List ℚ) {alts : List ((Nat → Src (Shr α)) × Dbl)} {ps : List ℚ}
    (hp : List.Forall₂ (fun a p => ChanceLimit a.1 E p) alts ps) :
    ∃ f : Nat → List ℚ, (∀ᶠ n in atTop, List.Forall₂ (fun a p => Chance a.1 E p) (cutAlts alts n) (f n)) ∧
      Tendsto (fun n => (List.zipWith (fun q p => accepting q * p) qs (f n)).sum) atTop
        (𝓝 (List.zipWith (fun q p => accepting q * p) qs ps).sum) := by
  induction hp generalizing qs with
  | nil => exact ⟨fun _ => [], .of_forall fun _ => .nil, tendsto_const_nhds⟩
  | @cons a p as ps h _ ih =>
    obtain ⟨g, hg1, hg2⟩ := chanceLimit_iff.1 h
    cases qs with
    | nil =>
      obtain ⟨f, hf1, -⟩ := ih []
      refine ⟨fun n => g n :: f n, ?_, by simp⟩
      filter_upwards [hg2, hf1] with n h1 h2
      exact .cons h1 h2
    | cons q qs =>
      obtain ⟨f, hf1, hf2⟩ := ih qs
      refine ⟨fun n => g n :: f n, ?_, ?_⟩
      · filter_upwards [hg2, hf1] with n h1 h2
        exact .cons h1 h2
      · simp only [List.zipWith_cons_cons, List.sum_cons]
        exact (hg1.const_mul _).add hf2

theorem limit_oneOf (alts : List ((Nat → Src (Shr α)) × Dbl)) (qs ps : List ℚ) (E : Shr α → Bool)
    (hw : assignWeights (alts.map (·.2)) = .ok (qs.map Dbl.fin)) (hq : ∀ q ∈ qs, 0 ≤ q ∧ q ≤ 1)
    (hne : alts ≠ []) (hlen : alts.length ≤ 2 ^ 32)
    (hd : ∀ a ∈ alts, ∀ (n : Nat) (σ : Type) (R : Rng σ) (s : σ), a.1 n σ R s ≠ .throws .discard)
    (hp : List.Forall₂ (fun a p => ChanceLimit a.1 E p) alts ps) :
    ChanceLimit (oneOfNested alts) E
      ((List.zipWith (fun q p => accepting q * p) qs ps).sum / (qs.map accepting).sum) := by
  obtain ⟨f, hf1, hf2⟩ := limits_of_alts qs hp
  have hlc : ∀ n, (cutAlts alts n).length = alts.length := fun n => List.length_map _
  have hwc : ∀ n, (cutAlts alts n).map (·.2) = alts.map (·.2) := fun n => by
    simp [cutAlts, List.map_map, Function.comp_def]
  have key := fun n (h : List.Forall₂ (fun a p => Chance a.1 E p) (cutAlts alts n) (f n)) =>
    chance_oneOf_rounds (cutAlts alts n) qs (f n) E ((hwc n).symm ▸ hw) hq (by
      intro h0
      have := hlc n
      rw [h0] at this
      exact hne (List.length_eq_zero_iff.1 this.symm)) ((hlc n).symm ▸ hlen) (by
      intro a ha σ R s
      obtain ⟨b, hb, rfl⟩ := List.mem_map.1 ha
      exact hd b hb n σ R s) h
  obtain ⟨N, hN⟩ := eventually_atTop.1 hf1
  obtain ⟨h1, h2, -⟩ := key N (hN N le_rfl)
  rw [hlc] at h2
  have hnpos : (0 : ℚ) < alts.length * 2 ^ 64 := lt_of_lt_of_le h1 h2
  rw [chanceLimit_iff]
  refine ⟨fun n => (1 - (1 - (qs.map accepting).sum / (alts.length * 2 ^ 64)) ^ (n - 1)) *
    ((List.zipWith (fun q p => accepting q * p) qs (f n)).sum / (qs.map accepting).sum), ?_, ?_⟩
  · have hr0 : 0 ≤ 1 - (qs.map accepting).sum / (alts.length * 2 ^ 64 : ℚ) := by
      have := (div_le_one hnpos).2 h2
      linarith
    have hr1 : 1 - (qs.map accepting).sum / (alts.length * 2 ^ 64 : ℚ) < 1 := by
      have := div_pos h1 hnpos
      linarith
    have t1 : Tendsto (fun n : Nat => (1 - (qs.map accepting).sum / (alts.length * 2 ^ 64 : ℚ)) ^ (n - 1)) atTop (𝓝 0) :=
      (tendsto_pow_atTop_nhds_zero_of_lt_one hr0 hr1).comp (tendsto_sub_atTop_nat 1)
    have t2 := (t1.const_sub 1).mul (hf2.div_const (qs.map accepting).sum)
    simpa using t2
  · filter_upwards [hf1, eventually_ge_atTop 1] with n h hn
    have := (key n h).2.2 (n - 1)
    rwa [Nat.sub_add_cancel hn, hlc] at this

/-- `oneOf` catches every `Discard` of its alternatives. -/
theorem oneOfLoop_ne {R : Rng σ} (ws : List (Weighted σ α)) (fuel : Nat) (s : σ) :
    oneOfLoop R ws fuel s ≠ .throws .discard := by
  have hr : ∀ (w : Weighted σ α) (fuel : Nat) (s : σ), retry w fuel s ≠ .throws .discard := by
    intro w fuel
    induction fuel with
    | zero => intro s h; cases h
    | succ n ih =>
      intro s h
      unfold retry at h
      split at h
      · exact ih _ h
      · next hne => exact hne h
  induction fuel generalizing s with
  | zero => intro h; cases h
  | succ n ih =>
    intro h
    unfold oneOfLoop at h
    cases hs : getRandomSize R 0 ws.length s with
    | ok r =>
      obtain ⟨d, s1⟩ := r
      simp only [hs, Outcome.ok_bind] at h
      split at h
      · cases h
      · next w hw =>
        cases ht : threshold w.weight with
        | ok thr =>
          simp only [ht, Outcome.ok_bind] at h
          split at h
          · exact hr _ _ _ h
          · exact ih _ h
        | throws x => 
          simp only [ht] at h
          unfold threshold at ht
          split at ht
          · split at ht
            · cases ht
            · split at ht <;> cases ht
          · cases ht
        | ub => rw [ht] at h; cases h
        | diverges => rw [ht] at h; cases h
    | throws x =>
      unfold getRandomSize getRandomT uniform at hs
      split at hs <;> cases hs
    | ub => rw [hs] at h; cases h
    | diverges => rw [hs] at h; cases h

theorem bind_ne {β γ : Type} {x : Outcome β} {f : β → Outcome γ} (hx : x ≠ .throws .discard)
    (hf : ∀ b, x = .ok b → f b ≠ .throws .discard) : (x >>= f) ≠ .throws .discard := by
  cases x with
  | ok b => exact hf b rfl
  | throws e => intro h; cases h; exact hx rfl
  | ub => intro h; cases h
  | diverges => intro h; cases h

theorem assignWeights_ne (ws : List Dbl) : assignWeights ws ≠ .throws .discard := by
  have key : ∀ (ws : List Dbl) sum n, sumWeights ws sum n ≠ .throws .discard := by
    intro ws
    induction ws with
    | nil => intro sum n h; cases h
    | cons w ws ih =>
      intro sum n
      unfold sumWeights
      split
      · intro h; cases h
      · exact ih _ _
  unfold assignWeights
  refine bind_ne (key _ _ _) fun r _ => ?_
  dsimp only
  split
  · intro h; cases h
  · split <;> intro h <;> cases h

theorem oneOf_ne (gens : List (Weighted σ α)) : oneOf gens ≠ .throws .discard :=
  bind_ne (assignWeights_ne _) fun r _ h => by cases h

end Verif
