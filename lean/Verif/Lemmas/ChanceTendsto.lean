import Verif.Lemmas.Chance
import Mathlib.Topology.Instances.Rat
import Mathlib.Topology.Algebra.Field
import Mathlib.Topology.Order.LeftRightNhds
import Mathlib.Analysis.SpecificLimits.Basic
import Mathlib.Topology.Algebra.Order.Group
/-
Probabilities in the limit, with the limits of Mathlib.
-/
namespace Verif
open Filter Topology
variable {α : Type}

/-- `ChanceLimit` says that from some number of rounds on there is a probability, and that it tends to `p`. -/
theorem chanceLimit_iff {f : Nat → Src α} {E : α → Bool} {p : ℚ} :
    ChanceLimit f E p ↔ ∃ q : Nat → ℚ, Tendsto q atTop (𝓝 p) ∧ ∀ᶠ m in atTop, Chance (f m) E (q m) := by
  classical
  constructor
  · intro h
    refine ⟨fun m => if hq : ∃ q, Chance (f m) E q then hq.choose else 0, ?_, ?_⟩
    · rw [LinearOrderedAddCommGroup.tendsto_nhds]
      intro ε hε
      obtain ⟨N, hN⟩ := h ε hε
      filter_upwards [eventually_ge_atTop N] with m hm
      obtain ⟨q, hq, hd⟩ := hN m hm
      have hex : ∃ q, Chance (f m) E q := ⟨q, hq⟩
      rw [dif_pos hex, chance_unique hex.choose_spec hq]
      exact hd
    · obtain ⟨N, hN⟩ := h 1 one_pos
      filter_upwards [eventually_ge_atTop N] with m hm
      obtain ⟨q, hq, -⟩ := hN m hm
      have hex : ∃ q, Chance (f m) E q := ⟨q, hq⟩
      rw [dif_pos hex]
      exact hex.choose_spec
  · rintro ⟨q, hq, hc⟩ ε hε
    rw [LinearOrderedAddCommGroup.tendsto_nhds] at hq
    obtain ⟨N, hN⟩ := eventually_atTop.1 ((hq ε hε).and hc)
    exact ⟨N, fun m hm => ⟨q m, (hN m hm).2, (hN m hm).1⟩⟩

end Verif
