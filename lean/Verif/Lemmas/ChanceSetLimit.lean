import Verif.Lemmas.ChanceSet
import Verif.Lemmas.ChanceDiscard
import Verif.Lemmas.ChanceTest
import Mathlib.Topology.Algebra.GroupWithZero
/-
Sets of elements whose generator has a loop itself: the probabilities of the elements are then known only up to a
deviation that vanishes with the number of rounds.
-/
namespace Verif
open Shr Random ListLike Containers Comb Filter Topology
variable {α : Type}

/-- The probability of getting all of the last `b` elements of `k` in a number of rounds, each element being drawn
with probability `c`. -/
def reachUniform (c : ℚ) (k : Nat) : Nat → Nat → ℚ
  | _, 0 => 1
  | 0, _ + 1 => 0
  | m + 1, b + 1 => c * (b + 1) * reachUniform c k m b + c * (k - (b + 1)) * reachUniform c k m (b + 1)

/-- What it tends to. -/
def reachLimit (c : ℚ) (k : Nat) : Nat → ℚ
  | 0 => 1
  | b + 1 => c * (b + 1) * reachLimit c k b / (1 - c * (k - (b + 1)))

theorem reachUniform_zero (c : ℚ) (k m : Nat) : reachUniform c k m 0 = 1 := by cases m <;> rfl

theorem reachUniform_nonneg {c : ℚ} (hc : 0 ≤ c) (k m b : Nat) (hb : b ≤ k) : 0 ≤ reachUniform c k m b := by
  induction m generalizing b with
  | zero => cases b <;> simp [reachUniform]
  | succ m ih =>
    cases b with
    | zero => simp [reachUniform]
    | succ b =>
      rw [reachUniform]
      have h1 := ih b (by omega)
      have h2 := ih (b + 1) hb
      have h3 : (0 : ℚ) ≤ k - (b + 1) := by
        have : ((b + 1 : Nat) : ℚ) ≤ k := by exact_mod_cast hb
        push_cast at this
        linarith
      positivity

theorem tendsto_reach {c : ℚ} (hc : 0 ≤ c) (k : Nat) (h1 : c * (k - 1) < 1) (b : Nat) (hb : b ≤ k) :
    Tendsto (fun m => reachUniform c k m b) atTop (𝓝 (reachLimit c k b)) := by
  induction b with
  | zero => simp only [reachUniform_zero, reachLimit]; exact tendsto_const_nhds
  | succ b ih =>
    have h3 : (0 : ℚ) ≤ k - (b + 1) := by
      have : ((b + 1 : Nat) : ℚ) ≤ k := by exact_mod_cast hb
      push_cast at this
      linarith
    refine tendsto_contraction (y := fun m => c * (b + 1) * reachUniform c k m b) (r := c * (k - (b + 1)))
      (mul_nonneg hc h3) ?_ (fun n => rfl) ((ih (by omega)).const_mul _)
    have : c * (k - (b + 1)) ≤ c * (k - 1) := by
      refine mul_le_mul_of_nonneg_left ?_ hc
      have : (0 : ℚ) ≤ b := by positivity
      linarith
    linarith

theorem reach_le_limit {c : ℚ} (hc : 0 ≤ c) (k : Nat) (h1 : c * (k - 1) < 1) (m b : Nat) (hb : b ≤ k) :
    reachUniform c k m b ≤ reachLimit c k b := by
  have hL : ∀ b ≤ k, 0 ≤ reachLimit c k b := fun b hb =>
    ge_of_tendsto' (tendsto_reach hc k h1 b hb) fun m => reachUniform_nonneg hc k m b hb
  induction m generalizing b with
  | zero =>
    cases b with
    | zero => simp [reachUniform, reachLimit]
    | succ b => exact hL _ hb
  | succ m ih =>
    cases b with
    | zero => simp [reachUniform, reachLimit]
    | succ b =>
      have h3 : (0 : ℚ) ≤ k - (b + 1) := by
        have : ((b + 1 : Nat) : ℚ) ≤ k := by exact_mod_cast hb
        push_cast at this
        linarith
      have h4 : c * (k - (b + 1)) < 1 := by
        have : c * (k - (b + 1)) ≤ c * (k - 1) := by
          refine mul_le_mul_of_nonneg_left ?_ hc
          have : (0 : ℚ) ≤ b := by positivity
          linarith
        linarith
      have e : reachLimit c k (b + 1) = c * (b + 1) * reachLimit c k b + c * (k - (b + 1)) * reachLimit c k (b + 1) := by
        have h5 : 1 - c * (k - (b + 1)) ≠ (0 : ℚ) := by linarith
        rw [reachLimit]
        field_simp
        ring
      rw [e, reachUniform]
      have i1 := ih b (by omega)
      have i2 := ih (b + 1) hb
      have h6 := mul_nonneg hc h3
      have h7 : (0 : ℚ) ≤ c * (b + 1) := by positivity
      exact add_le_add (mul_le_mul_of_nonneg_left i1 h7) (mul_le_mul_of_nonneg_left i2 h6)

theorem reachLimit_continuous (k : Nat) (c : ℚ) (hc : 0 ≤ c) (h1 : c * (k - 1) < 1) (b : Nat) (hb : b ≤ k) :
    ContinuousAt (fun c => reachLimit c k b) c := by
  induction b with
  | zero => exact continuousAt_const
  | succ b ih =>
    have h2 : c * (k - (b + 1)) ≤ c * (k - 1) := by
      refine mul_le_mul_of_nonneg_left ?_ hc
      have : (0 : ℚ) ≤ b := by positivity
      linarith
    refine ContinuousAt.div₀ ((continuousAt_id.mul continuousAt_const).mul (ih (by omega)))
      (continuousAt_const.sub (continuousAt_id.mul continuousAt_const)) ?_
    exact ne_of_gt (by linarith)

theorem reachLimit_choose (n k d : Nat) (hn : n = d + k) (b : Nat) (hb : b ≤ k) :
    reachLimit (1 / n) k b = 1 / (d + b).choose b := by
  induction b with
  | zero => simp [reachLimit]
  | succ b ih =>
    rw [reachLimit, ih (by omega)]
    have hc : ((d + (b + 1)).choose (b + 1) : ℚ) * (b + 1) = (d + b + 1) * (d + b).choose b := by
      have := Nat.add_one_mul_choose_eq (d + b) b
      rw [show d + (b + 1) = d + b + 1 by omega]
      exact_mod_cast this.symm
    have c1 : (0 : ℚ) < (d + (b + 1)).choose (b + 1) := by exact_mod_cast Nat.choose_pos (by omega)
    have c0 : (0 : ℚ) < (d + b).choose b := by exact_mod_cast Nat.choose_pos (by omega)
    have hnq : (n : ℚ) = d + k := by exact_mod_cast hn
    have hpos : (0 : ℚ) < n := by
      have : 0 < n := by omega
      exact_mod_cast this
    have hd : (1 : ℚ) - 1 / n * (k - (b + 1)) = (d + b + 1) / n := by
      field_simp
      rw [hnq]
      ring
    have hdb : (0 : ℚ) < d + b + 1 := by positivity
    rw [hd]
    field_simp
    linarith

section
variable [LinearOrder α]

theorem valid_fill {e : Exp (Outcome (Shr α))} (he : e.Valid) (size m : Nat) (acc : List (Shr α)) :
    (fillExp e size m acc).Valid := by
  induction m generalizing acc with
  | zero => unfold fillExp; split <;> trivial
  | succ m ih =>
    unfold fillExp
    split
    · exact Engine.valid_andThen (fun x => ih _) he
    · trivial

omit [LinearOrder α] in
theorem hit_mean_nonneg {e : Exp (Outcome (Shr α))} (he : e.Valid) (E : Shr α → Bool) : 0 ≤ e.mean (hit E) := by
  rw [← Exp.mean_const 0 he]
  refine Exp.mean_le (fun o => ?_) he
  cases o with
  | ok x => simp only [hit]; split <;> norm_num
  | throws x => exact le_rfl
  | ub => exact le_rfl
  | diverges => exact le_rfl

/-- The probability of a given set if those of its elements are only known to be within bounds. -/
theorem mean_fill_within (e : Exp (Outcome (Shr α))) (hv : e.Valid) (S : List α) (hS : S.Pairwise (· < ·)) (c₁ c₂ : ℚ)
    (h0 : 0 ≤ c₁) (h12 : c₁ ≤ c₂)
    (hp : ∀ v ∈ S, c₁ ≤ e.mean (hit fun t => decide (t.value = v)) ∧ e.mean (hit fun t => decide (t.value = v)) ≤ c₂)
    (m : Nat) (acc : List (Shr α)) (b : Nat)
    (hs : SortedBy Shr.value acc) (hsub : ∀ v ∈ acc.map Shr.value, v ∈ S) (hb : acc.length + b = S.length) :
    reachUniform c₁ S.length m b ≤ (fillExp e S.length m acc).mean (val (gain S 1)) ∧
      (fillExp e S.length m acc).mean (val (gain S 1)) ≤ reachUniform c₂ S.length m b := by
  induction m generalizing acc b with
  | zero =>
    unfold fillExp
    cases b with
    | zero =>
      rw [if_neg (by omega)]
      have := sorted_ext (List.pairwise_map.2 hs) hS hsub (by rw [List.length_map]; omega)
      simp [Exp.mean, val, gain, this, reachUniform]
    | succ b =>
      rw [if_pos (by omega)]
      simp [Exp.mean, val, reachUniform]
  | succ m ih =>
    unfold fillExp
    cases b with
    | zero =>
      rw [if_neg (by omega)]
      have := sorted_ext (List.pairwise_map.2 hs) hS hsub (by rw [List.length_map]; omega)
      simp [Exp.mean, val, gain, this, reachUniform]
    | succ b =>
      rw [if_pos (by omega), mean_andThen]
      have hSn : S.Nodup := hS.imp fun h => ne_of_lt h
      have hVn : (acc.map Shr.value).Nodup := (List.pairwise_map.2 hs).imp fun h => ne_of_lt h
      set V := acc.map Shr.value with hV
      have hVl : V.length = acc.length := by rw [hV, List.length_map]
      have hk : (S.length : ℚ) = acc.length + (b + 1) := by exact_mod_cast hb.symm
      -- the sum over the elements of the set
      have key : ∀ A B : ℚ, e.mean (val fun x : Shr α => if x.value ∈ S then (if x.value ∈ V then A else B) else 0) =
          (S.map fun u => (if u ∈ V then A else B) * e.mean (hit fun t => decide (t.value = u))).sum := fun A B =>
        mean_over e S hSn _ (fun u => if u ∈ V then A else B) (fun x hx => if_pos hx) fun x hx => if_neg hx
      have hin : ∀ x : Shr α, x.value ∈ V → insertBy Shr.value x acc = acc := fun x hx => by
        obtain ⟨y, hy, e1⟩ := List.mem_map.1 hx
        exact insertBy_present hs ⟨y, hy, e1⟩
      have hout : ∀ x : Shr α, x.value ∈ S → x.value ∉ V →
          reachUniform c₁ S.length m b ≤ (fillExp e S.length m (insertBy Shr.value x acc)).mean (val (gain S 1)) ∧
          (fillExp e S.length m (insertBy Shr.value x acc)).mean (val (gain S 1)) ≤ reachUniform c₂ S.length m b := by
        intro x hx hxV
        have hab : ∀ y ∈ acc, y.value ≠ x.value := fun y hy e1 => hxV (e1 ▸ List.mem_map_of_mem hy)
        refine ih _ b (sorted_insertBy hs) (fun v hv => ?_) (by rw [(insertBy_absent hab).1]; omega)
        rcases (value_mem_insertBy hs x v).1 hv with rfl | hv
        · exact hx
        · exact hsub v hv
      have hno : ∀ x : Shr α, x.value ∉ S →
          (fillExp e S.length m (insertBy Shr.value x acc)).mean (val (gain S 1)) = 0 := fun x hx =>
        mean_fill_zero e S 1 _ m _ (sorted_insertBy hs) (le_trans (insertBy_length_le hs) (by omega))
          (.inl ⟨x.value, (value_mem_insertBy hs x _).2 (.inl rfl), hx⟩)
      have hsame := ih acc (b + 1) hs hsub hb
      constructor
      · refine le_trans ?_ (val_le (f := fun x : Shr α => if x.value ∈ S then (if x.value ∈ V then
          reachUniform c₁ S.length m (b + 1) else reachUniform c₁ S.length m b) else 0) (fun x => ?_) hv)
        · rw [key]
          have hA := reachUniform_nonneg h0 S.length m (b + 1) (by omega)
          have hB := reachUniform_nonneg h0 S.length m b (by omega)
          refine le_trans ?_ (List.sum_le_sum (f := fun u => c₁ * (if u ∈ V then
            reachUniform c₁ S.length m (b + 1) else reachUniform c₁ S.length m b)) fun u hu => ?_)
          · rw [List.sum_map_mul_left, sum_inside S V hSn hVn hsub, reachUniform, hVl, hk]
            apply le_of_eq
            ring
          · rw [mul_comm]
            refine mul_le_mul_of_nonneg_left (hp u hu).1 ?_
            split <;> assumption
        · by_cases hx : x.value ∈ S
          · by_cases hxV : x.value ∈ V
            · rw [if_pos hx, if_pos hxV, hin x hxV]; exact hsame.1
            · rw [if_pos hx, if_neg hxV]; exact (hout x hx hxV).1
          · rw [if_neg hx, hno x hx]
      · refine le_trans (val_le (g := fun x : Shr α => if x.value ∈ S then (if x.value ∈ V then
          reachUniform c₂ S.length m (b + 1) else reachUniform c₂ S.length m b) else 0) (fun x => ?_) hv) ?_
        · by_cases hx : x.value ∈ S
          · by_cases hxV : x.value ∈ V
            · rw [if_pos hx, if_pos hxV, hin x hxV]; exact hsame.2
            · rw [if_pos hx, if_neg hxV]; exact (hout x hx hxV).2
          · rw [if_neg hx, hno x hx]
        · rw [key]
          have hA := reachUniform_nonneg (h0.trans h12) S.length m (b + 1) (by omega)
          have hB := reachUniform_nonneg (h0.trans h12) S.length m b (by omega)
          refine le_trans (List.sum_le_sum (g := fun u => c₂ * (if u ∈ V then
            reachUniform c₂ S.length m (b + 1) else reachUniform c₂ S.length m b)) fun u hu => ?_) ?_
          · rw [mul_comm c₂]
            refine mul_le_mul_of_nonneg_left (hp u hu).2 ?_
            split <;> assumption
          · rw [List.sum_map_mul_left, sum_inside S V hSn hVn hsub, reachUniform, hVl, hk]
            apply le_of_eq
            ring

/-- The probability of a given set, of elements whose probabilities tend to `1/N`. -/
theorem tendsto_fill {e : Nat → Exp (Outcome (Shr α))} (hv : ∀ᶠ n in atTop, (e n).Valid) (S : List α)
    (hS : S.Pairwise (· < ·)) (N : Nat) (hN : S.length ≤ N)
    (hp : ∀ v ∈ S, Tendsto (fun n => (e n).mean (hit fun t => decide (t.value = v))) atTop (𝓝 (1 / N))) :
    Tendsto (fun n => (fillExp (e n) S.length n []).mean (val (gain S 1))) atTop (𝓝 (1 / N.choose S.length)) := by
  obtain ⟨d, hd⟩ : ∃ d, N = d + S.length := ⟨N - S.length, by omega⟩
  have hc0 : (0 : ℚ) ≤ 1 / N := by positivity
  have hc1 : (1 / N : ℚ) * (S.length - 1) < 1 := by
    rcases Nat.eq_zero_or_pos N with h0 | hpos
    · subst h0; simp
    · have hnq : (0 : ℚ) < N := by exact_mod_cast hpos
      have : (S.length : ℚ) ≤ N := by exact_mod_cast hN
      rw [one_div_mul_eq_div, div_lt_one hnq]
      linarith
  have hlim := reachLimit_choose N S.length d hd S.length le_rfl
  rw [← hd] at hlim
  have hcont := reachLimit_continuous S.length (1 / N) hc0 hc1 S.length le_rfl
  have hcm : ContinuousAt (fun c : ℚ => c * ((S.length : ℚ) - 1)) (1 / N) := continuousAt_id.mul continuousAt_const
  have hall : ∀ᶠ c : ℚ in 𝓝 (1 / N), c * (S.length - 1) < 1 := hcm.eventually_lt_const hc1
  rw [LinearOrderedAddCommGroup.tendsto_nhds]
  intro ε hε
  have hnear : ∀ᶠ c : ℚ in 𝓝 (1 / N), |reachLimit c S.length S.length - 1 / N.choose S.length| < ε / 2 := by
    have := LinearOrderedAddCommGroup.tendsto_nhds.1 hcont (ε / 2) (by positivity)
    simp only [hlim] at this
    exact this
  obtain ⟨δ, hδ, hδ'⟩ := (nhds_basis_abs_sub_lt (1 / N : ℚ)).eventually_iff.1 (hall.and hnear)
  have hc₁ : |max 0 (1 / N - δ / 2) - 1 / N| < δ := by
    rw [abs_lt]
    constructor
    · have := le_max_right 0 (1 / N - δ / 2 : ℚ); linarith
    · have : max 0 (1 / N - δ / 2 : ℚ) ≤ 1 / N := max_le hc0 (by linarith)
      linarith
  have hc₂ : |(1 / N + δ / 2) - 1 / N| < δ := by rw [abs_lt]; constructor <;> linarith
  obtain ⟨b1, b2⟩ := hδ' hc₁
  obtain ⟨b3, b4⟩ := hδ' hc₂
  have hev : ∀ᶠ n in atTop, ∀ v ∈ S, 1 / N - δ / 2 ≤ (e n).mean (hit fun t => decide (t.value = v)) ∧
      (e n).mean (hit fun t => decide (t.value = v)) ≤ 1 / N + δ / 2 := by
    have : ∀ v ∈ S.toFinset, ∀ᶠ n in atTop, 1 / N - δ / 2 ≤ (e n).mean (hit fun t => decide (t.value = v)) ∧
        (e n).mean (hit fun t => decide (t.value = v)) ≤ 1 / N + δ / 2 := by
      intro v hv
      have hv' := hp v (List.mem_toFinset.1 hv)
      filter_upwards [hv'.eventually_const_lt (show 1 / N - δ / 2 < (1 / N : ℚ) by linarith),
        hv'.eventually_lt_const (show (1 / N : ℚ) < 1 / N + δ / 2 by linarith)] with n h1 h2
      exact ⟨h1.le, h2.le⟩
    have := (Filter.eventually_all_finset _).2 this
    filter_upwards [this] with n hn v hv
    exact hn v (List.mem_toFinset.2 hv)
  have hreach := LinearOrderedAddCommGroup.tendsto_nhds.1
    (tendsto_reach (le_max_left 0 (1 / N - δ / 2 : ℚ)) S.length b1 S.length le_rfl) (ε / 2) (by positivity)
  filter_upwards [hv, hev, hreach] with n hvn hn hr
  have hle : max 0 (1 / N - δ / 2 : ℚ) ≤ 1 / N + δ / 2 := max_le (by linarith) (by linarith)
  obtain ⟨l, u⟩ := mean_fill_within (e n) hvn S hS _ (1 / N + δ / 2) (le_max_left 0 (1 / N - δ / 2)) hle
    (fun v hv => ⟨max_le (hit_mean_nonneg hvn _) (hn v hv).1, (hn v hv).2⟩) n [] S.length
    (by simp [SortedBy]) (by simp) (by simp)
  have u' := u.trans (reach_le_limit (by linarith) S.length b3 n S.length le_rfl)
  rw [abs_lt] at b2 b4 hr ⊢
  constructor <;> linarith [b2.1, b2.2, b4.1, b4.2, hr.1, hr.2]

/-- A lower bound for the probability that `b` more elements are found: every round returns with probability at least
`r`, and gives a new value with probability at least `δ`. -/
def doneLeast (r δ : ℚ) : Nat → Nat → ℚ
  | _, 0 => 1
  | 0, _ + 1 => 0
  | m + 1, b + 1 => δ * doneLeast r δ m b + (r - δ) * doneLeast r δ m (b + 1)

end

theorem doneLeast_zero (r δ : ℚ) (m : Nat) : doneLeast r δ m 0 = 1 := by cases m <;> rfl

theorem doneLeast_bounds {r δ : ℚ} (h0 : 0 ≤ δ) (h1 : δ ≤ r) (h2 : r ≤ 1) (m b : Nat) :
    0 ≤ doneLeast r δ m b ∧ doneLeast r δ m (b + 1) ≤ doneLeast r δ m b ∧ doneLeast r δ m b ≤ 1 := by
  induction m generalizing b with
  | zero => cases b <;> simp [doneLeast]
  | succ m ih =>
    cases b with
    | zero =>
      obtain ⟨x0, x1, x2⟩ := ih 0
      obtain ⟨y0, y1, y2⟩ := ih 1
      simp only [doneLeast, doneLeast_zero]
      refine ⟨by norm_num, ?_, le_rfl⟩
      nlinarith
    | succ b =>
      obtain ⟨x0, x1, x2⟩ := ih b
      obtain ⟨y0, y1, y2⟩ := ih (b + 1)
      obtain ⟨z0, z1, z2⟩ := ih (b + 2)
      simp only [doneLeast]
      have : 0 ≤ r - δ := by linarith
      refine ⟨by positivity, ?_, ?_⟩
      · nlinarith
      · nlinarith

theorem tendsto_doneLeast {r δ : ℚ} (h0 : 0 < δ) (h1 : δ ≤ r) (h2 : r ≤ 1) (b : Nat) :
    Tendsto (fun m => doneLeast r δ m b) atTop (𝓝 ((δ / (1 - (r - δ))) ^ b)) := by
  induction b with
  | zero => simp only [doneLeast_zero, pow_zero]; exact tendsto_const_nhds
  | succ b ih =>
    have := tendsto_contraction (x := fun m => doneLeast r δ m (b + 1)) (y := fun m => δ * doneLeast r δ m b) (r := r - δ)
      (by linarith) (by linarith) (fun n => rfl) (ih.const_mul δ)
    have e : δ * (δ / (1 - (r - δ))) ^ b / (1 - (r - δ)) = (δ / (1 - (r - δ))) ^ (b + 1) := by rw [pow_succ]; ring
    rwa [e] at this

section
variable [LinearOrder α]

/-- The loop ends with at least that probability. -/
theorem fill_done_least (e : Exp (Outcome (Shr α))) (hv : e.Valid) (r δ : ℚ) (h0 : 0 ≤ δ) (h1 : δ ≤ r) (h2 : r ≤ 1)
    (hret : r ≤ e.mean (hit fun _ => true)) (U : List α) (hU : U.Nodup)
    (hp : ∀ u ∈ U, δ ≤ e.mean (hit fun t => decide (t.value = u)))
    (size : Nat) (hsize : size ≤ U.length) (m : Nat) (acc : List (Shr α)) (b : Nat) (hs : SortedBy Shr.value acc)
    (hb : acc.length + b = size) :
    doneLeast r δ m b ≤ (fillExp e size m acc).mean (val fun _ => 1) := by
  induction m generalizing acc b with
  | zero =>
    unfold fillExp
    cases b with
    | zero => rw [if_neg (by omega)]; simp [Exp.mean, val, doneLeast]
    | succ b => rw [if_pos (by omega)]; simp [Exp.mean, val, doneLeast]
  | succ m ih =>
    unfold fillExp
    cases b with
    | zero => rw [if_neg (by omega)]; simp [Exp.mean, val, doneLeast]
    | succ b =>
      rw [if_pos (by omega), mean_andThen]
      obtain ⟨u, hu, hun⟩ : ∃ u ∈ U, u ∉ acc.map Shr.value := by
        by_contra hc
        push Not at hc
        have := (List.subperm_of_subset hU hc).length_le
        rw [List.length_map] at this
        omega
      obtain ⟨x0, x1, x2⟩ := doneLeast_bounds h0 h1 h2 m b
      obtain ⟨y0, -, -⟩ := doneLeast_bounds h0 h1 h2 m (b + 1)
      set A := doneLeast r δ m b
      set B := doneLeast r δ m (b + 1)
      have hlow : e.mean (fun o => B * hit (fun _ => true) o + (A - B) * hit (fun t => decide (t.value = u)) o) ≤
          e.mean (val fun x => (fillExp e size m (insertBy Shr.value x acc)).mean (val fun _ => 1)) := by
        refine Exp.mean_le (fun o => ?_) hv
        cases o with
        | ok x =>
          simp only [hit, val, if_true]
          by_cases hm : x.value ∈ acc.map Shr.value
          · obtain ⟨z, hz, e1⟩ := List.mem_map.1 hm
            rw [insertBy_present hs ⟨z, hz, e1⟩]
            have hne : x.value ≠ u := fun h => hun (h ▸ hm)
            have := ih acc (b + 1) hs hb
            simp only [hne, decide_false, Bool.false_eq_true, if_false]
            linarith
          · have hab : ∀ z ∈ acc, z.value ≠ x.value := fun z hz e1 => hm (e1 ▸ List.mem_map_of_mem hz)
            have := ih (insertBy Shr.value x acc) b (sorted_insertBy hs) (by rw [(insertBy_absent hab).1]; omega)
            split <;> linarith
        | throws x => simp [hit, val]
        | ub => simp [hit, val]
        | diverges => simp [hit, val]
      refine le_trans ?_ hlow
      rw [Exp.mean_add, Exp.mean_mul, Exp.mean_mul, doneLeast]
      have i1 := mul_le_mul_of_nonneg_left hret y0
      have i2 := mul_le_mul_of_nonneg_left (hp u hu) (show 0 ≤ A - B by linarith)
      linarith

/-- The loop ends with a probability that tends to 1. -/
theorem tendsto_fill_done {e : Nat → Exp (Outcome (Shr α))} (hv : ∀ᶠ n in atTop, (e n).Valid)
    (hret : Tendsto (fun n => (e n).mean (hit fun _ => true)) atTop (𝓝 1)) (U : List α) (hU : U.Nodup) (δ : ℚ) (hδ : 0 < δ)
    (hδ1 : δ < 1) (hp : ∀ᶠ n in atTop, ∀ u ∈ U, δ ≤ (e n).mean (hit fun t => decide (t.value = u)))
    (size : Nat) (hsize : size ≤ U.length) :
    Tendsto (fun n => (fillExp (e n) size n []).mean (val fun _ => 1)) atTop (𝓝 1) := by
  have hcont : ContinuousAt (fun r : ℚ => (δ / (1 - (r - δ))) ^ size) 1 := by
    refine (ContinuousAt.div₀ continuousAt_const (continuousAt_const.sub (continuousAt_id.sub continuousAt_const)) ?_).pow _
    exact ne_of_gt (show (0 : ℚ) < 1 - (1 - δ) by linarith)
  have hval : (δ / (1 - (1 - δ))) ^ size = (1 : ℚ) := by
    rw [sub_sub_cancel, div_self hδ.ne', one_pow]
  rw [LinearOrderedAddCommGroup.tendsto_nhds]
  intro ε hε
  have hnear : ∀ᶠ r : ℚ in 𝓝 1, |(δ / (1 - (r - δ))) ^ size - 1| < ε / 2 := by
    have := LinearOrderedAddCommGroup.tendsto_nhds.1 hcont (ε / 2) (by positivity)
    simp only [hval] at this
    exact this
  obtain ⟨η, hη, hη'⟩ := (nhds_basis_abs_sub_lt (1 : ℚ)).eventually_iff.1 hnear
  set r : ℚ := max δ (1 - η / 2) with hr
  have hr1 : r < 1 := max_lt hδ1 (by linarith)
  have hrn : |r - 1| < η := by
    have := le_max_right δ (1 - η / 2)
    rw [abs_lt]
    constructor <;> linarith
  have hb := hη' hrn
  have hlim := LinearOrderedAddCommGroup.tendsto_nhds.1
    (tendsto_doneLeast hδ (le_max_left δ (1 - η / 2)) hr1.le size) (ε / 2) (by positivity)
  filter_upwards [hv, hp, hret.eventually_const_lt hr1, hlim] with n hvn hpn hrn hln
  have l1 := fill_done_least (e n) hvn r δ hδ.le (le_max_left _ _) hr1.le hrn.le U hU hpn size hsize n [] size
    (by simp [SortedBy]) (by simp)
  have l2 : (fillExp (e n) size n []).mean (val fun _ => 1) ≤ 1 := by
    exact fill_le_one _ (valid_fill hvn size n [])
  rw [abs_lt] at hb hln ⊢
  constructor <;> linarith [hb.1, hb.2, hln.1, hln.2]

end

end Verif
