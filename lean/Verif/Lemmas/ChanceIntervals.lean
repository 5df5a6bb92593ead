import Verif.Props.ChanceOneOf
import Verif.Props.Chance
import Verif.Props.OneOf
/-
Helpers for C143: the weights `intervals` calculates, and the probabilities that come of them.
-/
namespace Verif
open Shr Random Integral IntType Comb

/-! ### Weights from sizes -/

theorem round_rel {q u : ℚ} (hq : 0 < q) (hu : u = 1 / 2 ^ 53) : q * (1 - u) ≤ rne q ∧ rne q ≤ q * (1 + u) := by
  have := rne_err_rel q
  rw [abs_of_pos hq, abs_le] at this
  subst hu
  constructor <;> linarith [this.1, this.2]

/-- The weight of an interval is its part of the total, up to a relative error of 2^-51. -/
theorem weight_bounds {n N : ℚ} (hn : 0 < n) (hN : 0 < N) :
    n / N * (1 - 1 / 2 ^ 51) ≤ rne (rne n / rne N) ∧ rne (rne n / rne N) ≤ n / N * (1 + 1 / 2 ^ 51) := by
  obtain ⟨u, hu⟩ : ∃ u : ℚ, u = 1 / 2 ^ 53 := ⟨_, rfl⟩
  obtain ⟨a1, a2⟩ := round_rel hn hu
  obtain ⟨b1, b2⟩ := round_rel hN hu
  have hn' := rne_pos hn
  have hN' := rne_pos hN
  obtain ⟨c1, c2⟩ := round_rel (div_pos hn' hN') hu
  have hu0 : 0 < 1 - u := by rw [hu]; norm_num
  have hu1 : 0 < 1 + u := by rw [hu]; norm_num
  have hnN : 0 < n / N := div_pos hn hN
  have d1 : n / N * ((1 - u) / (1 + u)) ≤ rne n / rne N := by
    rw [div_mul_div_comm]
    exact div_le_div₀ hn'.le a1 hN' b2
  have d2 : rne n / rne N ≤ n / N * ((1 + u) / (1 - u)) := by
    rw [div_mul_div_comm]
    exact div_le_div₀ (by positivity) a2 (by positivity) b1
  constructor
  · calc n / N * (1 - 1 / 2 ^ 51) ≤ n / N * ((1 - u) / (1 + u) * (1 - u)) := by
          refine mul_le_mul_of_nonneg_left ?_ hnN.le
          rw [hu]; norm_num
      _ = n / N * ((1 - u) / (1 + u)) * (1 - u) := by ring
      _ ≤ rne n / rne N * (1 - u) := mul_le_mul_of_nonneg_right d1 hu0.le
      _ ≤ _ := c1
  · calc rne (rne n / rne N) ≤ rne n / rne N * (1 + u) := c2
      _ ≤ n / N * ((1 + u) / (1 - u)) * (1 + u) := mul_le_mul_of_nonneg_right d2 hu1.le
      _ = n / N * ((1 + u) / (1 - u) * (1 + u)) := by ring
      _ ≤ _ := by
          refine mul_le_mul_of_nonneg_left ?_ hnN.le
          rw [hu]; norm_num

/-- A part of weights that are close to `x` of weights whose sum is close to 1 is close to `x`. -/
theorem part_bound {x w W : ℚ} (hx : 0 ≤ x) (w1 : x * (1 - 1 / 2 ^ 51) ≤ w) (w2 : w ≤ x * (1 + 1 / 2 ^ 51))
    (W1 : 1 - 1 / 2 ^ 51 ≤ W) (W2 : W ≤ 1 + 1 / 2 ^ 51) : |w / W - x| ≤ x / 2 ^ 49 := by
  have hW : 0 < W := lt_of_lt_of_le (by norm_num) W1
  have e : w / W - x = (w - x * W) / W := by field_simp
  rw [e, abs_div, abs_of_pos hW, div_le_iff₀ hW, abs_le]
  have h1 : x * (1 - 1 / 2 ^ 51) ≤ x * W := mul_le_mul_of_nonneg_left W1 hx
  have h2 : x * W ≤ x * (1 + 1 / 2 ^ 51) := mul_le_mul_of_nonneg_left W2 hx
  have h3 : x / 2 ^ 49 * (1 - 1 / 2 ^ 51) ≤ x / 2 ^ 49 * W := mul_le_mul_of_nonneg_left W1 (by positivity)
  constructor <;> linarith

theorem sum_weights (is : List (Int × Int)) (hw : ∀ i ∈ is, 0 < width i) {N : ℚ} (hN : 0 < N) :
    (is.map width).sum / N * (1 - 1 / 2 ^ 51) ≤ (is.map fun i => rne (rne (width i) / rne N)).sum ∧
    (is.map fun i => rne (rne (width i) / rne N)).sum ≤ (is.map width).sum / N * (1 + 1 / 2 ^ 51) := by
  induction is with
  | nil => simp
  | cons i is ih =>
    obtain ⟨h1, h2⟩ := ih fun j hj => hw j (by simp [hj])
    obtain ⟨h3, h4⟩ := weight_bounds (hw i (by simp)) hN
    simp only [List.map_cons, List.sum_cons, add_div, add_mul]
    exact ⟨add_le_add h3 h1, add_le_add h4 h2⟩

theorem covered_nonneg (E : Int → Bool) (i : Int × Int) : 0 ≤ covered E i := Nat.cast_nonneg _

theorem sum_error (E : Int → Bool) (is : List (Int × Int)) (sh : List ℚ) (hw : ∀ i ∈ is, 1 ≤ width i) {N d : ℚ} (hN : 0 < N)
    (hd : 0 ≤ d)
    (h : List.Forall₂ (fun i x => |x - width i / N| ≤ width i / N / 2 ^ 49 + d) is sh) :
    |(List.zipWith (· * ·) sh (is.map fun i => covered E i / width i)).sum - (is.map (covered E)).sum / N| ≤
      (is.map (covered E)).sum * (1 / (2 ^ 49 * N) + d) := by
  induction h with
  | nil => simp
  | @cons i x is sh h1 _ ih =>
    have hi := hw i (by simp)
    have ih := ih fun j hj => hw j (by simp [hj])
    simp only [List.map_cons, List.zipWith_cons_cons, List.sum_cons]
    have hc := covered_nonneg E i
    have hwp : 0 < width i := by linarith
    have e : x * (covered E i / width i) - covered E i / N = covered E i / width i * (x - width i / N) := by
      field_simp
    have h2 : |x * (covered E i / width i) - covered E i / N| ≤ covered E i * (1 / (2 ^ 49 * N) + d) := by
      rw [e, abs_mul, abs_of_nonneg (div_nonneg hc hwp.le)]
      calc covered E i / width i * |x - width i / N| ≤ covered E i / width i * (width i / N / 2 ^ 49 + d) :=
            mul_le_mul_of_nonneg_left h1 (div_nonneg hc hwp.le)
        _ = covered E i * (1 / (2 ^ 49 * N)) + covered E i / width i * d := by field_simp
        _ ≤ covered E i * (1 / (2 ^ 49 * N)) + covered E i * d := by
            have : covered E i / width i ≤ covered E i := div_le_self hc hi
            linarith [mul_le_mul_of_nonneg_right this hd]
        _ = _ := by ring
    have e2 : x * (covered E i / width i) + (List.zipWith (· * ·) sh (is.map fun i => covered E i / width i)).sum -
        (covered E i + (is.map (covered E)).sum) / N = (x * (covered E i / width i) - covered E i / N) +
        ((List.zipWith (· * ·) sh (is.map fun i => covered E i / width i)).sum - (is.map (covered E)).sum / N) := by
      field_simp
      ring
    rw [e2]
    refine (abs_add_le _ _).trans ?_
    linarith

theorem no_discard_interval (T : IntType) (hT : T ∈ all) (i : Int × Int) (h1 : T.lo ≤ i.1) (h2 : i.1 ≤ i.2) (h3 : i.2 ≤ T.hi) :
    NoDiscard (fun _ R s => interval R T i.1 i.2 s : Src (Shr Int)) := by
  intro σ R s h
  obtain ⟨t, s', e, -⟩ := C17_interval R T hT i.1 i.2 s h1 h2 h3
  dsimp only at h
  rw [e] at h
  cases h

/-- The alternatives `intervals` makes. -/
def parts (T : IntType) (N : ℚ) (is : List (Int × Int)) : List (Src (Shr Int) × Dbl) :=
  is.map fun i => ((fun _ R s => interval R T i.1 i.2 s), .fin (rne (rne (width i) / rne N)))

theorem spread (T : IntType) (hT : T ∈ all) (is : List (Int × Int)) (hne : is ≠ []) (hlen : is.length ≤ 2 ^ 32)
    (hb : ∀ i ∈ is, T.lo ≤ i.1 ∧ i.1 ≤ i.2 ∧ i.2 ≤ T.hi ∧ ¬ (i.1 = T.lo ∧ i.2 = T.hi)) (ws : List Dbl)
    (hok : assignWeights ((parts T (is.map width).sum is).map (·.2)) = .ok ws) (E : Int → Bool) :
    ∃ p, ChanceLimit (oneOfCall (parts T (is.map width).sum is)) (fun t => E t.value) p ∧
      |p - (is.map (covered E)).sum / (is.map width).sum| ≤
        (is.map (covered E)).sum * (1 / (2 ^ 49 * (is.map width).sum) + is.length / 2 ^ 63) := by
  have hw1 : ∀ i ∈ is, 1 ≤ width i := by
    intro i hi
    have : (i.1 : ℚ) ≤ i.2 := by exact_mod_cast (hb i hi).2.1
    rw [width]; linarith
  have hw0 : ∀ i ∈ is, 0 < width i := fun i hi => lt_of_lt_of_le one_pos (hw1 i hi)
  have hN : 0 < (is.map width).sum := List.sum_pos _ (fun x hx => by
    obtain ⟨i, hi, rfl⟩ := List.mem_map.1 hx
    exact hw0 i hi) (by simpa using hne)
  generalize hNe : (is.map width).sum = N at *
  set qs := is.map fun i => rne (rne (width i) / rne N) with hqs
  have hw : (parts T N is).map (·.2) = qs.map Dbl.fin := by simp [parts, hqs]
  have hq0 : ∀ q ∈ qs, 0 < q := by
    intro q hq
    obtain ⟨i, hi, rfl⟩ := List.mem_map.1 hq
    exact rne_pos (div_pos (rne_pos (hw0 i hi)) (rne_pos hN))
  have hq : ∀ q ∈ qs, 0 < q ∧ q ≤ 1 := by
    by_contra hc
    push Not at hc
    obtain ⟨q, hq1, hq2⟩ := hc
    have hbad : assignWeights ((parts T N is).map (·.2)) = .throws .runtimeError := by
      unfold assignWeights
      rw [sumWeights_bad _ ⟨.fin q, by rw [hw]; exact List.mem_map_of_mem hq1, ?_⟩]
      · rfl
      · by_contra hb
        rw [Bool.not_eq_true, bad_fin] at hb
        exact absurd hb.2 (not_le.2 (hq2 (hq0 q hq1)))
    rw [hbad] at hok
    cases hok
  obtain ⟨sh, hs1, -, hs2⟩ := C140_weighted (parts T N is) qs hw hq ws hok (by simpa [parts] using hne)
    (by simpa [parts] using hlen) (by
      intro a ha
      obtain ⟨i, hi, rfl⟩ := List.mem_map.1 ha
      obtain ⟨b1, b2, b3, -⟩ := hb i hi
      exact no_discard_interval T hT i b1 b2 b3)
  refine ⟨_, hs2 (fun t => E t.value) (is.map fun i => covered E i / width i) ?_, ?_⟩
  · rw [parts, List.forall₂_map_left_iff, List.forall₂_map_right_iff, List.forall₂_same]
    intro i hi
    obtain ⟨b1, b2, b3, b4⟩ := hb i hi
    exact C138_interval T hT i.1 i.2 b1 b2 b3 b4 E
  · obtain ⟨W1, W2⟩ := sum_weights is hw0 hN
    rw [hNe, div_self hN.ne', one_mul] at W1 W2
    refine sum_error E is sh hw1 hN (by positivity) ?_
    have hl : qs.length = is.length := by simp [hqs]
    rw [hl] at hs1
    change _ ≤ qs.sum at W1
    change qs.sum ≤ _ at W2
    generalize qs.sum = W at *
    rw [hqs, List.forall₂_map_left_iff] at hs1
    have hWp : 1 / 2 ≤ W := le_trans (by norm_num) W1
    have : List.Forall₂ (fun i x => i ∈ is ∧ |x - rne (rne (width i) / rne N) / W| ≤ (is.length : ℚ) / (2 ^ 64 * W)) is sh := by
      rw [List.forall₂_iff_get] at hs1 ⊢
      exact ⟨hs1.1, fun k h1 h2 => ⟨List.get_mem _ _, hs1.2 k h1 h2⟩⟩
    refine this.imp fun i x hx => ?_
    obtain ⟨h3, h4⟩ := weight_bounds (hw0 i hx.1) hN
    have h5 := part_bound (div_nonneg (hw0 i hx.1).le hN.le) h3 h4 W1 W2
    have h6 : (is.length : ℚ) / (2 ^ 64 * W) ≤ is.length / 2 ^ 63 := by
      refine div_le_div_of_nonneg_left (by positivity) (by norm_num) ?_
      linarith
    have e : x - width i / N = (x - rne (rne (width i) / rne N) / W) + (rne (rne (width i) / rne N) / W - width i / N) := by ring
    rw [e]
    refine (abs_add_le _ _).trans ?_
    linarith [hx.2]

theorem sumSizes_of {size : Int × Int → Outcome Int} {is : List (Int × Int)}
    (hs : ∀ i ∈ is, i.1 ≤ i.2 ∧ size i = .ok (i.2 - i.1 + 1)) (acc : Int)
    (h0 : 0 ≤ acc) (h : acc + (is.map fun i => i.2 - i.1 + 1).sum < 2 ^ 64) :
    sumSizes size is acc = .ok (acc + (is.map fun i => i.2 - i.1 + 1).sum) := by
  induction is generalizing acc with
  | nil => simp [sumSizes]
  | cons i is ih =>
    obtain ⟨h1, h2⟩ := hs i (by simp)
    have hnn : 0 ≤ (is.map fun i => i.2 - i.1 + 1).sum := List.sum_nonneg fun x hx => by
      obtain ⟨j, hj, rfl⟩ := List.mem_map.mp hx
      have := (hs j (by simp [hj])).1
      omega
    simp only [List.map_cons, List.sum_cons] at h ⊢
    rw [sumSizes, h2, Outcome.ok_bind, if_neg (by omega),
      wrap_id (T := u64) (by simp [all]) (by rw [u64_lo]; omega) (by rw [u64_hi]; omega),
      ih (fun j hj => hs j (by simp [hj])) _ (by omega) (by omega)]
    congr 1
    omega

theorem weightSizes_of {σ : Type} (R : Rng σ) (T : IntType) {size : Int × Int → Outcome Int} {is : List (Int × Int)}
    (hs : ∀ i ∈ is, i.1 ≤ i.2 ∧ size i = .ok (i.2 - i.1 + 1)) {sum : Nat} (h0 : sum ≠ 0) :
    weightSizes R T size sum is = .ok ((parts T sum is).map fun a => ({ gen := a.1 σ R, weight := a.2 } : Weighted σ Int)) := by
  induction is with
  | nil => rfl
  | cons i is ih =>
    rw [weightSizes, (hs i (by simp)).2, Outcome.ok_bind, ih fun j hj => hs j (by simp [hj])]
    simp only [Outcome.ok_bind, Outcome.pure_eq, parts, List.map_cons, Dbl.ofInt, Dbl.divNat, if_neg h0, width]
    push_cast
    rfl

theorem width_sum (is : List (Int × Int)) (h : ∀ i ∈ is, i.1 ≤ i.2) :
    (((is.map fun i : Int × Int => i.2 - i.1 + 1).sum.toNat : Nat) : ℚ) = (is.map width).sum := by
  have hnn : 0 ≤ (is.map fun i : Int × Int => i.2 - i.1 + 1).sum := List.sum_nonneg fun x hx => by
    obtain ⟨j, hj, rfl⟩ := List.mem_map.mp hx
    have := h j hj
    omega
  have e : (((is.map fun i : Int × Int => i.2 - i.1 + 1).sum.toNat : Nat) : ℚ) = (((is.map fun i : Int × Int => i.2 - i.1 + 1).sum : Int) : ℚ) := by
    exact_mod_cast Int.toNat_of_nonneg hnn
  rw [e]
  clear e hnn h
  induction is with
  | nil => simp
  | cons i is ih =>
    rw [List.map_cons, List.sum_cons, List.map_cons, List.sum_cons, ← ih, width]
    push_cast
    ring

/-- What both kinds of intervals have in common: accepted, they are `oneOf` with the widths as weights. -/
theorem spread_call (T : IntType) (hT : T ∈ all) (size : Int × Int → Outcome Int) (is : List (Int × Int)) (hne : is ≠ [])
    (hs : ∀ i ∈ is, i.1 ≤ i.2 ∧ size i = .ok (i.2 - i.1 + 1))
    (h : (is.map fun i => i.2 - i.1 + 1).sum < 2 ^ 64)
    (hlen : is.length ≤ 2 ^ 32)
    (hb : ∀ i ∈ is, T.lo ≤ i.1 ∧ i.1 ≤ i.2 ∧ i.2 ≤ T.hi ∧ ¬ (i.1 = T.lo ∧ i.2 = T.hi))
    (make : ∀ σ, Rng σ → Outcome (List (Weighted σ Int)))
    (hmake : ∀ σ R, make σ R = do
      let sum ← sumSizes size is 0
      let ws ← weightSizes R T size sum.toNat is
      oneOf ws)
    (hok : ∃ σ R ws, make σ R = .ok ws) (E : Int → Bool) :
    ∃ p, ChanceLimit (fun rounds σ R s => do
          let ws ← make σ R
          oneOfLoop R ws rounds s) (fun t => E t.value) p ∧
      |p - (is.map (covered E)).sum / (is.map width).sum| ≤
        (is.map (covered E)).sum * (1 / (2 ^ 49 * (is.map width).sum) + is.length / 2 ^ 63) := by
  have hpos : 0 < (is.map fun i => i.2 - i.1 + 1).sum := List.sum_pos _ (fun x hx => by
    obtain ⟨i, hi, rfl⟩ := List.mem_map.1 hx
    have := (hs i hi).1
    omega) (by simpa using hne)
  have hm : ∀ σ (R : Rng σ), make σ R =
      oneOf ((parts T (is.map width).sum is).map fun a => ({ gen := a.1 σ R, weight := a.2 } : Weighted σ Int)) := by
    intro σ R
    rw [hmake, sumSizes_of hs 0 (le_refl _) (by simpa using h), Outcome.ok_bind, weightSizes_of R T hs (by omega), Outcome.ok_bind,
      zero_add, width_sum is fun i hi => (hs i hi).1]
  obtain ⟨σ₀, R₀, ws, hok⟩ := hok
  rw [hm, oneOf] at hok
  obtain ⟨ds, h1, -⟩ := Outcome.bind_eq_ok.mp hok
  rw [List.map_map] at h1
  obtain ⟨p, h2, h3⟩ := spread T hT is hne hlen hb ds h1 E
  refine ⟨p, ?_, h3⟩
  simp only [hm]
  exact h2

end Verif
