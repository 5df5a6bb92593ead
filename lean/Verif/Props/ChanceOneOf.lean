import Verif.Lemmas.ChanceGen
import Verif.Lemmas.ChanceNested
/-
C140: with which probability `oneOf` and `elementOf` choose an alternative.
-/
namespace Verif
open Shr Random Comb
variable {α : Type}

/-! ### Shares -/

/-- The share of every alternative. -/
def shares (qs : List ℚ) : List ℚ := qs.map fun q => accepting q / (qs.map accepting).sum

theorem shares_sum (qs ps : List ℚ) :
    (List.zipWith (fun q p => accepting q * p) qs ps).sum / (qs.map accepting).sum =
      (List.zipWith (· * ·) (shares qs) ps).sum := by
  unfold shares
  generalize (qs.map accepting).sum = c
  induction qs generalizing ps with
  | nil => simp
  | cons q qs ih =>
    cases ps with
    | nil => simp
    | cons p ps =>
      simp only [List.zipWith_cons_cons, List.sum_cons, List.map_cons, add_div, ih]
      ring

theorem accepting_sum {qs : List ℚ} (h : ∀ q ∈ qs, 0 ≤ q ∧ q ≤ 1) :
    qs.sum * 2 ^ 64 ≤ (qs.map accepting).sum ∧ (qs.map accepting).sum ≤ qs.sum * 2 ^ 64 + qs.length ∧
      (qs.length : ℚ) ≤ (qs.map accepting).sum := by
  induction qs with
  | nil => simp
  | cons q qs ih =>
    have h1 := accepting_bounds (h q (by simp)).1 (h q (by simp)).2
    have h2 := ih fun x hx => h x (by simp [hx])
    simp only [List.map_cons, List.sum_cons, List.length_cons]
    push_cast
    refine ⟨?_, ?_, ?_⟩ <;> linarith

/-- The share of an alternative differs little from its part of the sum of the weights. -/
theorem share_bound {qs : List ℚ} (h : ∀ q ∈ qs, 0 ≤ q ∧ q ≤ 1) (hs : 0 < qs.sum) {q : ℚ} (hq : q ∈ qs) :
    |accepting q / (qs.map accepting).sum - q / qs.sum| ≤ qs.length / (2 ^ 64 * qs.sum) := by
  have h1 := accepting_bounds (h q hq).1 (h q hq).2
  have h2 := accepting_sum h
  have hle : q ≤ qs.sum := List.single_le_sum (fun x hx => (h x hx).1) q hq
  have hn : (1 : ℚ) ≤ qs.length := by
    have : 1 ≤ qs.length := List.length_pos_of_mem hq
    exact_mod_cast this
  have hq0 := (h q hq).1
  generalize (qs.map accepting).sum = c at *
  generalize qs.sum = S at *
  generalize (qs.length : ℚ) = n at *
  generalize accepting q = a at *
  have hW : 0 < S * 2 ^ 64 := by positivity
  have hc : 0 < c := by linarith
  rw [div_sub_div _ _ hc.ne' hs.ne', abs_div, abs_of_pos (mul_pos hc hs), div_le_div_iff₀ (mul_pos hc hs) (by positivity)]
  have key : |a * S - c * q| ≤ n * S := by
    rw [abs_le]
    constructor
    · nlinarith [mul_le_mul_of_nonneg_left h2.2.1 hq0, mul_le_mul_of_nonneg_right h1.2.2.1 hs.le, mul_le_mul_of_nonneg_left hle (by linarith : 0 ≤ n)]
    · nlinarith [mul_le_mul_of_nonneg_left h2.1 hq0, mul_le_mul_of_nonneg_right h1.2.2.2 hs.le, mul_le_mul_of_nonneg_right hn hs.le]
  calc |a * S - c * q| * (2 ^ 64 * S) ≤ n * S * (2 ^ 64 * S) := mul_le_mul_of_nonneg_right key (by positivity)
    _ = n * (S * 2 ^ 64) * S := by ring
    _ ≤ n * c * S := by
      refine mul_le_mul_of_nonneg_right (mul_le_mul_of_nonneg_left h2.1 (by linarith)) hs.le
    _ = n * (c * S) := by ring

theorem rne_one : rne 1 = 1 := rne_exact (j := 0) (m := 1) (by norm_num) (by norm_num)

theorem fsum_nonneg (qs : List ℚ) (h : ∀ q ∈ qs, 0 ≤ q) (a : ℚ) (ha : 0 ≤ a) : 0 ≤ fsum qs a := by
  induction qs generalizing a with
  | nil => exact ha
  | cons q qs ih => exact ih (fun x hx => h x (by simp [hx])) _ (rne_nonneg (add_nonneg ha (h q (by simp))))

/-- The additions err by at most 2^-53 each if the result is at most 1. -/
theorem fsum_close (qs : List ℚ) (h : ∀ q ∈ qs, 0 ≤ q ∧ q ≤ 1) (a : ℚ) (ha : 0 ≤ a) (hF : fsum qs a ≤ 1) :
    |fsum qs a - (a + qs.sum)| ≤ qs.length / 2 ^ 53 := by
  induction qs generalizing a with
  | nil => simp [fsum]
  | cons q qs ih =>
    have hq := h q (by simp)
    have hrest : ∀ x ∈ qs, 0 ≤ x ∧ x ≤ 1 := fun x hx => h x (by simp [hx])
    have e : fsum (q :: qs) a = fsum qs (rne (a + q)) := rfl
    rw [e] at hF ⊢
    have hle : rne (a + q) ≤ 1 := by
      by_contra hc
      push Not at hc
      have := fsum_ge qs (fun x hx => (hrest x hx).1) _ (rne_one_lt hc)
      have h2 : (0 : ℚ) < 1 / 2 ^ 52 := by norm_num
      linarith
    have h1 := ih hrest _ (rne_nonneg (add_nonneg ha hq.1)) hF
    have hlt : |a + q| < 2 ^ (1 : ℤ) := by
      rw [abs_of_nonneg (add_nonneg ha hq.1)]
      have h3 := (abs_le.1 (rne_err_rel (a + q))).1
      rw [abs_of_nonneg (add_nonneg ha hq.1)] at h3
      norm_num at h3 ⊢
      linarith
    have h2 := rne_err_le hlt
    have e2 : (2 : ℚ) ^ ((1 : ℤ) - 54) = 1 / 2 ^ 53 := by norm_num
    rw [e2] at h2
    rw [List.sum_cons, List.length_cons]
    push_cast
    have e3 : ((qs.length : ℚ) + 1) / 2 ^ 53 = qs.length / 2 ^ 53 + 1 / 2 ^ 53 := by ring
    rw [e3]
    rw [abs_le] at *
    constructor <;> linarith

theorem fsum_zeros (n : ℕ) : fsum (List.replicate n 0) 0 = 0 := by
  induction n with
  | zero => rfl
  | succ n ih =>
    have : fsum (List.replicate (n + 1) 0) 0 = fsum (List.replicate n 0) (rne (0 + 0)) := rfl
    rw [this, add_zero, rne_zero, ih]

theorem shares_total {qs : List ℚ} (h : (qs.map accepting).sum ≠ 0) : (shares qs).sum = 1 := by
  have key : ∀ (l : List ℚ) (c : ℚ), (l.map fun q => accepting q / c).sum = (l.map accepting).sum / c := by
    intro l c
    induction l with
    | nil => simp
    | cons q l ih => simp only [List.map_cons, List.sum_cons, add_div, ih]
  rw [shares, key, div_self h]

/-- The weight of alternatives without weight, compared with an even distribution of what is left. -/
theorem rest_bound (qs : List ℚ) (h : ∀ q ∈ qs, 0 ≤ q ∧ q ≤ 1) (hF0 : fsum qs 0 ≤ 1)
    {k : ℕ} (hk : 0 < k) (hk2 : k ≤ 2 ^ 53) :
    |k * rne (rne (1 - fsum qs 0) / rne k) - (1 - qs.sum)| ≤ (qs.length + 2) / 2 ^ 53 ∧
      0 ≤ rne (rne (1 - fsum qs 0) / rne k) ∧ rne (rne (1 - fsum qs 0) / rne k) ≤ 1 := by
  have h1 := fsum_close qs h 0 le_rfl hF0
  rw [zero_add] at h1
  have hF := fsum_nonneg qs (fun x hx => (h x hx).1) 0 le_rfl
  have hkq : (1 : ℚ) ≤ k := by exact_mod_cast hk
  rw [rne_nat hk2]
  have hD := rne_err_rel (1 - fsum qs 0)
  rw [abs_of_nonneg (by linarith : 0 ≤ 1 - fsum qs 0)] at hD
  have hD0 := rne_nonneg (q := 1 - fsum qs 0) (by linarith)
  have hD1 := rne_le_one (q := 1 - fsum qs 0) (by linarith) (by
    have : (0 : ℚ) < 1 / 2 ^ 53 := by norm_num
    linarith)
  generalize fsum qs 0 = F at *
  generalize rne (1 - F) = D at *
  have hx0 : 0 ≤ D / k := by positivity
  have hx1 : D / k ≤ 1 := by rw [div_le_one (by linarith)]; linarith
  have hr := rne_err_rel (D / k)
  rw [abs_of_nonneg hx0] at hr
  have hr0 := rne_nonneg hx0
  have hr1 := rne_le_one hx0 (by
    have : (0 : ℚ) < 1 / 2 ^ 53 := by norm_num
    linarith)
  generalize hR : rne (D / k) = r at *
  refine ⟨?_, hr0, hr1⟩
  have e1 : (k : ℚ) * (D / k) = D := by field_simp
  have h3 : |k * r - D| ≤ D / 2 ^ 53 := by
    have : k * r - D = k * (r - D / k) := by rw [mul_sub, e1]
    rw [this, abs_mul, abs_of_pos (by linarith : (0 : ℚ) < k)]
    calc (k : ℚ) * |r - D / k| ≤ k * (D / k / 2 ^ 53) := mul_le_mul_of_nonneg_left hr (by linarith)
      _ = D / 2 ^ 53 := by rw [← mul_div_assoc, e1]
  have h4 : D / 2 ^ 53 ≤ 1 / 2 ^ 53 := div_le_div_of_nonneg_right hD1 (by norm_num)
  have h5 : (1 - F) / 2 ^ 53 ≤ 1 / 2 ^ 53 := div_le_div_of_nonneg_right (by linarith) (by norm_num)
  have e2 : ((qs.length : ℚ) + 2) / 2 ^ 53 = qs.length / 2 ^ 53 + 1 / 2 ^ 53 + 1 / 2 ^ 53 := by ring
  rw [e2]
  rw [abs_le] at *
  constructor <;> linarith

/-! ### C140 -/

/-- A generator that never throws `Discard`. -/
def NoDiscard (g : Src (Shr α)) : Prop := ∀ (σ : Type) (R : Rng σ) (s : σ), g σ R s ≠ .throws .discard

/-- Alternatives without loops, as alternatives that may have loops. -/
def loopless (alts : List (Src (Shr α) × Dbl)) : List ((Nat → Src (Shr α)) × Dbl) := alts.map fun a => (fun _ => a.1, a.2)

theorem loopless_weights (alts : List (Src (Shr α) × Dbl)) : (loopless alts).map (·.2) = alts.map (·.2) := by
  simp [loopless, List.map_map, Function.comp_def]

theorem loopless_length (alts : List (Src (Shr α) × Dbl)) : (loopless alts).length = alts.length := List.length_map _

theorem loopless_call (alts : List (Src (Shr α) × Dbl)) : oneOfNested (loopless alts) = oneOfCall alts := by
  funext n
  show oneOfCall (cutAlts (loopless alts) n) n = _
  congr 1
  simp [cutAlts, loopless, List.map_map, Function.comp_def]

theorem loopless_limits {E : Shr α → Bool} {alts : List (Src (Shr α) × Dbl)} {ps : List ℚ}
    (hp : List.Forall₂ (fun a p => Chance a.1 E p) alts ps) :
    List.Forall₂ (fun a p => ChanceLimit a.1 E p) (loopless alts) ps := by
  rw [loopless, List.forall₂_map_left_iff]
  exact hp.imp fun a p h ε hε => ⟨0, fun _ _ => ⟨p, h, by simpa using hε⟩⟩

/-- The shares of alternatives without weights. -/
theorem weights_even (ws : List Dbl) (hw : ∀ w ∈ ws, w = .fin 0) (hne : ws ≠ []) (hlen : ws.length ≤ 2 ^ 32) :
    ∃ rs : List ℚ, assignWeights ws = .ok (rs.map Dbl.fin) ∧ (∀ q ∈ rs, 0 ≤ q ∧ q ≤ 1) ∧
      ∀ ps : List ℚ, ps.length = ws.length →
        (List.zipWith (fun q p => accepting q * p) rs ps).sum / (rs.map accepting).sum = ps.sum / ws.length := by
  have hn : 0 < ws.length := List.length_pos_iff.2 hne
  have hws : ws = (List.replicate ws.length (0 : ℚ)).map Dbl.fin := by
    rw [List.map_replicate]
    exact List.eq_replicate_iff.2 ⟨rfl, fun w h => hw w h⟩
  have hz : ∀ q ∈ List.replicate ws.length (0 : ℚ), 0 ≤ q ∧ q ≤ 1 := by
    intro q hq
    rw [List.eq_of_mem_replicate hq]
    norm_num
  have hcount : (List.replicate ws.length (0 : ℚ)).countP (fun x => decide (x = 0)) = ws.length := by
    simp [List.countP_replicate]
  have hf := fsum_zeros ws.length
  have hr := rne_le_one (q := 1 / (ws.length : ℚ)) (by positivity) (by
    have : (1 : ℚ) ≤ ws.length := by exact_mod_cast hn
    have h2 : 1 / (ws.length : ℚ) ≤ 1 := by rw [div_le_one (by linarith)]; exact this
    have : (0 : ℚ) < 1 / 2 ^ 53 := by norm_num
    linarith)
  have hr0 := rne_nonneg (q := 1 / (ws.length : ℚ)) (by positivity)
  have hassign : assignWeights ws = .ok ((List.replicate ws.length (rne (1 / (ws.length : ℚ)))).map Dbl.fin) := by
    conv_lhs => rw [hws]
    rw [assignWeights_fin _ hz, hf, if_neg (by norm_num), hcount, if_pos ⟨hn, by norm_num⟩]
    rw [List.map_replicate, List.map_replicate, if_pos rfl, sub_zero, rne_one, rne_nat (by omega)]
  refine ⟨_, hassign, fun q hq => by rw [List.eq_of_mem_replicate hq]; exact ⟨hr0, hr⟩, fun ps hl => ?_⟩
  have hacc := accepting_bounds hr0 hr
  generalize rne (1 / (ws.length : ℚ)) = r at *
  have e1 : (List.zipWith (fun q p => accepting q * p) (List.replicate ws.length r) ps).sum = accepting r * ps.sum := by
    rw [← hl]
    clear hl
    induction ps with
    | nil => simp
    | cons p ps ih => simp only [List.length_cons, List.replicate_succ, List.zipWith_cons_cons, List.sum_cons, ih]; ring
  have e2 : ((List.replicate ws.length r).map accepting).sum = ws.length * accepting r := by
    rw [List.map_replicate, List.sum_replicate, nsmul_eq_mul]
  rw [e1, e2]
  have h1 : accepting r ≠ 0 := by linarith [hacc.1]
  have h2 : (ws.length : ℚ) ≠ 0 := by exact_mod_cast hn.ne'
  field_simp

/-- C140. The same for alternatives with loops (a nested `oneOf`, a filter, a set). Alternatives without weights are chosen evenly: if the `i`-th of `n` alternatives returns a result in `E`
with probability `p i`, `oneOf` does so with the average of these, exactly. -/
theorem C140_nested_even (alts : List ((Nat → Src (Shr α)) × Dbl)) (hw : ∀ a ∈ alts, a.2 = .fin 0) (hne : alts ≠ [])
    (hlen : alts.length ≤ 2 ^ 32) (hd : ∀ a ∈ alts, ∀ n, NoDiscard (a.1 n)) (E : Shr α → Bool) (ps : List ℚ)
    (hp : List.Forall₂ (fun a p => ChanceLimit a.1 E p) alts ps) :
    ChanceLimit (oneOfNested alts) E (ps.sum / alts.length) := by
  obtain ⟨rs, h1, h2, h3⟩ := weights_even (alts.map (·.2)) (List.forall_mem_map.2 hw) (by simpa using hne) (by simpa using hlen)
  have key := limit_oneOf alts rs ps E h1 h2 hne hlen hd hp
  rw [h3 ps (by rw [List.length_map, hp.length_eq]), List.length_map] at key
  exact key

/-- C140. Alternatives without weights are chosen evenly: if the `i`-th of `n` alternatives returns a result in `E`
with probability `p i`, `oneOf` does so with the average of these, exactly. -/
theorem C140_even (alts : List (Src (Shr α) × Dbl)) (hw : ∀ a ∈ alts, a.2 = .fin 0) (hne : alts ≠ [])
    (hlen : alts.length ≤ 2 ^ 32) (hd : ∀ a ∈ alts, NoDiscard a.1) (E : Shr α → Bool) (ps : List ℚ)
    (hp : List.Forall₂ (fun a p => Chance a.1 E p) alts ps) :
    ChanceLimit (oneOfCall alts) E (ps.sum / alts.length) := by
  have h := C140_nested_even (loopless alts) (List.forall_mem_map.2 hw) (by simpa [loopless] using hne)
    (by simpa [loopless] using hlen) (List.forall_mem_map.2 fun a ha _ => hd a ha) E ps (loopless_limits hp)
  rwa [loopless_call, loopless_length] at h

/-- The shares of alternatives of which all have weights. -/
theorem weights_all (qs : List ℚ) (hq : ∀ q ∈ qs, 0 < q ∧ q ≤ 1) (ws : List Dbl) (hok : assignWeights (qs.map Dbl.fin) = .ok ws)
    (hqne : qs ≠ []) :
    assignWeights (qs.map Dbl.fin) = .ok (qs.map Dbl.fin) ∧ (∀ q ∈ qs, 0 ≤ q ∧ q ≤ 1) ∧
      List.Forall₂ (fun q x => |x - q / qs.sum| ≤ qs.length / (2 ^ 64 * qs.sum)) qs (shares qs) ∧ (shares qs).sum = 1 := by
  have hq' : ∀ q ∈ qs, 0 ≤ q ∧ q ≤ 1 := fun q h => ⟨(hq q h).1.le, (hq q h).2⟩
  have hcount : qs.countP (fun x => decide (x = 0)) = 0 := by
    rw [List.countP_eq_zero]
    intro q h
    simpa using (hq q h).1.ne'
  have hws : ws = qs.map Dbl.fin := by
    rw [assignWeights_fin _ hq', hcount] at hok
    split_ifs at hok with h1 h2
    · omega
    · cases hok; rfl
  subst hws
  have hpos : 0 < qs.sum := List.sum_pos _ (fun q h => (hq q h).1) hqne
  have hC := (accepting_sum hq').1
  have hCpos : 0 < (qs.map accepting).sum := lt_of_lt_of_le (by positivity) hC
  refine ⟨hok, hq', ?_, shares_total hCpos.ne'⟩
  unfold shares
  rw [List.forall₂_map_right_iff, List.forall₂_same]
  intro q h
  exact share_bound hq' hpos h

/-- C140. The same for alternatives with loops (a nested `oneOf`, a filter, a set). If every alternative has a weight, the probabilities are in the proportion of the weights: the share of
each differs from its part of the sum of the weights by at most `n/2^64` divided by that sum. If the weights sum up
to 1 the shares thus are the weights. -/
theorem C140_nested_weighted (alts : List ((Nat → Src (Shr α)) × Dbl)) (qs : List ℚ) (hw : alts.map (·.2) = qs.map Dbl.fin)
    (hq : ∀ q ∈ qs, 0 < q ∧ q ≤ 1) (ws : List Dbl) (hok : assignWeights (alts.map (·.2)) = .ok ws) (hne : alts ≠ [])
    (hlen : alts.length ≤ 2 ^ 32) (hd : ∀ a ∈ alts, ∀ n, NoDiscard (a.1 n)) :
    ∃ sh : List ℚ, List.Forall₂ (fun q x => |x - q / qs.sum| ≤ qs.length / (2 ^ 64 * qs.sum)) qs sh ∧ sh.sum = 1 ∧
      ∀ (E : Shr α → Bool) (ps : List ℚ), List.Forall₂ (fun a p => ChanceLimit a.1 E p) alts ps →
        ChanceLimit (oneOfNested alts) E (List.zipWith (· * ·) sh ps).sum := by
  have hqne : qs ≠ [] := by
    rintro rfl
    exact hne (List.map_eq_nil_iff.1 hw)
  obtain ⟨h1, h2, h3, h4⟩ := weights_all qs hq ws (hw ▸ hok) hqne
  refine ⟨shares qs, h3, h4, fun E ps hp => ?_⟩
  rw [← shares_sum]
  exact limit_oneOf alts qs ps E (hw ▸ h1) h2 hne hlen hd hp

/-- C140. If every alternative has a weight, the probabilities are in the proportion of the weights: the share of
each differs from its part of the sum of the weights by at most `n/2^64` divided by that sum. If the weights sum up
to 1 the shares thus are the weights. -/
theorem C140_weighted (alts : List (Src (Shr α) × Dbl)) (qs : List ℚ) (hw : alts.map (·.2) = qs.map Dbl.fin)
    (hq : ∀ q ∈ qs, 0 < q ∧ q ≤ 1) (ws : List Dbl) (hok : assignWeights (alts.map (·.2)) = .ok ws) (hne : alts ≠ [])
    (hlen : alts.length ≤ 2 ^ 32) (hd : ∀ a ∈ alts, NoDiscard a.1) :
    ∃ sh : List ℚ, List.Forall₂ (fun q x => |x - q / qs.sum| ≤ qs.length / (2 ^ 64 * qs.sum)) qs sh ∧ sh.sum = 1 ∧
      ∀ (E : Shr α → Bool) (ps : List ℚ), List.Forall₂ (fun a p => Chance a.1 E p) alts ps →
        ChanceLimit (oneOfCall alts) E (List.zipWith (· * ·) sh ps).sum := by
  obtain ⟨sh, h1, h2, h3⟩ := C140_nested_weighted (loopless alts) qs (by rwa [loopless_weights]) hq ws (by rwa [loopless_weights]) (by simpa [loopless] using hne)
    (by simpa [loopless] using hlen) (List.forall_mem_map.2 fun a ha _ => hd a ha)
  refine ⟨sh, h1, h2, fun E ps hp => ?_⟩
  have h := h3 E ps (loopless_limits hp)
  rwa [loopless_call] at h

/-- Weights 3/4 and 1/4: the second alternative has the share 1/4, up to 2^-63. -/
example (g h : Src (Shr String)) (h1 : NoDiscard g) (h2 : NoDiscard h) (E : Shr String → Bool) (hE1 : Chance g E 0)
    (hE2 : Chance h E 1) :
    ∃ p, ChanceLimit (oneOfCall [(g, .fin (3 / 4)), (h, .fin (1 / 4))]) E p ∧ |p - 1 / 4| ≤ 1 / 2 ^ 63 := by
  obtain ⟨sh, a1, -, a3⟩ := C140_weighted [(g, .fin (3 / 4)), (h, .fin (1 / 4))] [3 / 4, 1 / 4] rfl (by norm_num)
    [.fin (3 / 4), .fin (1 / 4)] (by show Comb.assignWeights [.fin (3 / 4), .fin (1 / 4)] = _; decide +kernel) (by simp) (by simp) (by simp [h1, h2])
  have a4 := a3 E [0, 1] (.cons hE1 (.cons hE2 .nil))
  cases a1 with
  | cons b1 a1 =>
    cases a1 with
    | cons b2 a1 =>
      cases a1
      refine ⟨_, a4, ?_⟩
      norm_num at b2 ⊢
      exact b2

/-- The sum of weights of which those equal to 0 are replaced. -/
theorem sum_replaced (qs : List ℚ) (r : ℚ) :
    (qs.map fun q => if q = 0 then r else q).sum = qs.sum + qs.countP (· = 0) * r := by
  induction qs with
  | nil => simp
  | cons q qs ih =>
    rw [List.map_cons, List.sum_cons, ih, List.countP_cons, List.sum_cons]
    by_cases h : q = 0
    · simp only [h, if_true, decide_true]
      push_cast
      ring
    · simp only [h, if_false, decide_false]
      push_cast
      ring

theorem share_close {a q c S n e : ℚ} (hq0 : 0 ≤ q) (hq1 : q ≤ 1) (ha1 : q * 2 ^ 64 ≤ a) (ha2 : a ≤ q * 2 ^ 64 + 1)
    (hc1 : S * 2 ^ 64 ≤ c) (hc2 : c ≤ S * 2 ^ 64 + n) (hn : 1 ≤ n) (hS : |S - 1| ≤ e) (he : e ≤ 1 / 2) :
    |a / c - q| ≤ 2 * e + n / 2 ^ 63 := by
  have hS' := abs_le.1 hS
  have hc : 2 ^ 63 ≤ c := by linarith
  have hcpos : 0 < c := by linarith
  have he0 : 0 ≤ e := le_trans (abs_nonneg _) hS
  have hn0 : 0 ≤ n := by linarith
  have e1 : a / c - q = (a - q * c) / c := by field_simp
  rw [e1, abs_div, abs_of_pos hcpos, div_le_iff₀ hcpos]
  have h1 : |a - q * c| ≤ e * 2 ^ 64 + n := by
    have hx : a - q * c = (a - q * 2 ^ 64) - q * (c - 2 ^ 64) := by ring
    have hz : 0 ≤ e * 2 ^ 64 + n := by linarith
    have h2 : q * (c - 2 ^ 64) ≤ q * (e * 2 ^ 64 + n) := mul_le_mul_of_nonneg_left (by linarith) hq0
    have h3 : q * -(e * 2 ^ 64) ≤ q * (c - 2 ^ 64) := mul_le_mul_of_nonneg_left (by linarith) hq0
    have h4 : q * (e * 2 ^ 64 + n) ≤ 1 * (e * 2 ^ 64 + n) := mul_le_mul_of_nonneg_right hq1 hz
    have h5 : q * (e * 2 ^ 64) ≤ 1 * (e * 2 ^ 64) := mul_le_mul_of_nonneg_right hq1 (by linarith)
    rw [abs_le, hx]
    constructor <;> linarith
  calc |a - q * c| ≤ e * 2 ^ 64 + n := h1
    _ = (2 * e + n / 2 ^ 63) * 2 ^ 63 := by ring
    _ ≤ (2 * e + n / 2 ^ 63) * c := mul_le_mul_of_nonneg_left hc (by positivity)

/-- The shares of alternatives of which some have no weight. -/
theorem weights_rest (qs : List ℚ) (h0 : 0 ∈ qs) (ws : List Dbl) (hok : assignWeights (qs.map Dbl.fin) = .ok ws)
    (hlen : qs.length ≤ 2 ^ 32) :
    ∃ rs : List ℚ, assignWeights (qs.map Dbl.fin) = .ok (rs.map Dbl.fin) ∧ (∀ q ∈ rs, 0 ≤ q ∧ q ≤ 1) ∧
      List.Forall₂ (fun q x => |x - (if q = 0 then (1 - qs.sum) / qs.count 0 else q)| ≤ (qs.length + 2) / 2 ^ 51)
        qs (shares rs) ∧ (shares rs).sum = 1 := by
  have hq : ∀ q ∈ qs, 0 ≤ q ∧ q ≤ 1 := by
    by_contra hc
    push Not at hc
    obtain ⟨q, hq1, hq2⟩ := hc
    have hbad : assignWeights (qs.map Dbl.fin) = .throws .runtimeError := by
      unfold assignWeights
      rw [sumWeights_bad _ ⟨.fin q, List.mem_map_of_mem hq1, ?_⟩]
      · rfl
      · by_contra hb
        rw [Bool.not_eq_true, bad_fin] at hb
        exact absurd hb.2 (not_le.2 (hq2 hb.1))
    rw [hbad] at hok
    cases hok
  have hcount : qs.countP (fun x => decide (x = 0)) = qs.count 0 := by
    rw [List.count]
    congr 1
  have hk : 0 < qs.count 0 := List.count_pos_iff.2 h0
  have hkl : qs.count 0 ≤ qs.length := List.count_le_length
  have hF : fsum qs 0 ≤ 1 := by
    rw [assignWeights_fin _ hq] at hok
    by_contra hc
    rw [if_pos (not_le.1 hc)] at hok
    cases hok
  set r := rne (rne (1 - fsum qs 0) / rne (qs.count 0 : ℕ)) with hr
  have hassign : assignWeights (qs.map Dbl.fin) = .ok ((qs.map fun q => if q = 0 then r else q).map Dbl.fin) := by
    rw [assignWeights_fin _ hq, if_neg (not_lt.2 hF), hcount]
    split_ifs with h1
    · rw [List.map_map]
      congr 1
      refine List.map_congr_left fun q _ => ?_
      dsimp only [Function.comp]
      split_ifs <;> rfl
    · have hF1 : fsum qs 0 = 1 := le_antisymm hF (by
        by_contra hc
        exact h1 ⟨hk, not_le.1 hc⟩)
      have hr0 : r = 0 := by rw [hr, hF1, sub_self, rne_zero, zero_div, rne_zero]
      rw [hr0, List.map_map]
      congr 1
      refine List.map_congr_left fun q _ => ?_
      dsimp only [Function.comp]
      split_ifs with h
      · rw [h]
      · rfl
  obtain ⟨hb1, hb2, hb3⟩ := rest_bound qs hq hF hk (by omega)
  rw [← hr] at hb1 hb2 hb3
  have hq' : ∀ q ∈ qs.map (fun q => if q = 0 then r else q), 0 ≤ q ∧ q ≤ 1 := by
    intro q hq1
    obtain ⟨x, hx, rfl⟩ := List.mem_map.1 hq1
    split_ifs
    · exact ⟨hb2, hb3⟩
    · exact hq x hx
  have hsum := sum_replaced qs r
  rw [hcount] at hsum
  have hC := accepting_sum hq'
  have hn : (1 : ℚ) ≤ qs.length := by exact_mod_cast hk.trans_le hkl
  have hn2 : (qs.length : ℚ) ≤ 2 ^ 32 := by exact_mod_cast hlen
  rw [List.length_map] at hC
  have hCpos : (0 : ℚ) < ((qs.map fun q => if q = 0 then r else q).map accepting).sum := by linarith
  refine ⟨qs.map fun q => if q = 0 then r else q, hassign, hq', ?_, shares_total hCpos.ne'⟩
  · unfold shares
    rw [List.forall₂_map_right_iff, List.forall₂_map_right_iff, List.forall₂_same]
    intro q hqm
    have hacc := accepting_bounds (hq' _ (List.mem_map_of_mem hqm)).1 (hq' _ (List.mem_map_of_mem hqm)).2
    have h1 := share_close (hq' _ (List.mem_map_of_mem hqm)).1 (hq' _ (List.mem_map_of_mem hqm)).2 hacc.2.2.1 hacc.2.2.2
      hC.1 hC.2.1 hn (e := (qs.length + 2) / 2 ^ 53) (by
        rw [hsum]
        have : qs.sum + qs.count 0 * r - 1 = qs.count 0 * r - (1 - qs.sum) := by ring
        rw [this]
        exact hb1) (by
        rw [div_le_iff₀ (by norm_num)]
        have : (1 : ℚ) / 2 * 2 ^ 53 - 2 ^ 32 - 2 ≥ 0 := by norm_num
        linarith)
    have h2 : |(if q = 0 then r else q) - (if q = 0 then (1 - qs.sum) / qs.count 0 else q)| ≤ (qs.length + 2) / 2 ^ 53 := by
      split_ifs
      · have hkq : (1 : ℚ) ≤ qs.count 0 := by exact_mod_cast hk
        have e1 : r - (1 - qs.sum) / qs.count 0 = (qs.count 0 * r - (1 - qs.sum)) / qs.count 0 := by field_simp
        rw [e1, abs_div, abs_of_pos (by linarith : (0 : ℚ) < qs.count 0), div_le_iff₀ (by linarith)]
        refine hb1.trans (le_mul_of_one_le_right (by positivity) hkq)
      · rw [sub_self, abs_zero]; positivity
    have h3 := abs_sub_le (accepting (if q = 0 then r else q) / ((qs.map fun q => if q = 0 then r else q).map accepting).sum)
      (if q = 0 then r else q) (if q = 0 then (1 - qs.sum) / qs.count 0 else q)
    have e4 : ((qs.length : ℚ) + 2) / 2 ^ 51 = 4 * ((qs.length + 2) / 2 ^ 53) := by ring
    have h5 : (qs.length : ℚ) / 2 ^ 63 ≤ (qs.length + 2) / 2 ^ 53 := by
      rw [div_le_div_iff₀ (by norm_num) (by norm_num)]
      norm_num
      linarith
    rw [e4]
    linarith

/-- C140. The same for alternatives with loops (a nested `oneOf`, a filter, a set). Alternatives without weight among others with weights: the share of an alternative with a weight is its
weight, and the others share evenly what remains, up to `(n+2)/2^51` (the calculations in `double`). -/
theorem C140_nested_rest (alts : List ((Nat → Src (Shr α)) × Dbl)) (qs : List ℚ) (hw : alts.map (·.2) = qs.map Dbl.fin)
    (h0 : 0 ∈ qs) (ws : List Dbl) (hok : assignWeights (alts.map (·.2)) = .ok ws) (hlen : alts.length ≤ 2 ^ 32)
    (hd : ∀ a ∈ alts, ∀ n, NoDiscard (a.1 n)) :
    ∃ sh : List ℚ, List.Forall₂ (fun q x => |x - (if q = 0 then (1 - qs.sum) / qs.count 0 else q)| ≤ (qs.length + 2) / 2 ^ 51)
        qs sh ∧ sh.sum = 1 ∧
      ∀ (E : Shr α → Bool) (ps : List ℚ), List.Forall₂ (fun a p => ChanceLimit a.1 E p) alts ps →
        ChanceLimit (oneOfNested alts) E (List.zipWith (· * ·) sh ps).sum := by
  have hne : alts ≠ [] := by
    rintro rfl
    rw [List.map_nil] at hw
    rw [List.map_eq_nil_iff.1 hw.symm] at h0
    cases h0
  have hlq : alts.length = qs.length := by simpa using congrArg List.length hw
  obtain ⟨rs, h1, h2, h3, h4⟩ := weights_rest qs h0 ws (hw ▸ hok) (hlq ▸ hlen)
  refine ⟨shares rs, h3, h4, fun E ps hp => ?_⟩
  rw [← shares_sum]
  exact limit_oneOf alts rs ps E (hw ▸ h1) h2 hne hlen hd hp

/-- C140. Alternatives without weight among others with weights: the share of an alternative with a weight is its
weight, and the others share evenly what remains, up to `(n+2)/2^51` (the calculations in `double`). -/
theorem C140_rest (alts : List (Src (Shr α) × Dbl)) (qs : List ℚ) (hw : alts.map (·.2) = qs.map Dbl.fin)
    (h0 : 0 ∈ qs) (ws : List Dbl) (hok : assignWeights (alts.map (·.2)) = .ok ws) (hlen : alts.length ≤ 2 ^ 32)
    (hd : ∀ a ∈ alts, NoDiscard a.1) :
    ∃ sh : List ℚ, List.Forall₂ (fun q x => |x - (if q = 0 then (1 - qs.sum) / qs.count 0 else q)| ≤ (qs.length + 2) / 2 ^ 51)
        qs sh ∧ sh.sum = 1 ∧
      ∀ (E : Shr α → Bool) (ps : List ℚ), List.Forall₂ (fun a p => Chance a.1 E p) alts ps →
        ChanceLimit (oneOfCall alts) E (List.zipWith (· * ·) sh ps).sum := by
  obtain ⟨sh, h1, h2, h3⟩ := C140_nested_rest (loopless alts) qs (by rwa [loopless_weights]) h0 ws (by rwa [loopless_weights])
    (by simpa [loopless] using hlen) (List.forall_mem_map.2 fun a ha _ => hd a ha)
  refine ⟨sh, h1, h2, fun E ps hp => ?_⟩
  have h := h3 E ps (loopless_limits hp)
  rwa [loopless_call] at h

/-- A constant, as an alternative. -/
theorem chance_just (v : α) (E : Shr α → Bool) : Chance (fun _ _ s => just v s) E (if E (leaf v) then 1 else 0) :=
  ⟨.ret (.ok (leaf v)), ⟨trivial, fun _ _ _ => rfl⟩, rfl⟩

theorem just_noDiscard (v : α) : NoDiscard (fun _ _ s => just v s) := fun _ _ _ h => by cases h

/-- A call of the generator `elementOf(values...)`, a value without weight having weight 0. -/
def elementOfCall (vals : List (α × Dbl)) (rounds : Nat) : Src (Shr α) := fun σ R s => do
  let ws ← elementOf (σ := σ) vals
  oneOfLoop R ws rounds s

theorem elementOfCall_eq (vals : List (α × Dbl)) :
    elementOfCall vals = oneOfCall (vals.map fun v => (fun _ _ s => just v.1 s, v.2)) := by
  funext m σ R s
  simp only [elementOfCall, oneOfCall, elementOf, List.map_map, Function.comp_def]

theorem just_chance (E : α → Bool) (v : α) :
    Chance (fun _ _ s => just v s : Src (Shr α)) (fun t => E t.value) (if E v then 1 else 0) :=
  ⟨.ret (.ok (leaf v)), ⟨trivial, fun _ _ _ => rfl⟩, rfl⟩

/-- C140. `elementOf` with values of which all have weights: the share of each is its weight divided by the sum of the
weights, up to a small error. -/
theorem C140_elementOf_weighted (vals : List (α × Dbl)) (qs : List ℚ) (hw : vals.map (·.2) = qs.map Dbl.fin)
    (hq : ∀ q ∈ qs, 0 < q ∧ q ≤ 1) (ws : List Dbl) (hok : assignWeights (vals.map (·.2)) = .ok ws) (hne : vals ≠ [])
    (hlen : vals.length ≤ 2 ^ 32) :
    ∃ sh : List ℚ, List.Forall₂ (fun q x => |x - q / qs.sum| ≤ qs.length / (2 ^ 64 * qs.sum)) qs sh ∧ sh.sum = 1 ∧
      ∀ E : α → Bool, ChanceLimit (elementOfCall vals) (fun t => E t.value)
        (List.zipWith (fun x v => if E v.1 then x else 0) sh vals).sum := by
  have em : (vals.map fun v => ((fun _ _ s => just v.1 s : Src (Shr α)), v.2)).map (·.2) = vals.map (·.2) := by simp
  obtain ⟨sh, h1, h2, h3⟩ := C140_weighted (vals.map fun v => ((fun _ _ s => just v.1 s : Src (Shr α)), v.2)) qs (by rw [em, hw]) hq
    ws (by rw [em, hok]) (by simpa using hne) (by simpa using hlen) (by
      intro a ha
      obtain ⟨v, -, rfl⟩ := List.mem_map.1 ha
      exact just_noDiscard _)
  refine ⟨sh, h1, h2, fun E => ?_⟩
  have key := h3 (fun t => E t.value) (vals.map fun v => if E v.1 then 1 else 0) (by
    rw [List.forall₂_map_left_iff, List.forall₂_map_right_iff, List.forall₂_same]
    exact fun v _ => just_chance E v.1)
  rw [elementOfCall_eq]
  rw [List.zipWith_map_right] at key
  simpa only [mul_ite, mul_one, mul_zero] using key

/-- Weights 3/4 and 1/4: the second value has a probability of 1/4, up to 2^-63. -/
example : ∃ p, ChanceLimit (elementOfCall [(1, .fin (3 / 4)), ((2 : Nat), .fin (1 / 4))]) (fun t => t.value = 2) p ∧
    |p - 1 / 4| ≤ 1 / 2 ^ 63 := by
  obtain ⟨sh, a1, -, a3⟩ := C140_elementOf_weighted [(1, .fin (3 / 4)), ((2 : Nat), .fin (1 / 4))] [3 / 4, 1 / 4] rfl (by norm_num)
    [.fin (3 / 4), .fin (1 / 4)] (by decide +kernel) (by simp) (by simp)
  have a4 := a3 fun v => v = 2
  cases a1 with
  | cons b1 a1 =>
    cases a1 with
    | cons b2 a1 =>
      cases a1
      refine ⟨_, a4, ?_⟩
      norm_num at b2 ⊢
      exact b2

/-- C140. `elementOf` with values of which some have no weight: those with weights have them as probabilities, the
others share evenly what remains, up to a small error. -/
theorem C140_elementOf_rest (vals : List (α × Dbl)) (qs : List ℚ) (hw : vals.map (·.2) = qs.map Dbl.fin)
    (h0 : 0 ∈ qs) (ws : List Dbl) (hok : assignWeights (vals.map (·.2)) = .ok ws) (hlen : vals.length ≤ 2 ^ 32) :
    ∃ sh : List ℚ, List.Forall₂ (fun q x => |x - (if q = 0 then (1 - qs.sum) / qs.count 0 else q)| ≤ (qs.length + 2) / 2 ^ 51)
        qs sh ∧ sh.sum = 1 ∧
      ∀ E : α → Bool, ChanceLimit (elementOfCall vals) (fun t => E t.value)
        (List.zipWith (fun x v => if E v.1 then x else 0) sh vals).sum := by
  have em : (vals.map fun v => ((fun _ _ s => just v.1 s : Src (Shr α)), v.2)).map (·.2) = vals.map (·.2) := by simp
  obtain ⟨sh, h1, h2, h3⟩ := C140_rest (vals.map fun v => ((fun _ _ s => just v.1 s : Src (Shr α)), v.2)) qs (by rw [em, hw]) h0
    ws (by rw [em, hok]) (by simpa using hlen) (by
      intro a ha
      obtain ⟨v, -, rfl⟩ := List.mem_map.1 ha
      exact just_noDiscard _)
  refine ⟨sh, h1, h2, fun E => ?_⟩
  have key := h3 (fun t => E t.value) (vals.map fun v => if E v.1 then 1 else 0) (by
    rw [List.forall₂_map_left_iff, List.forall₂_map_right_iff, List.forall₂_same]
    exact fun v _ => just_chance E v.1)
  rw [elementOfCall_eq]
  rw [List.zipWith_map_right] at key
  simpa only [mul_ite, mul_one, mul_zero] using key

/-- C140. `elementOf` with values without weights: the probability of a set of values is the part of the list that
it covers. -/
theorem C140_elementOf_even (vals : List α) (hne : vals ≠ []) (hlen : vals.length ≤ 2 ^ 32) (E : α → Bool) :
    ChanceLimit (elementOfCall (vals.map fun v => (v, .fin 0))) (fun t => E t.value) (vals.countP E / vals.length) := by
  rw [elementOfCall_eq]
  have key := C140_even ((vals.map fun v => (v, Dbl.fin 0)).map fun v => (fun _ _ s => just v.1 s, v.2))
    (by simp) (by simpa using hne) (by simpa using hlen)
    (by
      intro a ha
      simp only [List.map_map, List.mem_map] at ha
      obtain ⟨v, -, rfl⟩ := ha
      exact just_noDiscard v)
    (fun t : Shr α => E t.value) (vals.map fun v => if E v then 1 else 0)
    (by
      rw [List.map_map, List.forall₂_map_left_iff, List.forall₂_map_right_iff, List.forall₂_same]
      intro v _
      exact chance_just v _)
  have e : (vals.map fun v => if E v then (1 : ℚ) else 0).sum = vals.countP E := by
    clear key hne hlen
    induction vals with
    | nil => rfl
    | cons x xs ih =>
      rw [List.map_cons, List.sum_cons, ih, List.countP_cons]
      split_ifs <;> push_cast <;> ring
  rw [e] at key
  simpa using key

/-- The documented example, a prime below 50: 47 has probability 1/15. -/
example : ChanceLimit (elementOfCall ([2, 3, 5, 7, 11, 13, 17, 19, 23, 29, 31, 37, 41, 43, 47].map fun v : ℕ => (v, .fin 0)))
    (fun t => t.value = 47) (1 / 15) := by
  have := C140_elementOf_even [2, 3, 5, 7, 11, 13, 17, 19, 23, 29, 31, 37, 41, 43, 47] (by simp) (by simp)
    fun v => decide (v = 47)
  have hc : [2, 3, 5, 7, 11, 13, 17, 19, 23, 29, 31, 37, 41, 43, 47].countP (fun v => decide (v = 47)) = 1 := by decide
  rw [hc] at this
  simpa using this

/-- Three actions, each with probability 1/3 (docs/StatefulTesting.md). -/
example (push pop clear : Src (Shr String)) (h1 : NoDiscard push) (h2 : NoDiscard pop) (h3 : NoDiscard clear)
    (E : Shr String → Bool) (hE1 : Chance push E 0) (hE2 : Chance pop E 1) (hE3 : Chance clear E 0) :
    ChanceLimit (oneOfCall [(push, .fin 0), (pop, .fin 0), (clear, .fin 0)]) E (1 / 3) := by
  have := C140_even [(push, .fin 0), (pop, .fin 0), (clear, .fin 0)] (by simp) (by simp) (by simp) (by simp [h1, h2, h3]) E
    [0, 1, 0] (.cons hE1 (.cons hE2 (.cons hE3 .nil)))
  norm_num at this ⊢
  exact this

/-- The documented example, `elementOf(weightedVal(2, 0.8), weightedVal(5, 0.15), 10)`: 10 is chosen with the
probability 0.05, up to 2^-48. -/
example : ∃ p, ChanceLimit (elementOfCall [(2, .fin (rne (4 / 5))), (5, .fin (rne (3 / 20))), ((10 : Nat), .fin 0)])
    (fun t => t.value = 10) p ∧ |p - 1 / 20| ≤ 1 / 2 ^ 48 := by
  rw [elementOfCall_eq]
  obtain ⟨sh, h1, -, h3⟩ := C140_rest
    ([(2, .fin (rne (4 / 5))), (5, .fin (rne (3 / 20))), ((10 : Nat), Dbl.fin 0)].map fun v => (fun _ _ s => just v.1 s, v.2))
    [rne (4 / 5), rne (3 / 20), 0] rfl (by simp)
    [.fin (rne (4 / 5)), .fin (rne (3 / 20)), .fin (rne (rne (1 - rne (rne (0 + rne (4/5)) + rne (3/20))) / rne 1))]
    (by decide +kernel) (by simp) (by
      intro a ha
      obtain ⟨v, -, rfl⟩ := List.mem_map.1 ha
      exact just_noDiscard _)
  have h4 := h3 (fun t => t.value = 10) [0, 0, 1]
    (.cons (chance_just 2 _) (.cons (chance_just 5 _) (.cons (chance_just 10 _) .nil)))
  cases h1 with
  | cons a1 h1 =>
    cases h1 with
    | cons a2 h1 =>
      cases h1 with
      | cons a3 h1 =>
        cases h1
        refine ⟨_, h4, ?_⟩
        have e1 : rne (4 / 5) = 3602879701896397 / 4503599627370496 := by decide +kernel
        have e2 : rne (3 / 20) = 5404319552844595 / 36028797018963968 := by decide +kernel
        have e3 : [rne (4 / 5), rne (3 / 20), 0].count 0 = 1 := by decide +kernel
        rw [e3] at a3
        simp only [if_true, List.sum_cons, List.sum_nil, e1, e2, List.length_cons, List.length_nil] at a3
        simp only [List.zipWith_cons_cons, List.zipWith_nil_left, List.sum_cons, List.sum_nil]
        rw [abs_le] at a3 ⊢
        norm_num at a3 ⊢
        constructor <;> linarith

theorem elementOfCall_noDiscard (vals : List (α × Dbl)) (n : Nat) : NoDiscard (elementOfCall vals n) := fun _ _ _ =>
  bind_ne (oneOf_ne _) fun _ _ => oneOfLoop_ne _ _ _

theorem oneOfNested_noDiscard (alts : List ((Nat → Src (Shr α)) × Dbl)) (n : Nat) : NoDiscard (oneOfNested alts n) :=
  fun _ _ _ => bind_ne (oneOf_ne _) fun _ _ => oneOfLoop_ne _ _ _

/-- Nested alternatives have the products of the probabilities: `oneOf(elementOf(1, 2), elementOf(3, 4, 5, 6))` yields
1 with probability 1/4 and 6 with probability 1/8. -/
example :
    ChanceLimit (oneOfNested [(elementOfCall ([1, 2].map fun v : Nat => (v, .fin 0)), .fin 0),
      (elementOfCall ([3, 4, 5, 6].map fun v : Nat => (v, .fin 0)), .fin 0)]) (fun t => t.value = 1) (1 / 4) ∧
    ChanceLimit (oneOfNested [(elementOfCall ([1, 2].map fun v : Nat => (v, .fin 0)), .fin 0),
      (elementOfCall ([3, 4, 5, 6].map fun v : Nat => (v, .fin 0)), .fin 0)]) (fun t => t.value = 6) (1 / 8) := by
  have key := fun (E : Nat → Bool) => C140_nested_even
    [(elementOfCall ([1, 2].map fun v : Nat => (v, .fin 0)), .fin 0),
      (elementOfCall ([3, 4, 5, 6].map fun v : Nat => (v, .fin 0)), .fin 0)] (by simp) (by simp) (by simp)
    (by
      intro a ha n
      simp only [List.mem_cons, List.not_mem_nil, or_false] at ha
      rcases ha with rfl | rfl
      · exact elementOfCall_noDiscard _ n
      · exact elementOfCall_noDiscard _ n) (fun t => E t.value) _
    (.cons (C140_elementOf_even [1, 2] (by simp) (by simp) E)
      (.cons (C140_elementOf_even [3, 4, 5, 6] (by simp) (by simp) E) .nil))
  have k1 := key fun v => decide (v = 1)
  have k6 := key fun v => decide (v = 6)
  norm_num [List.countP_cons] at k1 k6 ⊢
  exact ⟨k1, k6⟩

/-- Three levels: `oneOf(oneOf(elementOf(1, 2), just(3)), just(4))` yields 1 with probability 1/8. -/
example :
    ChanceLimit (oneOfNested [(oneOfNested [(elementOfCall ([1, 2].map fun v : Nat => (v, .fin 0)), .fin 0),
      (fun _ _ _ s => just 3 s, .fin 0)], .fin 0), (fun _ _ _ s => just 4 s, .fin 0)]) (fun t => t.value = 1) (1 / 8) := by
  have hj : ∀ v : Nat, ChanceLimit (fun _ _ _ s => just v s : Nat → Src (Shr Nat)) (fun t => decide (t.value = 1)) (if v = 1 then 1 else 0) :=
    fun v ε hε => ⟨0, fun _ _ => ⟨_, just_chance (fun x => decide (x = 1)) v, by simpa using hε⟩⟩
  have k1 := C140_elementOf_even [1, 2] (by simp) (by simp) fun v => decide (v = 1)
  have k2 := C140_nested_even [(elementOfCall ([1, 2].map fun v : Nat => (v, .fin 0)), .fin 0),
      (fun _ _ _ s => just 3 s, .fin 0)] (by simp) (by simp) (by simp) (by
      intro a ha n
      simp only [List.mem_cons, List.not_mem_nil, or_false] at ha
      rcases ha with rfl | rfl
      · exact elementOfCall_noDiscard _ n
      · exact just_noDiscard 3) _ _ (.cons k1 (.cons (hj 3) .nil))
  have k3 := C140_nested_even [(oneOfNested [(elementOfCall ([1, 2].map fun v : Nat => (v, .fin 0)), .fin 0),
      (fun _ _ _ s => just 3 s, .fin 0)], .fin 0), (fun _ _ _ s => just 4 s, .fin 0)] (by simp) (by simp) (by simp) (by
      intro a ha n
      simp only [List.mem_cons, List.not_mem_nil, or_false] at ha
      rcases ha with rfl | rfl
      · exact oneOfNested_noDiscard _ n
      · exact just_noDiscard 4) _ _ (.cons k2 (.cons (hj 4) .nil))
  norm_num [List.countP_cons] at k3 ⊢
  exact k3

/-- C140 is violated if every alternative has a weight but the weights do not sum up to 1 (the documentation only
asks for a sum of at most 1): two values of weight 1/4 come up in half of the cases each. -/
theorem C140_incomplete_violated :
    ChanceLimit (elementOfCall [(true, .fin (1 / 4)), (false, .fin (1 / 4))]) (fun t => t.value = true) (1 / 2) := by
  rw [elementOfCall_eq]
  have key := chance_oneOf
    ([(true, Dbl.fin (1 / 4)), (false, Dbl.fin (1 / 4))].map fun v => (fun _ _ s => just v.1 s, v.2))
    [1 / 4, 1 / 4] [1, 0] (fun t => t.value = true) (by decide +kernel) (by norm_num) (by simp) (by simp)
    (by
      intro a ha
      obtain ⟨v, -, rfl⟩ := List.mem_map.1 ha
      exact just_noDiscard _)
    (.cons (chance_just true _) (.cons (chance_just false _) .nil))
  have e : (accepting (1 / 4)) = 2 ^ 62 + 1 := by decide +kernel
  norm_num [e] at key ⊢
  exact key

/-- C140 is violated for an alternative of weight 0 beside weights that sum up to 1: it is chosen with a positive
probability. -/
theorem C140_zero_violated :
    ChanceLimit (elementOfCall [(true, .fin 1), (false, .fin 0)]) (fun t => t.value = false) (1 / (2 ^ 64 + 1)) := by
  rw [elementOfCall_eq]
  have key := chance_oneOf
    ([(true, Dbl.fin 1), (false, Dbl.fin 0)].map fun v => (fun _ _ s => just v.1 s, v.2))
    [1, 0] [0, 1] (fun t => t.value = false) (by decide +kernel) (by norm_num) (by simp) (by simp)
    (by
      intro a ha
      obtain ⟨v, -, rfl⟩ := List.mem_map.1 ha
      exact just_noDiscard _)
    (.cons (chance_just true _) (.cons (chance_just false _) .nil))
  have e1 : accepting 1 = 2 ^ 64 := by decide +kernel
  have e2 : accepting 0 = 1 := by decide +kernel
  norm_num [e1, e2] at key ⊢
  exact key

end Verif
