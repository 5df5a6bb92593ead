import Verif.Lemmas.Double
import Verif.Model.Combinator
import Verif.Lemmas.Tree
/-
Lemmas about oneOf.
-/
namespace Verif
namespace Comb
open Shr Random ListLike Integral
variable {σ α : Type}

/-- The check of one weight. -/
def bad (w : Dbl) : Bool := w.lt (.fin 0) || (Dbl.fin 1).lt w

theorem sumWeights_bad (ws : List Dbl) (h : ∃ w ∈ ws, bad w = true) (sum : Dbl) (n : Nat) :
    sumWeights ws sum n = .throws .runtimeError := by
  induction ws generalizing sum n with
  | nil => simp at h
  | cons w ws ih =>
    rw [sumWeights]
    change (if bad w = true then _ else _) = _
    by_cases hb : bad w = true
    · rw [if_pos hb]
    · rw [if_neg hb]
      refine ih ?_ _ _
      obtain ⟨v, hv, hbv⟩ := h
      rcases List.mem_cons.mp hv with rfl | hv
      · exact absurd hbv hb
      · exact ⟨v, hv, hbv⟩

theorem sumWeights_good (ws : List Dbl) (h : ∀ w ∈ ws, bad w = false) (sum : Dbl) (n : Nat) :
    sumWeights ws sum n = .ok (ws.foldl Dbl.add sum, n + ws.countP fun w => w.eq (.fin 0)) := by
  induction ws generalizing sum n with
  | nil => rfl
  | cons w ws ih =>
    rw [sumWeights, if_neg (by simpa [bad] using h w (by simp)), ih (fun v hv => h v (by simp [hv])),
      List.foldl_cons, List.countP_cons]
    congr 2
    split <;> omega

/-- The floating point sum of a list. -/
def fsum (qs : List ℚ) (q : ℚ) : ℚ := qs.foldl (fun a b => rne (a + b)) q

theorem foldl_add (qs : List ℚ) (q : ℚ) : (qs.map Dbl.fin).foldl Dbl.add (.fin q) = .fin (fsum qs q) := by
  induction qs generalizing q with
  | nil => rfl
  | cons x xs ih => simp only [List.map_cons, List.foldl_cons, Dbl.add, fsum]; exact ih _

theorem bad_fin (q : ℚ) : bad (.fin q) = false ↔ 0 ≤ q ∧ q ≤ 1 := by
  simp [bad, Dbl.lt]

theorem fsum_ge (qs : List ℚ) (h : ∀ q ∈ qs, 0 ≤ q) (q : ℚ) (hq : 1 + 1 / 2 ^ 52 ≤ q) : 1 + 1 / 2 ^ 52 ≤ fsum qs q := by
  induction qs generalizing q with
  | nil => exact hq
  | cons x xs ih =>
    have := h x (by simp)
    exact ih (fun y hy => h y (by simp [hy])) _ (rne_gt_one (by linarith))

/-- Sums of multiples of 2^-52 are exact up to 1. -/
theorem fsum_exact (ms : List ℕ) (a : ℕ) (ha : a ≤ 2 ^ 52) :
    (a + ms.sum ≤ 2 ^ 52 → fsum (ms.map fun m : ℕ => (m : ℚ) / 2 ^ 52) (a / 2 ^ 52) = (a + ms.sum : ℕ) / 2 ^ 52) ∧
    (2 ^ 52 < a + ms.sum → (∀ m ∈ ms, m ≤ 2 ^ 52) → 1 < fsum (ms.map fun m : ℕ => (m : ℚ) / 2 ^ 52) (a / 2 ^ 52)) := by
  induction ms generalizing a with
  | nil => refine ⟨fun _ => by simp [fsum], fun h => by simp at h; omega⟩
  | cons m ms ih =>
    have step : m ≤ 2 ^ 52 → rne ((a : ℚ) / 2 ^ 52 + m / 2 ^ 52) = ((a + m : ℕ) : ℚ) / 2 ^ 52 := by
      intro hm
      have e : (a : ℚ) / 2 ^ 52 + m / 2 ^ 52 = ((a + m : ℕ) : ℚ) / 2 ^ 52 := by push_cast; ring
      rw [e]
      refine rne_exact (j := 52) (m := (a + m : ℕ)) ?_ ?_
      · rw [show ((2 : ℚ) ^ (52 : ℤ)) = 2 ^ 52 by norm_cast]; field_simp; norm_cast
      · rw [abs_of_nonneg (by positivity)]; push_cast; norm_num at ha hm ⊢; omega
    refine ⟨fun h => ?_, fun h hall => ?_⟩
    · simp only [List.sum_cons] at h
      have := (ih (a + m) (by omega)).1 (by omega)
      simp only [List.map_cons, fsum, List.foldl_cons] at this ⊢
      rw [step (by omega), this, List.sum_cons]
      congr 2
      omega
    · simp only [List.sum_cons] at h
      have hm := hall m (by simp)
      by_cases hc : a + m ≤ 2 ^ 52
      · have := (ih (a + m) hc).2 (by omega) (fun x hx => hall x (by simp [hx]))
        simp only [List.map_cons, fsum, List.foldl_cons] at this ⊢
        rwa [step hm]
      · simp only [List.map_cons, fsum, List.foldl_cons]
        rw [step hm]
        refine lt_of_lt_of_le (by norm_num) (fsum_ge _ ?_ _ ?_)
        · intro q hq
          obtain ⟨x, _, rfl⟩ := List.mem_map.mp hq
          positivity
        · have : (2 ^ 52 + 1 : ℚ) ≤ (a + m : ℕ) := by norm_cast; omega
          rw [le_div_iff₀ (by positivity)]
          linarith

/-- The error of a sum. -/
theorem fsum_err (qs : List ℚ) (h : ∀ q ∈ qs, 0 ≤ q ∧ q ≤ 1) (a : ℚ) (ha : 0 ≤ a) :
    (a + qs.sum + qs.length / 2 ^ 53 ≤ 1 → |fsum qs a - (a + qs.sum)| ≤ qs.length / 2 ^ 53) ∧
    (1 + (qs.length : ℚ) / 2 ^ 53 < a + qs.sum → 1 < fsum qs a) := by
  induction qs generalizing a with
  | nil => refine ⟨fun _ => by simp [fsum], fun h => by simpa [fsum] using h⟩
  | cons x xs ih =>
    have hx := h x (by simp)
    have hxs : ∀ q ∈ xs, 0 ≤ q ∧ q ≤ 1 := fun q hq => h q (by simp [hq])
    have hs : 0 ≤ xs.sum := List.sum_nonneg fun q hq => (hxs q hq).1
    have e2 : (2 : ℚ) ^ ((1 : ℤ) - 54) = 1 / 2 ^ 53 := by norm_num [zpow_neg]
    have hn : 0 ≤ rne (a + x) := rne_nonneg (by linarith)
    have hl : (0 : ℚ) ≤ xs.length / 2 ^ 53 := by positivity
    have el : ((xs.length + 1 : ℕ) : ℚ) / 2 ^ 53 = xs.length / 2 ^ 53 + 1 / 2 ^ 53 := by push_cast; ring
    simp only [List.sum_cons, List.length_cons, fsum, List.foldl_cons]
    rw [el]
    refine ⟨fun h1 => ?_, fun h1 => ?_⟩
    · have hlt : |a + x| < 2 ^ (1 : ℤ) := by
        rw [abs_of_nonneg (by linarith)]; norm_num at h1 hl ⊢; linarith
      have he := rne_err_le hlt
      rw [e2] at he
      have := (ih hxs _ hn).1 (by have := (abs_le.1 he).2; linarith)
      unfold fsum at this
      rw [abs_le] at this he ⊢
      constructor <;> linarith
    · by_cases hc : a + x < 2
      · have hlt : |a + x| < 2 ^ (1 : ℤ) := by rw [abs_of_nonneg (by linarith)]; norm_num; exact hc
        have he := rne_err_le hlt
        rw [e2] at he
        exact (ih hxs _ hn).2 (by have := (abs_le.1 he).1; linarith)
      · refine lt_of_lt_of_le (by norm_num) (fsum_ge xs (fun q hq => (hxs q hq).1) _ (rne_gt_one ?_))
        push Not at hc
        refine le_trans ?_ hc
        norm_num

theorem le_rne_nat {n : ℕ} (h : 1 ≤ n) : 1 ≤ rne n := by
  rcases h.eq_or_lt with rfl | h
  · rw [Nat.cast_one, rne_exact (q := 1) (j := 0) (m := 1) (by norm_num) (by norm_num)]
  · have := (abs_le.1 (rne_err_rel n)).1
    have h2 : (2 : ℚ) ≤ n := by exact_mod_cast h
    rw [abs_of_nonneg (by linarith)] at this
    have : (n : ℚ) / 2 ^ 53 ≤ n / 2 := by apply div_le_div_of_nonneg_left <;> linarith
    linarith

theorem rne_nat {n : ℕ} (h : n ≤ 2 ^ 53) : rne n = n :=
  rne_exact (j := 0) (m := n) (by simp) (by rw [abs_of_nonneg (by positivity)]; exact_mod_cast h)

theorem assignWeights_fin (qs : List ℚ) (h : ∀ q ∈ qs, 0 ≤ q ∧ q ≤ 1) :
    assignWeights (qs.map Dbl.fin) =
      if 1 < fsum qs 0 then .throws .runtimeError
      else if 0 < qs.countP (· = 0) ∧ fsum qs 0 < 1 then
        .ok (qs.map fun q => if q = 0 then .fin (rne (rne (1 - fsum qs 0) / rne (qs.countP (· = 0) : ℕ))) else .fin q)
      else .ok (qs.map Dbl.fin) := by
  have hb : ∀ w ∈ qs.map Dbl.fin, bad w = false := by
    intro w hw
    obtain ⟨q, hq, rfl⟩ := List.mem_map.mp hw
    exact (bad_fin q).2 (h q hq)
  have hc : (qs.map Dbl.fin).countP (fun w => w.eq (.fin 0)) = qs.countP (· = 0) := by
    rw [List.countP_map]; rfl
  rw [assignWeights, sumWeights_good _ hb, foldl_add, hc]
  simp only [Outcome.ok_bind, Outcome.pure_eq, Dbl.lt, zero_add, List.map_map, decide_eq_true_eq, Bool.and_eq_true]
  by_cases h1 : 1 < fsum qs 0
  · simp [h1]
  · rw [if_neg h1, if_neg h1]
    by_cases h2 : 0 < qs.countP (· = 0) ∧ fsum qs 0 < 1
    · rw [if_pos h2, if_pos h2]
      congr 1
      refine List.map_congr_left fun q _ => ?_
      simp only [Function.comp, Dbl.eq, decide_eq_true_eq, Dbl.oneMinus, Dbl.divNat]
      rw [if_neg (by omega : ¬ qs.countP (· = 0) = 0)]
    · rw [if_neg h2, if_neg h2]

theorem retry_ok {w : Weighted σ α} {fuel : Nat} {s s' : σ} {t : Shr α} (h : retry w fuel s = .ok (t, s')) :
    ∃ s₀, w.gen s₀ = .ok (t, s') := by
  induction fuel generalizing s with
  | zero => cases h
  | succ fuel ih =>
    rw [retry] at h
    split at h
    · exact ih h
    · exact ⟨s, h⟩

theorem oneOfLoop_ok {R : Rng σ} {ws : List (Weighted σ α)} {fuel : Nat} {s s' : σ} {t : Shr α}
    (h : oneOfLoop R ws fuel s = .ok (t, s')) : ∃ w ∈ ws, ∃ s₀, w.gen s₀ = .ok (t, s') := by
  induction fuel generalizing s with
  | zero => cases h
  | succ fuel ih =>
    rw [oneOfLoop] at h
    obtain ⟨⟨d, s1⟩, h1, h⟩ := Outcome.bind_eq_ok.mp h
    dsimp only at h
    split at h
    · cases h
    · rename_i w hw
      obtain ⟨thr, h2, h⟩ := Outcome.bind_eq_ok.mp h
      split at h
      · exact ⟨w, List.mem_of_getElem? hw, retry_ok h⟩
      · exact ih h

theorem assignWeights_length {ws vs : List Dbl} (h : assignWeights ws = .ok vs) : vs.length = ws.length := by
  unfold assignWeights at h
  obtain ⟨⟨sum, n⟩, h1, h⟩ := Outcome.bind_eq_ok.mp h
  dsimp only at h
  split at h
  · cases h
  · split at h <;> cases h <;> simp

theorem oneOf_ok {gens ws : List (Weighted σ α)} (h : oneOf gens = .ok ws) :
    ∃ vs, assignWeights (gens.map (·.weight)) = .ok vs ∧ ws.map (·.weight) = vs ∧
      ws.map (·.gen) = gens.map (·.gen) ∧ ws.map (·.discarded) = gens.map (·.discarded) := by
  obtain ⟨vs, h1, h⟩ := Outcome.bind_eq_ok.mp h
  cases h
  have hl := assignWeights_length h1
  rw [List.length_map] at hl
  refine ⟨vs, h1, ?_, ?_, ?_⟩ <;>
  · refine List.ext_getElem (by simp [hl]) fun i h1 h2 => by simp

end Comb
end Verif
