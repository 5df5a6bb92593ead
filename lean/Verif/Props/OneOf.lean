import Verif.Lemmas.OneOf
import Verif.Lemmas.Integral
import Verif.Props.Integral
/-
C33-C35, C74, C84: oneOf, elementOf, intervals, uintervals, unicode.
`oneOf gens = .ok ws`: construction succeeds, `ws` are the alternatives with their final weights; `oneOfLoop R ws
fuel s` is a call of the generator constructed, with at most `fuel` throws of the dice.
-/
namespace Verif
open Shr Random Comb Integral IntType
variable {σ α : Type}

/-! ### C34 weights -/

/-- C34. A weight below 0 or above 1 is rejected (whatever the other weights are). -/
theorem C34_invalid_weight (gens : List (Weighted σ α))
    (h : ∃ g ∈ gens, (∃ q, g.weight = .fin q ∧ (q < 0 ∨ 1 < q)) ∨ ∃ b, g.weight = .inf b) :
    oneOf gens = .throws .runtimeError := by
  obtain ⟨g, hg, hw⟩ := h
  have : bad g.weight = true := by
    rcases hw with ⟨q, e, h⟩ | ⟨b, e⟩
    · rw [e]; simp only [bad, Dbl.lt, Bool.or_eq_true, decide_eq_true_eq]; exact h
    · rw [e]; cases b <;> simp [bad, Dbl.lt]
  rw [oneOf, assignWeights, sumWeights_bad _ ⟨g.weight, List.mem_map_of_mem hg, this⟩]
  rfl

/-- C34, for weights `m/2^52`, for which the additions are exact: `oneOf` throws iff the weights sum to more than
1. Otherwise the given weights stay what they are and, if the sum is below 1, the alternatives without weight get
the same share `w`; all weights are in [0,1] and, up to one rounding, the shares fill up the sum to 1. -/
theorem C34_exact (gens : List (Weighted σ α)) (ms : List ℕ)
    (hw : gens.map (·.weight) = ms.map fun m : ℕ => Dbl.fin ((m : ℚ) / 2 ^ 52)) (hlen : ms.length < 2 ^ 31) :
    (oneOf gens = .throws .runtimeError ↔ 2 ^ 52 < ms.sum) ∧
    (ms.sum ≤ 2 ^ 52 → ∃ ws w, oneOf gens = .ok ws ∧ ws.map (·.gen) = gens.map (·.gen) ∧
      ws.map (·.weight) = ms.map (fun m : ℕ => Dbl.fin (if m = 0 ∧ ms.sum < 2 ^ 52 then w else (m : ℚ) / 2 ^ 52)) ∧
      0 ≤ w ∧ w ≤ 1 ∧ (0 < ms.count 0 → |ms.count 0 * w + ms.sum / 2 ^ 52 - 1| ≤ 1 / 2 ^ 53)) := by
  have hcast : gens.map (·.weight) = (ms.map fun m : ℕ => (m : ℚ) / 2 ^ 52).map Dbl.fin := by
    rw [hw, List.map_map]; rfl
  by_cases hbig : ∀ m ∈ ms, m ≤ 2 ^ 52
  swap
  · push Not at hbig
    obtain ⟨m, hm, hlt⟩ := hbig
    have hs : m ≤ ms.sum := List.le_sum_of_mem hm
    have ht : oneOf gens = .throws .runtimeError := by
      have : Dbl.fin ((m : ℚ) / 2 ^ 52) ∈ gens.map (·.weight) := by
        rw [hw]; exact List.mem_map_of_mem (f := fun m : ℕ => Dbl.fin ((m : ℚ) / 2 ^ 52)) hm
      obtain ⟨g, hg, e⟩ := List.mem_map.mp this
      refine C34_invalid_weight gens ⟨g, hg, .inl ⟨_, e, .inr ?_⟩⟩
      rw [lt_div_iff₀ (by positivity)]
      have : ((2 ^ 52 : ℕ) : ℚ) < m := by exact_mod_cast hlt
      push_cast at this
      linarith
    exact ⟨by simp only [ht, true_iff]; omega, fun h => by omega⟩
  · have hq : ∀ q ∈ ms.map (fun m : ℕ => (m : ℚ) / 2 ^ 52), 0 ≤ q ∧ q ≤ 1 := by
      intro q hq
      obtain ⟨m, hm, rfl⟩ := List.mem_map.mp hq
      refine ⟨by positivity, ?_⟩
      rw [div_le_one (by positivity)]
      exact_mod_cast hbig m hm
    have hcount : (ms.map (fun m : ℕ => (m : ℚ) / 2 ^ 52)).countP (· = 0) = ms.count 0 := by
      rw [List.countP_map, List.count]
      refine List.countP_congr fun m _ => ?_
      simp
    have ha := assignWeights_fin _ hq
    rw [hcount] at ha
    obtain ⟨f1, f2⟩ := fsum_exact ms 0 (by norm_num)
    simp only [Nat.cast_zero, zero_div, zero_add] at f1 f2
    by_cases hs : ms.sum ≤ 2 ^ 52
    swap
    · rw [if_pos (f2 (by omega) hbig)] at ha
      have : oneOf gens = .throws .runtimeError := by rw [oneOf, hcast, ha]; rfl
      exact ⟨by simp only [this, true_iff]; omega, fun h => absurd h hs⟩
    · have hle : ((ms.sum : ℕ) : ℚ) / 2 ^ 52 ≤ 1 := by
        rw [div_le_one (by positivity)]; exact_mod_cast hs
      have hn0 : (0 : ℚ) ≤ (ms.sum : ℕ) / 2 ^ 52 := by positivity
      rw [f1 hs, if_neg (by linarith)] at ha
      have hlt : (((ms.sum : ℕ) : ℚ) / 2 ^ 52 < 1) ↔ ms.sum < 2 ^ 52 := by
        rw [div_lt_one (by positivity)]; norm_cast
      simp only [hlt] at ha
      -- the share
      have hexact : rne (1 - (ms.sum : ℕ) / 2 ^ 52 : ℚ) = 1 - (ms.sum : ℕ) / 2 ^ 52 := by
        refine rne_exact (j := 52) (m := 2 ^ 52 - ms.sum) ?_ ?_
        · rw [show ((2 : ℚ) ^ (52 : ℤ)) = 2 ^ 52 by norm_cast]; push_cast; rw [sub_mul, div_mul_cancel₀ _ (by positivity), one_mul]; norm_num
        · rw [abs_of_nonneg (by norm_num at hs ⊢; omega)]; norm_num at hs ⊢; omega
      have hnn : ms.count 0 ≤ 2 ^ 53 := by have := List.count_le_length (a := 0) (l := ms); omega
      have hshare : ∃ w : ℚ, 0 ≤ w ∧ w ≤ 1 ∧ (0 < ms.count 0 → w = rne (rne (1 - (ms.sum : ℕ) / 2 ^ 52) / rne (ms.count 0 : ℕ)) ∧
          |ms.count 0 * w + ms.sum / 2 ^ 52 - 1| ≤ 1 / 2 ^ 53) := by
        by_cases hc : 0 < ms.count 0
        · have hc1 : (1 : ℚ) ≤ (ms.count 0 : ℕ) := by exact_mod_cast hc
          have hd0 : 0 ≤ (1 - (ms.sum : ℕ) / 2 ^ 52 : ℚ) / (ms.count 0 : ℕ) := div_nonneg (by linarith) (by linarith)
          have hd1 : (1 - (ms.sum : ℕ) / 2 ^ 52 : ℚ) / (ms.count 0 : ℕ) ≤ 1 := by
            rw [div_le_one (by linarith)]; linarith
          refine ⟨_, ?_, ?_, fun _ => ⟨rfl, ?_⟩⟩
          · rw [hexact, rne_nat hnn]; exact rne_nonneg hd0
          · rw [hexact, rne_nat hnn]; exact rne_le_one hd0 (by linarith [show (0 : ℚ) < 1 / 2 ^ 53 by norm_num])
          · rw [hexact, rne_nat hnn]
            have he := rne_err_rel ((1 - (ms.sum : ℕ) / 2 ^ 52 : ℚ) / (ms.count 0 : ℕ))
            rw [abs_of_nonneg hd0] at he
            have hmul : (ms.count 0 : ℚ) * ((1 - (ms.sum : ℕ) / 2 ^ 52 : ℚ) / (ms.count 0 : ℕ)) = 1 - (ms.sum : ℕ) / 2 ^ 52 := by
              field_simp
            set d := (1 - (ms.sum : ℕ) / 2 ^ 52 : ℚ) / (ms.count 0 : ℕ) with hd
            have e : (ms.count 0 : ℚ) * rne d + ms.sum / 2 ^ 52 - 1 = ms.count 0 * (rne d - d) := by
              rw [mul_sub, hmul]; ring
            rw [e, abs_mul, abs_of_nonneg (by linarith : (0 : ℚ) ≤ (ms.count 0 : ℚ))]
            calc (ms.count 0 : ℚ) * |rne d - d| ≤ ms.count 0 * (d / 2 ^ 53) := by
                  exact mul_le_mul_of_nonneg_left he (by linarith)
              _ = (ms.count 0 * d) / 2 ^ 53 := by ring
              _ ≤ 1 / 2 ^ 53 := by rw [hmul]; gcongr; linarith
        · exact ⟨0, le_refl _, by norm_num, fun h => absurd h hc⟩
      obtain ⟨w, hw0, hw1, hws⟩ := hshare
      have hok : ∃ ws, oneOf gens = .ok ws := by
        rw [oneOf, hcast, ha]; split <;> exact ⟨_, rfl⟩
      obtain ⟨ws, hws'⟩ := hok
      refine ⟨by simp only [hws', reduceCtorEq, false_iff]; omega, fun _ => ⟨ws, w, hws', ?_, ?_, hw0, hw1, fun h => (hws h).2⟩⟩
      · exact (oneOf_ok hws').choose_spec.2.2.1
      · obtain ⟨vs, h1, h2, -⟩ := oneOf_ok hws'
        rw [h2]
        rw [hcast, ha] at h1
        split at h1
        · rename_i hc
          cases h1
          rw [List.map_map]
          refine List.map_congr_left fun m hm => ?_
          simp only [Function.comp]
          by_cases hm0 : m = 0
          · subst hm0; rw [if_pos (by simp), if_pos ⟨rfl, hc.2⟩, (hws hc.1).1]
          · have : ¬ ((m : ℚ) / 2 ^ 52 = 0) := by simp [hm0]
            rw [if_neg this, if_neg (by tauto)]
        · rename_i hc
          cases h1
          rw [List.map_map]
          refine List.map_congr_left fun m hm => ?_
          simp only [Function.comp]
          rw [if_neg]
          rintro ⟨rfl, h⟩
          exact hc ⟨List.count_pos_iff.mpr hm, h⟩

/-- Weights 1/2 and 1/4 given, two alternatives left: they get 1/8 each. -/
example : ∃ ws, oneOf [{ gen := just 1, weight := .fin (1/2) }, { gen := just 2, weight := .fin (1/4) },
    { gen := just 3, weight := .fin 0 }, ({ gen := just 4, weight := .fin 0 } : Weighted Nat Nat)] = .ok ws ∧
    ws.map (·.weight) = [.fin (1/2), .fin (1/4), .fin (1/8), .fin (1/8)] := by
  have : assignWeights [.fin (1/2), .fin (1/4), .fin 0, .fin 0] =
    .ok [.fin (1/2), .fin (1/4), .fin (1/8), .fin (1/8)] := by decide +kernel
  refine ⟨_, by simp only [oneOf, List.map_cons, List.map_nil, this]; rfl, rfl⟩

/-- C34, for arbitrary finite weights in [0,1]: `oneOf` accepts if the exact sum is at most `1 - n/2^53` and throws
if it exceeds `1 + n/2^53`. Missing: in
between the roundings of the `n` additions decide, and weights that are NaN, see `C34_nan_violated`. -/
theorem C34_general_partial (gens : List (Weighted σ α)) (qs : List ℚ) (hw : gens.map (·.weight) = qs.map Dbl.fin)
    (h : ∀ q ∈ qs, 0 ≤ q ∧ q ≤ 1) :
    (qs.sum ≤ 1 - qs.length / 2 ^ 53 → ∃ ws, oneOf gens = .ok ws) ∧
    (1 + (qs.length : ℚ) / 2 ^ 53 < qs.sum → oneOf gens = .throws .runtimeError) := by
  have ha := assignWeights_fin qs h
  obtain ⟨f1, f2⟩ := fsum_err qs h 0 (le_refl _)
  rw [zero_add] at f1 f2
  refine ⟨fun hs => ?_, fun hs => ?_⟩
  · have := (abs_le.1 (f1 (by linarith))).2
    rw [if_neg (by linarith)] at ha
    rw [oneOf, hw, ha]
    split <;> exact ⟨_, rfl⟩
  · rw [if_pos (f2 hs)] at ha
    rw [oneOf, hw, ha]
    rfl

example : ([1/3, 1/3, 1/4] : List ℚ).sum ≤ 1 - ([1/3, 1/3, 1/4] : List ℚ).length / 2 ^ 53 ∧
    1 + (([2/3, 2/3] : List ℚ).length : ℚ) / 2 ^ 53 < ([2/3, 2/3] : List ℚ).sum := by
  constructor <;> norm_num

/-- C34. Whatever finite weights are accepted, all resulting weights are in [0,1]. -/
theorem C34_result_range (gens ws : List (Weighted σ α)) (qs : List ℚ) (hw : gens.map (·.weight) = qs.map Dbl.fin)
    (h : oneOf gens = .ok ws) : ∀ w ∈ ws, ∃ q, w.weight = .fin q ∧ 0 ≤ q ∧ q ≤ 1 := by
  have hq : ∀ q ∈ qs, 0 ≤ q ∧ q ≤ 1 := by
    intro q hq
    by_contra hc
    have hm : Dbl.fin q ∈ gens.map (·.weight) := by rw [hw]; exact List.mem_map_of_mem hq
    obtain ⟨g, hg, e⟩ := List.mem_map.mp hm
    rw [C34_invalid_weight gens ⟨g, hg, .inl ⟨q, e, by by_contra hn; push Not at hn; exact hc hn⟩⟩] at h
    cases h
  obtain ⟨vs, h1, h2, -⟩ := oneOf_ok h
  have ha := assignWeights_fin qs hq
  rw [hw] at h1
  rw [h1] at ha
  intro w hwm
  have hv : w.weight ∈ vs := by rw [← h2]; exact List.mem_map_of_mem hwm
  split at ha
  · cases ha
  rename_i h1'
  split at ha
  · rename_i hc
    cases ha
    obtain ⟨q, hqm, e⟩ := List.mem_map.mp hv
    split at e
    · refine ⟨_, e.symm, ?_⟩
      have hf0 : 0 ≤ fsum qs 0 := by
        have : ∀ (l : List ℚ) (a : ℚ), (∀ q ∈ l, 0 ≤ q) → 0 ≤ a → 0 ≤ fsum l a := by
          intro l
          induction l with
          | nil => intro a _ h; exact h
          | cons x xs ih =>
            intro a hx ha
            have := hx x (by simp)
            exact ih _ (fun q hq => hx q (by simp [hq])) (rne_nonneg (by linarith))
        exact this qs 0 (fun q h => (hq q h).1) (le_refl _)
      have hr0 : 0 ≤ rne (1 - fsum qs 0) := rne_nonneg (by linarith [hc.2])
      have hr1 : rne (1 - fsum qs 0) ≤ 1 := rne_le_one (by linarith [hc.2])
        (by linarith [show (0 : ℚ) < 1 / 2 ^ 53 by norm_num])
      have hn := le_rne_nat hc.1
      refine ⟨rne_nonneg (div_nonneg hr0 (by linarith)), rne_le_one (div_nonneg hr0 (by linarith)) ?_⟩
      have : rne (1 - fsum qs 0) / rne (qs.countP (· = 0) : ℕ) ≤ 1 := by
        rw [div_le_one (by linarith)]; linarith
      linarith [show (0 : ℚ) < 1 / 2 ^ 53 by norm_num]
    · exact ⟨q, e.symm, hq q hqm⟩
  · cases ha
    obtain ⟨q, hqm, e⟩ := List.mem_map.mp hv
    exact ⟨q, e.symm, hq q hqm⟩

/-- C34 is violated for weights that are not numbers: NaN is not in [0,1] but accepted, and calling the
generator then is undefined behaviour (a conversion of NaN to an integer). -/
theorem C34_nan_violated : ∃ ws, oneOf [({ gen := just 1, weight := .nan } : Weighted (List Int) Nat)] = .ok ws ∧
    oneOfLoop script ws 5 [0, 0] = .ub := ⟨_, rfl, rfl⟩

/-! ### C33 -/

/-- C33. What `oneOf` returns was returned by one of the alternatives (as a whole, with its shrinks). Missing: that
the alternative has a weight other than 0, see `C33_zero_weight_violated`. -/
theorem C33_oneOf_partial (R : Rng σ) (gens ws : List (Weighted σ α)) (h : oneOf gens = .ok ws) (fuel : Nat) (s s' : σ)
    (t : Shr α) (ht : oneOfLoop R ws fuel s = .ok (t, s')) : ∃ g ∈ gens, ∃ s₀, g.gen s₀ = .ok (t, s') := by
  obtain ⟨w, hw, s₀, e⟩ := oneOfLoop_ok ht
  obtain ⟨vs, -, -, hg, -⟩ := oneOf_ok h
  have : w.gen ∈ gens.map (·.gen) := by rw [← hg]; exact List.mem_map_of_mem hw
  obtain ⟨g, hgm, eg⟩ := List.mem_map.mp this
  exact ⟨g, hgm, s₀, by rw [eg, e]⟩

/-- C33. `oneOf` with at least one alternative and finite weights adds no behaviour of its own: either it is
still throwing dice, or its outcome (a value, an exception other than `Discard`, ...) is the outcome of a call of
one of the alternatives. -/
theorem C33_no_other_outcome (R : Rng σ) (gens ws : List (Weighted σ α)) (qs : List ℚ)
    (hw : gens.map (·.weight) = qs.map Dbl.fin) (h : oneOf gens = .ok ws) (hne : gens ≠ [])
    (hlen : gens.length ≤ 2 ^ 32) (fuel : Nat) (s : σ) :
    oneOfLoop R ws fuel s = .diverges ∨
    ∃ g ∈ gens, ∃ s₀, oneOfLoop R ws fuel s = g.gen s₀ ∧ g.gen s₀ ≠ .throws .discard := by
  have hr := C34_result_range gens ws qs hw h
  obtain ⟨vs, -, -, hg, -⟩ := oneOf_ok h
  have hwl : ws.length = gens.length := by simpa using congrArg List.length hg
  have hpos : 0 < ws.length := by rw [hwl]; exact List.length_pos_iff.mpr hne
  have hret : ∀ (w : Weighted σ α) (fuel : Nat) (s : σ), retry w fuel s = .diverges ∨
      ∃ s₀, retry w fuel s = w.gen s₀ ∧ w.gen s₀ ≠ .throws .discard := by
    intro w fuel
    induction fuel with
    | zero => intro s; exact .inl rfl
    | succ fuel ih =>
      intro s
      rw [retry]
      split
      · exact ih _
      · rename_i hd
        exact .inr ⟨s, rfl, hd⟩
  induction fuel generalizing s with
  | zero => exact .inl rfl
  | succ fuel ih =>
    rw [oneOfLoop]
    obtain ⟨v, s1, e, h0, h1⟩ := getRandomSize_ok R (a := 0) (b := ws.length) s hpos (by omega)
    rw [e, Outcome.ok_bind]
    dsimp only
    have hlt : v.toNat < ws.length := by omega
    rw [List.getElem?_eq_getElem hlt]
    have hmem := List.getElem_mem hlt
    generalize ws[v.toNat] = w at hmem ⊢
    obtain ⟨q, hq, hq0, hq1⟩ := hr w hmem
    have hthr : ∃ thr, threshold w.weight = .ok thr := by
      rw [hq, threshold]
      split
      · exact ⟨_, rfl⟩
      · rw [if_neg]
        · exact ⟨_, rfl⟩
        · have : (-1 : ℚ) / 2 ^ 64 < 0 := by norm_num
          push Not
          exact ⟨by linarith, hq1⟩
    obtain ⟨thr, hthr⟩ := hthr
    simp only [hthr, Outcome.ok_bind]
    split
    · have hgm : w.gen ∈ gens.map (·.gen) := by rw [← hg]; exact List.mem_map_of_mem hmem
      obtain ⟨g, hgm, eg⟩ := List.mem_map.mp hgm
      rcases hret w fuel (getRandomBool R thr s1).2 with h | ⟨s₀, h1, h2⟩
      · exact .inl h
      · exact .inr ⟨g, hgm, s₀, by rw [eg]; exact ⟨h1, h2⟩⟩
    · exact ih _

/-- C33. No alternative is excluded: whatever finite weight in [0,1] it has, there are draws for which it is
chosen. -/
theorem C33_every_alternative_possible (ws : List (Weighted (List Int) α)) (i : Nat) (hi : i < ws.length)
    (hlen : ws.length ≤ 2 ^ 32) (q : ℚ) (hq : ws[i].weight = .fin q) (h0 : 0 ≤ q) (h1 : q ≤ 1) (rest : List Int)
    (fuel : Nat) : ∃ draws, oneOfLoop script ws (fuel + 1) (draws ++ rest) = retry ws[i] fuel rest := by
  have hsz : ∀ r, getRandomSize script 0 ws.length (i :: r) = .ok ((i : Int), r) := by
    intro r
    unfold getRandomSize
    have e : u64.wrap ((ws.length : Int) - 1) = (ws.length : Int) - 1 :=
      wrap_id (by simp [all]) (by rw [u64_lo]; omega) (by rw [u64_hi]; omega)
    rw [e]
    unfold getRandomT uniform
    rw [wrap_id (T := u32) (by simp [all]) (by rw [u32_lo]; simp) (by rw [u32_hi]; simp),
      wrap_id (T := u32) (x := (ws.length : Int) - 1) (by simp [all]) (by rw [u32_lo]; omega) (by rw [u32_hi]; omega),
      if_pos (by simp; omega)]
    have hc : (0 : Int) ≤ i ∧ (i : Int) ≤ (ws.length : Int) - 1 := by omega
    simp only [script, Outcome.ok_bind, Outcome.pure_eq, Nat.cast_zero, if_pos hc]
    rw [wrap_id (T := u32) (x := (i : Int)) (by simp [all]) (by rw [u32_lo]; omega) (by rw [u32_hi]; omega)]
  have hthr : threshold ws[i].weight = .ok (if q = 1 then none else some (⌊q * 2 ^ 64⌋.toNat)) := by
    rw [hq, threshold]
    split
    · rfl
    · rw [if_neg]
      have : (-1 : ℚ) / 2 ^ 64 < 0 := by norm_num
      push Not
      exact ⟨by linarith, h1⟩
  refine ⟨if q = 1 then [(i : Int)] else [(i : Int), 0], ?_⟩
  rw [oneOfLoop]
  by_cases hq1 : q = 1
  · rw [if_pos hq1, List.singleton_append, hsz]
    simp only [Outcome.ok_bind, Int.toNat_natCast, List.getElem?_eq_getElem hi, hthr, if_pos hq1, getRandomBool, if_true]
  · rw [if_neg hq1, List.cons_append, hsz]
    have hb : ∀ k, getRandomBool script (some k) (0 :: rest) = (true, rest) := by
      intro k; simp [getRandomBool, next8U, script]
    simp only [Outcome.ok_bind, Int.toNat_natCast, List.getElem?_eq_getElem hi, hthr, if_neg hq1, hb,
      List.singleton_append, if_true]

theorem retry_again {w : Weighted σ α} {s : σ} (k : Nat) (hd : ∀ j < k, w.gen (w.discarded^[j] s) = .throws .discard)
    {r : Outcome (Shr α × σ)} (hr : w.gen (w.discarded^[k] s) = r) (hn : r ≠ .throws .discard) : retry w (k + 1) s = r := by
  induction k generalizing s with
  | zero =>
    rw [retry]
    simp only [Function.iterate_zero, id] at hr
    rw [hr]
    cases r with
    | throws x => cases x <;> first | rfl | exact absurd rfl hn
    | ok p => rfl
    | ub => rfl
    | diverges => rfl
  | succ k ih =>
    rw [retry]
    have h0 := hd 0 (by omega)
    simp only [Function.iterate_zero, id] at h0
    rw [h0]
    refine ih (fun j hj => ?_) ?_
    · rw [← Function.iterate_succ_apply]
      exact hd (j + 1) (by omega)
    · rw [← Function.iterate_succ_apply]
      exact hr

/-- C33. An alternative that discards is tried again, with the random numbers after those of the attempt that was
discarded: if it would discard some times in a row and then return a value, that value can be generated. -/
theorem C33_discarded_again (ws : List (Weighted (List Int) α)) (i : Nat) (hi : i < ws.length)
    (hlen : ws.length ≤ 2 ^ 32) (q : ℚ) (hq : ws[i].weight = .fin q) (h0 : 0 ≤ q) (h1 : q ≤ 1) (rest : List Int) (k : Nat)
    (hd : ∀ j < k, ws[i].gen (ws[i].discarded^[j] rest) = .throws .discard) (t : Shr α) (s' : List Int)
    (ht : ws[i].gen (ws[i].discarded^[k] rest) = .ok (t, s')) :
    ∃ draws, oneOfLoop script ws (k + 2) (draws ++ rest) = .ok (t, s') := by
  obtain ⟨draws, h⟩ := C33_every_alternative_possible ws i hi hlen q hq h0 h1 rest (k + 1)
  exact ⟨draws, by rw [h, retry_again k hd ht (by simp)]⟩

/-- An alternative that discards odd numbers: 7 and 9 are discarded, 4 is generated. -/
example : ∃ draws, oneOfLoop script [{
        gen := fun s => match s with
          | v :: r => if v % 2 = 0 then .ok (leaf v, r) else .throws .discard
          | [] => .throws .discard
        weight := .fin 1
        discarded := List.tail }] 4 (draws ++ [7, 9, 4]) = .ok (leaf (4 : Int), []) := by
  refine C33_discarded_again _ 0 (by simp) (by simp) 1 rfl (by norm_num) (le_refl _) [7, 9, 4] 2 (fun j hj => ?_) _ _ rfl
  match j, hj with
  | 0, _ => rfl
  | 1, _ => rfl

/-- C33 is violated for alternatives of weight 0 (all of the probability being given to others): the second
alternative has weight 0 but is chosen if 0 is drawn. -/
theorem C33_zero_weight_violated : ∃ ws, oneOf [{ gen := just 1, weight := .fin 1 },
      ({ gen := just 2, weight := .fin 0 } : Weighted (List Int) Nat)] = .ok ws ∧
    ws.map (·.weight) = [.fin 1, .fin 0] ∧ oneOfLoop script ws 5 [1, 0] = .ok (leaf 2, []) := by
  have : assignWeights [.fin 1, .fin 0] = .ok [.fin 1, .fin 0] := by decide +kernel
  refine ⟨_, by simp only [oneOf, List.map_cons, List.map_nil, this]; rfl, rfl, ?_⟩
  have ht : threshold (.fin 0) = .ok (some 0) := by decide +kernel
  have hs : getRandomSize script 0 2 [1, 0] = .ok (1, [0]) := by decide +kernel
  simp only [oneOfLoop, List.zipWith_cons_cons, List.zipWith_nil_left, List.length_cons, List.length_nil, Nat.reduceAdd, hs,
    Outcome.ok_bind]
  simp [ht, getRandomBool, next8U, script, retry, just]

/-- C33 is violated for an empty list of alternatives: the vector is read out of bounds. -/
theorem C33_empty_violated (R : Rng σ) (fuel : Nat) (s : σ) :
    ∃ ws, oneOf ([] : List (Weighted σ α)) = .ok ws ∧ oneOfLoop R ws (fuel + 1) s = .ub := by
  refine ⟨[], ?_, ?_⟩
  · have : assignWeights [] = .ok [] := by decide +kernel
    simp [oneOf, this]
  · rw [oneOfLoop]
    have : ∃ v s', getRandomSize R 0 0 s = .ok (v, s') := by
      have := getRandomT_ok R (T := u32) (by simp [all]) (min := 0) (max := u32.hi) s (by simp [u32_lo]) (by decide) (le_refl _)
      obtain ⟨v, s', h, -⟩ := this
      refine ⟨v, s', ?_⟩
      rw [← h]
      rfl
    obtain ⟨v, s', h⟩ := this
    simp [h]

/-- C33. `elementOf` only returns the given values, without shrinks. -/
theorem C33_elementOf (R : Rng σ) (vals : List (α × Dbl)) (ws : List (Weighted σ α)) (h : elementOf vals = .ok ws)
    (fuel : Nat) (s s' : σ) (t : Shr α) (ht : oneOfLoop R ws fuel s = .ok (t, s')) :
    t.shrinks = [] ∧ ∃ w, (t.value, w) ∈ vals := by
  obtain ⟨g, hg, s₀, e⟩ := C33_oneOf_partial R _ ws h fuel s s' t ht
  obtain ⟨⟨v, w⟩, hv, rfl⟩ := List.mem_map.mp hg
  cases e
  exact ⟨rfl, w, hv⟩

example : ∃ ws, elementOf (σ := List Int) [(10, .fin (1/2)), (20, .fin (1/2))] = .ok ws ∧
    oneOfLoop script ws 5 [0, 2 ^ 64 - 1, 1, 7] = .ok (leaf 20, []) := by
  have : assignWeights [.fin (1/2), .fin (1/2)] = .ok [.fin (1/2), .fin (1/2)] := by decide +kernel
  refine ⟨_, by simp only [elementOf, oneOf, List.map_cons, List.map_nil, this]; rfl, ?_⟩
  have ht : threshold (.fin 2⁻¹) = .ok (some (2 ^ 63)) := by decide +kernel
  have hs : getRandomSize script 0 2 [0, 2 ^ 64 - 1, 1, 7] = .ok (0, [2 ^ 64 - 1, 1, 7]) := by decide +kernel
  have hs' : getRandomSize script 0 2 [1, 7] = .ok (1, [7]) := by decide +kernel
  have hb : getRandomBool script (some (2 ^ 63)) [2 ^ 64 - 1, 1, 7] = (false, [1, 7]) := by decide +kernel
  have hb' : getRandomBool script (some (2 ^ 63)) [7] = (true, []) := by decide +kernel
  simp only [one_div, oneOfLoop, List.zipWith_cons_cons, List.zipWith_nil_left, List.length_cons, List.length_nil,
    Nat.reduceAdd, hs, hs', Outcome.ok_bind, Int.toNat_zero, Int.toNat_one, List.getElem?_cons_zero,
    List.getElem?_cons_succ, ht, hb, hb']
  rfl

/-! ### C35 intervals, uintervals -/

theorem weightSizes_ok {R : Rng σ} {T : IntType} {size : Int × Int → Outcome Int} {sum : Nat} {is : List (Int × Int)}
    {ws : List (Weighted σ Int)} (h : weightSizes R T size sum is = .ok ws) :
    ∀ w ∈ ws, ∃ i ∈ is, ∃ n, size i = .ok n ∧ w.gen = interval R T i.1 i.2 ∧ w.weight = (Dbl.ofInt n).divNat sum := by
  induction is generalizing ws with
  | nil => cases h; simp
  | cons i is ih =>
    rw [weightSizes] at h
    obtain ⟨n, h1, h⟩ := Outcome.bind_eq_ok.mp h
    obtain ⟨vs, h2, h⟩ := Outcome.bind_eq_ok.mp h
    cases h
    intro w hw
    rcases List.mem_cons.mp hw with rfl | hw
    · exact ⟨i, by simp, n, h1, rfl, rfl⟩
    · obtain ⟨j, hj, r⟩ := ih h2 w hw
      exact ⟨j, by simp [hj], r⟩

theorem weightSizes_mem {R : Rng σ} {T : IntType} {size : Int × Int → Outcome Int} {sum : Nat} {is : List (Int × Int)}
    {ws : List (Weighted σ Int)} (h : weightSizes R T size sum is = .ok ws) :
    ∀ i ∈ is, ∃ n, size i = .ok n ∧ ∃ w ∈ ws, w.weight = (Dbl.ofInt n).divNat sum := by
  induction is generalizing ws with
  | nil => simp
  | cons i is ih =>
    rw [weightSizes] at h
    obtain ⟨n, h1, h⟩ := Outcome.bind_eq_ok.mp h
    obtain ⟨vs, h2, h⟩ := Outcome.bind_eq_ok.mp h
    cases h
    intro j hj
    rcases List.mem_cons.mp hj with rfl | hj
    · exact ⟨n, h1, _, List.mem_cons_self, rfl⟩
    · obtain ⟨m, hm, w, hw, e⟩ := ih h2 j hj
      exact ⟨m, hm, w, by simp [hw], e⟩

theorem intervals_inside {R : Rng σ} {T : IntType} (hT : T ∈ all) {size : Int × Int → Outcome Int} {sum : Nat}
    {is : List (Int × Int)} (hb : ∀ i ∈ is, T.lo ≤ i.1 ∧ i.1 ≤ T.hi ∧ T.lo ≤ i.2 ∧ i.2 ≤ T.hi)
    {gs ws : List (Weighted σ Int)} (hg : weightSizes R T size sum is = .ok gs) (ho : oneOf gs = .ok ws) {fuel : Nat}
    {s s' : σ} {t : Shr Int} (ht : oneOfLoop R ws fuel s = .ok (t, s')) :
    ∃ i ∈ is, GoodInt i.1 i.2 t := by
  obtain ⟨g, hgm, s₀, e⟩ := C33_oneOf_partial R gs ws ho fuel s s' t ht
  obtain ⟨i, hi, n, -, hgen, -⟩ := weightSizes_ok hg g hgm
  refine ⟨i, hi, ?_⟩
  obtain ⟨b1, b2, b3, b4⟩ := hb i hi
  rw [hgen] at e
  by_cases hle : i.1 ≤ i.2
  · obtain ⟨t', s'', e', hgood⟩ := C17_interval R T hT i.1 i.2 s₀ b1 hle b4
    rw [e'] at e
    cases e
    exact hgood
  · rw [C19_empty_interval R T hT i.1 i.2 s₀ b3 (by omega) b2] at e
    cases e

/-- C35. Whatever `intervals` generates lies in one of the intervals, and so does everything reachable from it by
shrinking, in the same interval; shrinking moves towards the number of that interval nearest to 0 and can reach it. -/
theorem C35_intervals (R : Rng σ) (is : List (Int × Int))
    (hb : ∀ i ∈ is, i64.lo ≤ i.1 ∧ i.1 ≤ i64.hi ∧ i64.lo ≤ i.2 ∧ i.2 ≤ i64.hi) (ws : List (Weighted σ Int))
    (h : intervals R is = .ok ws) (fuel : Nat) (s s' : σ) (t : Shr Int) (ht : oneOfLoop R ws fuel s = .ok (t, s')) :
    ∃ i ∈ is, (∀ w, Reach t w → i.1 ≤ w ∧ w ≤ i.2) ∧
      ∀ z, Nearest0 i.1 i.2 z → Reach t z ∧
        ∀ u c, Desc t u → c ∈ u.shrinks → (c.value - z).natAbs < (u.value - z).natAbs := by
  obtain ⟨sum, h1, h⟩ := Outcome.bind_eq_ok.mp h
  obtain ⟨gs, h2, h3⟩ := Outcome.bind_eq_ok.mp h
  obtain ⟨i, hi, g1, g2⟩ := intervals_inside (by simp [all]) hb h2 h3 ht
  refine ⟨i, hi, g1, fun z hz => ⟨((g2 z hz).2 z).mpr ?_, (g2 z hz).1⟩⟩
  omega

/-- C35. The same for `uintervals`. -/
theorem C35_uintervals (R : Rng σ) (is : List (Int × Int))
    (hb : ∀ i ∈ is, u64.lo ≤ i.1 ∧ i.1 ≤ u64.hi ∧ u64.lo ≤ i.2 ∧ i.2 ≤ u64.hi) (ws : List (Weighted σ Int))
    (h : uintervals R is = .ok ws) (fuel : Nat) (s s' : σ) (t : Shr Int) (ht : oneOfLoop R ws fuel s = .ok (t, s')) :
    ∃ i ∈ is, (∀ w, Reach t w → i.1 ≤ w ∧ w ≤ i.2) ∧
      ∀ z, Nearest0 i.1 i.2 z → Reach t z ∧
        ∀ u c, Desc t u → c ∈ u.shrinks → (c.value - z).natAbs < (u.value - z).natAbs := by
  obtain ⟨sum, h1, h⟩ := Outcome.bind_eq_ok.mp h
  obtain ⟨gs, h2, h3⟩ := Outcome.bind_eq_ok.mp h
  obtain ⟨i, hi, g1, g2⟩ := intervals_inside (by simp [all]) hb h2 h3 ht
  refine ⟨i, hi, g1, fun z hz => ⟨((g2 z hz).2 z).mpr ?_, (g2 z hz).1⟩⟩
  omega

/-- C35. Sizes of intervals do not overflow if the difference of the bounds is below 2^63 - 1. -/
theorem C35_size (a b : Int) (h : a - 1 ≤ b) (hd : b - a < 2 ^ 63 - 1) : intervalSize (a, b) = .ok (b - a + 1) := by
  unfold intervalSize arith
  have e1 : i64.lo = -2 ^ 63 := by decide
  have e2 : i64.hi = 2 ^ 63 - 1 := by decide
  rw [if_neg (by decide), if_pos (by decide), if_pos (by rw [e1, e2]; omega), Outcome.ok_bind, if_neg (by decide),
    if_pos (by decide), if_pos (by rw [e1, e2]; omega)]

/-- The sizes of the whole range of `int64_t` do overflow. -/
example : intervalSize (-2 ^ 63, 2 ^ 63 - 1) = .ub := by decide

theorem intervalSize_eq {a b n : Int} (h : intervalSize (a, b) = .ok n) : n = b - a + 1 := by
  unfold intervalSize arith at h
  rw [if_neg (by decide), if_pos (by decide)] at h
  obtain ⟨d, h1, h2⟩ := Outcome.bind_eq_ok.mp h
  split at h1
  · cases h1
    rw [if_neg (by decide), if_pos (by decide)] at h2
    split at h2 <;> cases h2
    rfl
  · cases h1

theorem sumSizes_ok {size : Int × Int → Outcome Int} {is : List (Int × Int)} {sum r : Int}
    (h : sumSizes size is sum = .ok r) : ∀ i ∈ is, ∃ n, size i = .ok n ∧ n ≠ 0 := by
  induction is generalizing sum with
  | nil => simp
  | cons i is ih =>
    rw [sumSizes] at h
    obtain ⟨n, h1, h⟩ := Outcome.bind_eq_ok.mp h
    split at h
    · cases h
    · rename_i hn
      intro j hj
      rcases List.mem_cons.mp hj with rfl | hj
      · exact ⟨n, h1, hn⟩
      · exact ih h j hj

theorem weightSizes_gens {R : Rng σ} {T : IntType} {size : Int × Int → Outcome Int} {sum : Nat}
    {is : List (Int × Int)} {ws : List (Weighted σ Int)} (h : weightSizes R T size sum is = .ok ws) :
    ws.map (·.gen) = is.map fun i => interval R T i.1 i.2 := by
  induction is generalizing ws with
  | nil => cases h; rfl
  | cons i is ih =>
    rw [weightSizes] at h
    obtain ⟨n, h1, h⟩ := Outcome.bind_eq_ok.mp h
    obtain ⟨vs, h2, h⟩ := Outcome.bind_eq_ok.mp h
    cases h
    simp [ih h2]

theorem rne_int_ne {n : Int} (h : n ≠ 0) : rne (n : ℚ) ≠ 0 := by
  rcases lt_or_gt_of_ne h with h | h
  · exact ne_of_lt (rne_neg (by exact_mod_cast h))
  · exact ne_of_gt (rne_pos (by exact_mod_cast h))

theorem intervals_complete {T : IntType} (hT : T ∈ all) {size : Int × Int → Outcome Int} {sum : Int}
    {is : List (Int × Int)} (hlen : is.length ≤ 2 ^ 32) {gs ws : List (Weighted (List Int) Int)}
    (hs : sumSizes size is 0 = .ok sum)
    (hg : weightSizes script T size sum.toNat is = .ok gs) (ho : oneOf gs = .ok ws) {i : Int × Int} (hi : i ∈ is)
    (hb : T.lo ≤ i.1 ∧ i.2 ≤ T.hi) {v : Int} (hv : i.1 ≤ v ∧ v ≤ i.2) :
    ∃ fuel s t s', oneOfLoop script ws fuel s = .ok (t, s') ∧ t.value = v := by
  have hfin : ∃ qs : List ℚ, gs.map (·.weight) = qs.map Dbl.fin := by
    have : ∀ w ∈ gs, ∃ q, w.weight = .fin q := by
      intro w hw
      obtain ⟨j, hj, n, hn, -, e⟩ := weightSizes_ok hg w hw
      obtain ⟨n', hn', h0⟩ := sumSizes_ok hs j hj
      rw [hn] at hn'
      cases hn'
      rw [Dbl.ofInt, Dbl.divNat] at e
      split at e
      · rw [if_neg (rne_int_ne h0)] at e
        rw [C34_invalid_weight gs ⟨w, hw, .inr ⟨_, e⟩⟩] at ho
        cases ho
      · exact ⟨_, e⟩
    clear hg ho
    induction gs with
    | nil => exact ⟨[], rfl⟩
    | cons w gs ih =>
      obtain ⟨q, hq⟩ := this w (by simp)
      obtain ⟨qs, hqs⟩ := ih fun w hw => this w (by simp [hw])
      exact ⟨q :: qs, by simp [hq, hqs]⟩
  obtain ⟨qs, hqs⟩ := hfin
  have hr := C34_result_range gs ws qs hqs ho
  have hgens : ws.map (·.gen) = is.map fun i => interval script T i.1 i.2 := by
    obtain ⟨-, -, -, e, -⟩ := oneOf_ok ho
    rw [e, weightSizes_gens hg]
  obtain ⟨k, hk, rfl⟩ := List.getElem_of_mem hi
  have hl : ws.length = is.length := by simpa using congrArg List.length hgens
  have hk' : k < ws.length := by omega
  have hgk : ws[k].gen = interval script T is[k].1 is[k].2 := by
    have := congrArg (·[k]?) hgens
    simpa [hk, hk'] using this
  obtain ⟨q, hq, h0, h1⟩ := hr ws[k] (List.getElem_mem hk')
  obtain ⟨r, t, s', e, ev⟩ := C17_every_value_possible T hT _ _ v hb.1 hv.1 hv.2 hb.2
  obtain ⟨draws, hd⟩ := C33_every_alternative_possible ws k hk' (by omega) q hq h0 h1 r 1
  refine ⟨2, draws ++ r, t, s', ?_, ev⟩
  rw [hd]
  simp only [retry, hgk, e]

/-- C35. Every number of every interval can be generated. -/
theorem C35_every_value_possible (is : List (Int × Int)) (hlen : is.length ≤ 2 ^ 32)
    (ws : List (Weighted (List Int) Int)) (i : Int × Int) (hi : i ∈ is) (v : Int) (hv : i.1 ≤ v ∧ v ≤ i.2) :
    (intervals script is = .ok ws → i64.lo ≤ i.1 → i.2 ≤ i64.hi →
      ∃ fuel s t s', oneOfLoop script ws fuel s = .ok (t, s') ∧ t.value = v) ∧
    (uintervals script is = .ok ws → u64.lo ≤ i.1 → i.2 ≤ u64.hi →
      ∃ fuel s t s', oneOfLoop script ws fuel s = .ok (t, s') ∧ t.value = v) := by
  refine ⟨fun h b1 b2 => ?_, fun h b1 b2 => ?_⟩ <;>
  · obtain ⟨sum, h1, h⟩ := Outcome.bind_eq_ok.mp h
    obtain ⟨gs, h2, h3⟩ := Outcome.bind_eq_ok.mp h
    exact intervals_complete (by simp [all]) hlen h1 h2 h3 hi ⟨b1, b2⟩ hv

/-- C35. An empty interval, `max = min - 1`, among intervals whose sizes do not overflow, is rejected by an
exception. -/
theorem C35_empty_rejected (R : Rng σ) (is : List (Int × Int))
    (hd : ∀ i ∈ is, i.1 - 1 ≤ i.2 ∧ i.2 - i.1 < 2 ^ 63 - 1) (he : ∃ i ∈ is, i.2 = i.1 - 1) :
    intervals R is = .throws .runtimeError := by
  have : ∀ sum, sumSizes intervalSize is sum = .throws .runtimeError := by
    induction is with
    | nil => simp at he
    | cons i is ih =>
      intro sum
      obtain ⟨h1, h2⟩ := hd i (by simp)
      rw [sumSizes, C35_size i.1 i.2 h1 h2, Outcome.ok_bind]
      split
      · rfl
      · refine ih (fun j hj => hd j (by simp [hj])) ?_ _
        obtain ⟨j, hj, e⟩ := he
        rcases List.mem_cons.mp hj with rfl | hj
        · omega
        · exact ⟨j, hj, e⟩
  rw [intervals, this]
  rfl

example : ∃ i ∈ [((1 : Int), (5 : Int)), (7, 6)], i.2 = i.1 - 1 := by decide

/-- C35. `intervals` never accepts an interval whose bounds are in the wrong order. -/
theorem C35_reversed_rejected (R : Rng σ) (is : List (Int × Int)) (ws : List (Weighted σ Int))
    (h : intervals R is = .ok ws) : ∀ i ∈ is, i.1 ≤ i.2 := by
  intro i hi
  obtain ⟨sum, h1, h⟩ := Outcome.bind_eq_ok.mp h
  obtain ⟨gs, h2, h3⟩ := Outcome.bind_eq_ok.mp h
  obtain ⟨n, hn, hn0⟩ := sumSizes_ok h1 i hi
  obtain ⟨n', hn', w, hw, e⟩ := weightSizes_mem h2 i hi
  rw [hn] at hn'
  cases hn'
  have en := intervalSize_eq hn
  by_contra hc
  have hneg : n < 0 := by omega
  have hr : rne (n : ℚ) < 0 := rne_neg (by exact_mod_cast hneg)
  rw [Dbl.ofInt, Dbl.divNat] at e
  rw [C34_invalid_weight gs] at h3
  · cases h3
  · refine ⟨w, hw, ?_⟩
    split at e
    · rw [if_neg (by linarith)] at e
      exact .inr ⟨_, e⟩
    · rename_i hs
      refine .inl ⟨_, e, .inl (rne_neg (div_neg_of_neg_of_pos hr ?_))⟩
      have := le_rne_nat (n := sum.toNat) (by omega)
      linarith

/-- A single alternative of weight 1 is always chosen. -/
theorem oneOfLoop_single (R : Rng σ) (w : Weighted σ α) (hw : w.weight = .fin 1) (fuel : Nat) (s : σ) :
    ∃ s', oneOfLoop R [w] (fuel + 1) s = retry w fuel s' := by
  obtain ⟨v, s1, e, h0, h1⟩ := getRandomSize_ok R (a := 0) (b := 1) s (by omega) (by omega)
  have : v = 0 := by omega
  subst this
  refine ⟨s1, ?_⟩
  rw [oneOfLoop]
  simp only [List.length_cons, List.length_nil, zero_add, e, Outcome.ok_bind, Int.toNat_zero,
    List.getElem?_cons_zero, hw, threshold, if_true, getRandomBool]

/-- C35. `uintervals` does not reject them: a single reversed interval is accepted, and calling the generator is
undefined behaviour. -/
theorem C35_uintervals_reversed_accepted (R : Rng σ) :
    ∃ ws, uintervals R [(5, 3)] = .ok ws ∧ ∀ fuel s, oneOfLoop R ws (fuel + 2) s = .ub := by
  have e1 : uintervalSize (5, 3) = .ok (2 ^ 64 - 1) := by decide
  have e2 : sumSizes uintervalSize [(5, 3)] 0 = .ok (2 ^ 64 - 1) := by decide
  have e3 : assignWeights [(Dbl.ofInt (2 ^ 64 - 1)).divNat (2 ^ 64 - 1)] = .ok [.fin 1] := by decide +kernel
  refine ⟨[{ gen := interval R u64 5 3, weight := .fin 1 }], ?_, fun fuel s => ?_⟩
  · rw [uintervals, e2, Outcome.ok_bind]
    simp only [weightSizes, e1, Outcome.ok_bind, Outcome.pure_eq, oneOf, List.map_cons, List.map_nil]
    have e4 : Int.toNat ((2 : Int) ^ 64 - 1) = (2 : Nat) ^ 64 - 1 := by decide
    rw [e4, e3]
    rfl
  · obtain ⟨s', h⟩ := oneOfLoop_single R { gen := interval R u64 5 3, weight := .fin 1 } rfl (fuel + 1) s
    rw [h, retry]
    simp only [C19_empty_interval R u64 (by simp [all]) 5 3 s' (by decide) (by decide) (by decide)]

/-! ### C74 -/

/-- C74 is violated: the non-empty intervals of sizes 1, 6, 3, 3 are rejected, because 1/13 + 6/13 + 3/13 + 3/13 is
more than 1 in `double` arithmetic. -/
theorem C74_violated (R : Rng σ) : intervals R [(0, 0), (10, 15), (20, 22), (30, 32)] = .throws .runtimeError := by
  have e : sumSizes intervalSize [(0, 0), (10, 15), (20, 22), (30, 32)] 0 = .ok 13 := by decide
  have e1 : intervalSize (0, 0) = .ok 1 := by decide
  have e2 : intervalSize (10, 15) = .ok 6 := by decide
  have e3 : intervalSize (20, 22) = .ok 3 := by decide
  have e4 : intervalSize (30, 32) = .ok 3 := by decide
  have e5 : assignWeights [(Dbl.ofInt 1).divNat 13, (Dbl.ofInt 6).divNat 13, (Dbl.ofInt 3).divNat 13,
    (Dbl.ofInt 3).divNat 13] = .throws .runtimeError := by decide +kernel
  rw [intervals, e, Outcome.ok_bind]
  simp only [weightSizes, e1, e2, e3, e4, Outcome.ok_bind, Outcome.pure_eq, oneOf, List.map_cons, List.map_nil]
  rw [show (13 : Int).toNat = 13 by decide, e5]
  rfl

theorem sumSizes_eq {is : List (Int × Int)} (hd : ∀ i ∈ is, i.1 ≤ i.2 ∧ i.2 - i.1 < 2 ^ 63 - 1) (acc : Int)
    (h0 : 0 ≤ acc) (h : acc + (is.map fun i => i.2 - i.1 + 1).sum < 2 ^ 64) :
    sumSizes intervalSize is acc = .ok (acc + (is.map fun i => i.2 - i.1 + 1).sum) := by
  induction is generalizing acc with
  | nil => simp [sumSizes]
  | cons i is ih =>
    obtain ⟨h1, h2⟩ := hd i (by simp)
    have hnn : 0 ≤ (is.map fun i => i.2 - i.1 + 1).sum := List.sum_nonneg fun x hx => by
      obtain ⟨j, hj, rfl⟩ := List.mem_map.mp hx
      have := hd j (by simp [hj])
      omega
    simp only [List.map_cons, List.sum_cons] at h ⊢
    rw [sumSizes, C35_size i.1 i.2 (by omega) h2, Outcome.ok_bind, if_neg (by omega),
      wrap_id (T := u64) (by simp [all]) (by rw [u64_lo]; omega) (by rw [u64_hi]; omega),
      ih (fun j hj => hd j (by simp [hj])) _ (by omega) (by omega)]
    congr 1
    omega

theorem weightSizes_eq (R : Rng σ) {is : List (Int × Int)} (hd : ∀ i ∈ is, i.1 ≤ i.2 ∧ i.2 - i.1 < 2 ^ 63 - 1) (sum : Nat) :
    ∃ gs, weightSizes R i64 intervalSize sum is = .ok gs ∧
      gs.map (·.weight) = is.map fun i => (Dbl.ofInt (i.2 - i.1 + 1)).divNat sum := by
  induction is with
  | nil => exact ⟨[], rfl, rfl⟩
  | cons i is ih =>
    obtain ⟨h1, h2⟩ := hd i (by simp)
    obtain ⟨gs, e, hg⟩ := ih fun j hj => hd j (by simp [hj])
    refine ⟨_, by rw [weightSizes, C35_size i.1 i.2 (by omega) h2, Outcome.ok_bind, e]; rfl, ?_⟩
    simp [hg]

/-- C74 holds for one interval (whose size does not overflow). Missing: lists of more intervals, see below. -/
theorem C74_one_partial (R : Rng σ) (a b : Int) (h : a ≤ b) (hd : b - a < 2 ^ 63 - 1) :
    ∃ ws, intervals R [(a, b)] = .ok ws := by
  have hall : ∀ i ∈ [(a, b)], i.1 ≤ i.2 ∧ i.2 - i.1 < 2 ^ 63 - 1 := by simpa using ⟨h, hd⟩
  rw [intervals, sumSizes_eq hall 0 (le_refl _) (by simp; omega), Outcome.ok_bind]
  obtain ⟨gs, e, hg⟩ := weightSizes_eq R hall (0 + (List.map (fun i : Int × Int => i.2 - i.1 + 1) [(a, b)]).sum).toNat
  rw [e, Outcome.ok_bind]
  obtain ⟨n, hn⟩ : ∃ n : ℕ, b - a + 1 = n := ⟨(b - a + 1).toNat, by omega⟩
  have hn1 : 1 ≤ n := by omega
  have hw : gs.map (·.weight) = [1].map Dbl.fin := by
    rw [hg]
    simp only [List.map_cons, List.map_nil, List.sum_cons, List.sum_nil, hn, zero_add, add_zero, Int.toNat_natCast, Dbl.ofInt,
      Dbl.divNat]
    rw [if_neg (by omega), Int.cast_natCast, div_self (by have := le_rne_nat hn1; linarith),
      rne_exact (q := 1) (j := 0) (m := 1) (by norm_num) (by norm_num)]
  rw [oneOf, hw, assignWeights_fin _ (by simp)]
  have : fsum [1] 0 = 1 := by decide +kernel
  rw [this, if_neg (lt_irrefl _)]
  split <;> exact ⟨_, rfl⟩

example : (-5 : Int) ≤ 100 ∧ (100 : Int) - -5 < 2 ^ 63 - 1 := by decide

/-- 77 can be generated by `intervals({Interval(-5, 100)})`. -/
example : ∃ ws, intervals script [(-5, 100)] = .ok ws ∧
    ∃ fuel s t s', oneOfLoop script ws fuel s = .ok (t, s') ∧ t.value = 77 := by
  obtain ⟨ws, h⟩ := C74_one_partial script (-5) 100 (by decide) (by decide)
  exact ⟨ws, h, (C35_every_value_possible [(-5, 100)] (by simp) ws (-5, 100) (by simp) 77 (by decide)).1 h
    (by decide) (by decide)⟩

/-- C74 holds for two intervals with at most 2^53 elements together. Missing: longer lists and larger totals. -/
theorem C74_two_partial (R : Rng σ) (a b c d : Int) (h1 : a ≤ b) (h2 : c ≤ d) (hn : (b - a + 1) + (d - c + 1) ≤ 2 ^ 53) :
    ∃ ws, intervals R [(a, b), (c, d)] = .ok ws := by
  have hall : ∀ i ∈ [(a, b), (c, d)], i.1 ≤ i.2 ∧ i.2 - i.1 < 2 ^ 63 - 1 := by
    simp only [List.mem_cons, List.not_mem_nil, or_false, forall_eq_or_imp, forall_eq]
    omega
  rw [intervals, sumSizes_eq hall 0 (le_refl _) (by simp; omega), Outcome.ok_bind]
  obtain ⟨gs, e, hg⟩ := weightSizes_eq R hall (0 + (List.map (fun i : Int × Int => i.2 - i.1 + 1) [(a, b), (c, d)]).sum).toNat
  rw [e, Outcome.ok_bind]
  obtain ⟨m, hm⟩ : ∃ m : ℕ, b - a + 1 = m := ⟨(b - a + 1).toNat, by omega⟩
  obtain ⟨n, hn'⟩ : ∃ n : ℕ, d - c + 1 = n := ⟨(d - c + 1).toNat, by omega⟩
  have hm1 : 1 ≤ m := by omega
  have hn1 : 1 ≤ n := by omega
  have hmn : m + n ≤ 2 ^ 53 := by omega
  have hw : gs.map (·.weight) = [rne ((m : ℚ) / (m + n)), rne ((n : ℚ) / (m + n))].map Dbl.fin := by
    rw [hg]
    simp only [List.map_cons, List.map_nil, List.sum_cons, List.sum_nil, hm, hn', zero_add, add_zero, Dbl.ofInt, Dbl.divNat,
      Int.cast_natCast]
    rw [show ((m : Int) + n).toNat = m + n by omega, if_neg (by omega), if_neg (by omega), rne_nat (n := m) (by omega),
      rne_nat (n := n) (by omega), rne_nat (n := m + n) hmn]
    simp
  have hM : (1 : ℚ) ≤ m := by exact_mod_cast hm1
  have hN : (1 : ℚ) ≤ n := by exact_mod_cast hn1
  have hmq0 : 0 ≤ (m : ℚ) / (m + n) := by positivity
  have hnq0 : 0 ≤ (n : ℚ) / (m + n) := by positivity
  have hsum1 : (m : ℚ) / (m + n) + n / (m + n) = 1 := by field_simp
  have hmq1 : (m : ℚ) / (m + n) < 1 := by rw [div_lt_one (by linarith)]; linarith
  have hnq1 : (n : ℚ) / (m + n) < 1 := by rw [div_lt_one (by linarith)]; linarith
  have hp : (0 : ℚ) < 1 / 2 ^ 53 := by norm_num
  rw [oneOf, hw, assignWeights_fin]
  · have hs : fsum [rne ((m : ℚ) / (m + n)), rne ((n : ℚ) / (m + n))] 0 ≤ 1 := by
      simp only [fsum, List.foldl_cons, List.foldl_nil, zero_add, rne_idem]
      refine rne_le_one (add_nonneg (rne_nonneg hmq0) (rne_nonneg hnq0)) ?_
      have err : ∀ q : ℚ, 0 ≤ q → q < 1 → rne q ≤ q + 1 / 2 ^ 54 := by
        intro q h0 h1
        have := (abs_le.1 (rne_err_le (n := 0) (q := q) (by rw [abs_of_nonneg h0]; simpa using h1))).2
        rw [show (2 : ℚ) ^ ((0 : ℤ) - 54) = 1 / 2 ^ 54 by norm_num [zpow_neg]] at this
        linarith
      have err2 : ∀ q : ℚ, 0 ≤ q → q < 1 / 2 → rne q ≤ q + 1 / 2 ^ 55 := by
        intro q h0 h1
        have := (abs_le.1 (rne_err_le (n := -1) (q := q) (by rw [abs_of_nonneg h0]; simpa using h1))).2
        rw [show (2 : ℚ) ^ ((-1 : ℤ) - 54) = 1 / 2 ^ 55 by norm_num [zpow_neg]] at this
        linarith
      have hc : (1 : ℚ) / 2 ^ 54 + 1 / 2 ^ 55 < 1 / 2 ^ 53 := by norm_num
      rcases lt_trichotomy ((m : ℚ) / (m + n)) (1 / 2) with hlt | heq | hgt
      · have := err2 _ hmq0 hlt
        have := err _ hnq0 hnq1
        linarith
      · have heq' : (n : ℚ) / (m + n) = 1 / 2 := by linarith
        have e : rne (1 / 2) = 1 / 2 := rne_exact (j := 1) (m := 1) (by norm_num) (by norm_num)
        rw [heq, heq', e]
        norm_num
      · have := err _ hmq0 hmq1
        have := err2 _ hnq0 (by linarith)
        linarith
    rw [if_neg (by linarith)]
    split <;> exact ⟨_, rfl⟩
  · intro q hq
    simp only [List.mem_cons, List.not_mem_nil, or_false] at hq
    rcases hq with rfl | rfl
    · exact ⟨rne_nonneg hmq0, rne_le_one hmq0 (by linarith)⟩
    · exact ⟨rne_nonneg hnq0, rne_le_one hnq0 (by linarith)⟩

example : (-5 : Int) ≤ 100 ∧ (200 : Int) ≤ 201 ∧ ((100 : Int) - -5 + 1) + (201 - 200 + 1) ≤ 2 ^ 53 := by decide

/-- C74 holds for any number of intervals if their sizes add up to a power of two up to 2^52. Missing: other
totals. -/
theorem C74_power_partial (R : Rng σ) (is : List (Int × Int)) (hd : ∀ i ∈ is, i.1 ≤ i.2) (k : ℕ) (hk : k ≤ 52)
    (hs : (is.map fun i => i.2 - i.1 + 1).sum = 2 ^ k) : ∃ ws, intervals R is = .ok ws := by
  have hpos : ∀ x ∈ is.map fun i => i.2 - i.1 + 1, 0 ≤ x := by
    intro x hx
    obtain ⟨j, hj, rfl⟩ := List.mem_map.mp hx
    have := hd j hj
    omega
  have hk' : (2 : Int) ^ k ≤ 2 ^ 52 := by exact_mod_cast Nat.pow_le_pow_right (by norm_num : 0 < 2) hk
  have hall : ∀ i ∈ is, i.1 ≤ i.2 ∧ i.2 - i.1 < 2 ^ 63 - 1 := by
    intro i hi
    have := List.single_le_sum hpos (i.2 - i.1 + 1) (List.mem_map_of_mem (f := fun i : Int × Int => i.2 - i.1 + 1) hi)
    have := hd i hi
    omega
  rw [intervals, sumSizes_eq hall 0 (le_refl _) (by rw [hs]; omega), Outcome.ok_bind, hs, zero_add]
  obtain ⟨gs, e, hg⟩ := weightSizes_eq R hall ((2 : Int) ^ k).toNat
  rw [e, Outcome.ok_bind]
  have hkn : ((2 : Int) ^ k).toNat = 2 ^ k := by
    rw [show ((2 : Int) ^ k) = ((2 ^ k : ℕ) : Int) by push_cast; rfl, Int.toNat_natCast]
  have hkn' : 2 ^ k ≤ 2 ^ 52 := Nat.pow_le_pow_right (by norm_num) hk
  have hw : gs.map (·.weight) = (is.map fun i => (i.2 - i.1 + 1).toNat * 2 ^ (52 - k)).map
      fun m : ℕ => Dbl.fin ((m : ℚ) / 2 ^ 52) := by
    rw [hg, List.map_map]
    refine List.map_congr_left fun i hi => ?_
    obtain ⟨g1, g2⟩ := hall i hi
    obtain ⟨n, hn⟩ : ∃ n : ℕ, i.2 - i.1 + 1 = n := ⟨(i.2 - i.1 + 1).toNat, by omega⟩
    have hle := List.single_le_sum hpos (i.2 - i.1 + 1) (List.mem_map_of_mem (f := fun i : Int × Int => i.2 - i.1 + 1) hi)
    have hn53 : n ≤ 2 ^ 52 := by have := hle.trans_eq hs; rw [hn] at this; zify; push_cast; omega
    simp only [Function.comp, hn, hkn, Int.toNat_natCast, Dbl.ofInt, Dbl.divNat, Int.cast_natCast]
    rw [if_neg (by positivity), rne_nat (n := n) (by omega), rne_nat (n := 2 ^ k) (by omega)]
    have e2 : (2 : ℚ) ^ 52 = 2 ^ k * 2 ^ (52 - k) := by rw [← pow_add]; congr 1; omega
    have e3 : (n : ℚ) / ((2 ^ k : ℕ) : ℚ) = ((n * 2 ^ (52 - k) : ℕ) : ℚ) / 2 ^ 52 := by
      rw [e2]; push_cast; field_simp
    rw [e3]
    congr 1
    refine rne_exact (j := 52) (m := (n * 2 ^ (52 - k) : ℕ)) ?_ ?_
    · rw [show ((2 : ℚ) ^ (52 : ℤ)) = 2 ^ 52 by norm_cast, div_mul_cancel₀ _ (by positivity)]; norm_cast
    · have hle' : n ≤ 2 ^ k := by have := hle.trans_eq hs; rw [hn] at this; zify; push_cast; exact this
      have : n * 2 ^ (52 - k) ≤ 2 ^ 52 := by
        calc n * 2 ^ (52 - k) ≤ 2 ^ k * 2 ^ (52 - k) := Nat.mul_le_mul_right _ hle'
          _ = 2 ^ 52 := by rw [← pow_add]; congr 1; omega
      rw [abs_of_nonneg (by positivity)]
      zify at this
      push_cast at this ⊢
      norm_num at this ⊢
      omega
  have hsum : (is.map fun i => (i.2 - i.1 + 1).toNat * 2 ^ (52 - k)).sum = 2 ^ 52 := by
    have hmul : ∀ (l : List (Int × Int)), (l.map fun i => (i.2 - i.1 + 1).toNat * 2 ^ (52 - k)).sum =
        (l.map fun i => (i.2 - i.1 + 1).toNat).sum * 2 ^ (52 - k) := by
      intro l
      induction l with
      | nil => simp
      | cons i l ih => simp only [List.map_cons, List.sum_cons, ih, Nat.add_mul]
    rw [hmul]
    have : (is.map fun i => (i.2 - i.1 + 1).toNat).sum = 2 ^ k := by
      zify
      rw [← hs]
      clear hs hw hg e hpos hd
      induction is with
      | nil => rfl
      | cons i is ih =>
        have := hall i (by simp)
        simp only [List.map_cons, List.sum_cons, Nat.cast_add]
        rw [ih fun j hj => hall j (by simp [hj])]
        congr 1
        omega
    rw [this, ← pow_add]; congr 1; omega
  have hq : ∀ q ∈ (is.map fun i => (i.2 - i.1 + 1).toNat * 2 ^ (52 - k)).map (fun m : ℕ => (m : ℚ) / 2 ^ 52), 0 ≤ q ∧ q ≤ 1 := by
    intro q hq
    obtain ⟨m, hm, rfl⟩ := List.mem_map.mp hq
    have := List.le_sum_of_mem hm
    rw [hsum] at this
    refine ⟨by positivity, ?_⟩
    rw [div_le_one (by positivity)]
    exact_mod_cast this
  obtain ⟨f1, -⟩ := fsum_exact (is.map fun i => (i.2 - i.1 + 1).toNat * 2 ^ (52 - k)) 0 (by norm_num)
  simp only [Nat.cast_zero, zero_div, zero_add] at f1
  have hw' : gs.map (·.weight) = ((is.map fun i => (i.2 - i.1 + 1).toNat * 2 ^ (52 - k)).map
      (fun m : ℕ => (m : ℚ) / 2 ^ 52)).map Dbl.fin := by rw [hw]; simp only [List.map_map]; rfl
  rw [oneOf, hw', assignWeights_fin _ hq, f1 hsum.le, hsum, if_neg (by norm_num)]
  split <;> exact ⟨_, rfl⟩

example : ([((1 : Int), (3 : Int)), (10, 13), (20, 20)].map fun i => i.2 - i.1 + 1).sum = 2 ^ 3 := by decide

/-! ### C84 unicode -/

/-- The alternatives `unicode` chooses from. -/
theorem unicodeGen_eq : ∃ q1 q2 : ℚ, 0 ≤ q1 ∧ q1 ≤ 1 ∧ 0 ≤ q2 ∧ q2 ≤ 1 ∧ ∀ {σ : Type} (R : Rng σ),
    oneOf [({ gen := interval R .u32 0x1 0xD7FF, weight := .fin q1 } : Weighted σ Int),
      { gen := interval R .u32 0xE000 0x10FFFF, weight := .fin q2 }] =
      .ok [{ gen := interval R .u32 0x1 0xD7FF, weight := .fin q1 },
      { gen := interval R .u32 0xE000 0x10FFFF, weight := .fin q2 }] ∧
    ∀ fuel s, unicodeGen R fuel s = oneOfLoop R [{ gen := interval R .u32 0x1 0xD7FF, weight := .fin q1 },
      { gen := interval R .u32 0xE000 0x10FFFF, weight := .fin q2 }] fuel s := by
  have ha : assignWeights [(Dbl.ofInt 55295).divNat 1112063, (Dbl.ofInt 1056768).divNat 1112063] =
    .ok [(Dbl.ofInt 55295).divNat 1112063, (Dbl.ofInt 1056768).divNat 1112063] := by decide +kernel
  obtain ⟨q1, e1⟩ : ∃ q, (Dbl.ofInt 55295).divNat 1112063 = .fin q := ⟨_, rfl⟩
  obtain ⟨q2, e2⟩ : ∃ q, (Dbl.ofInt 1056768).divNat 1112063 = .fin q := ⟨_, rfl⟩
  rw [e1, e2] at ha
  have ho : ∀ {σ : Type} (R : Rng σ), oneOf [({ gen := interval R .u32 0x1 0xD7FF, weight := .fin q1 } : Weighted σ Int),
      { gen := interval R .u32 0xE000 0x10FFFF, weight := .fin q2 }] =
      .ok [{ gen := interval R .u32 0x1 0xD7FF, weight := .fin q1 },
      { gen := interval R .u32 0xE000 0x10FFFF, weight := .fin q2 }] := by
    intro σ R
    simp only [oneOf, List.map_cons, List.map_nil, ha, Outcome.ok_bind, Outcome.pure_eq]
    rfl
  have hr := C34_result_range _ _ [q1, q2] rfl (ho script)
  obtain ⟨_, h1, h10, h11⟩ := hr _ List.mem_cons_self
  obtain ⟨_, h2, h20, h21⟩ := hr _ (List.mem_cons_of_mem _ List.mem_cons_self)
  cases h1
  cases h2
  refine ⟨q1, q2, h10, h11, h20, h21, fun R => ⟨ho R, fun fuel s => ?_⟩⟩
  unfold unicodeGen
  simp only [Nat.reduceSub, Nat.reduceAdd, Nat.cast_ofNat]
  rw [e1, e2, ho, Outcome.ok_bind]

/-- C84. `unicode` never throws and has no undefined behaviour: it returns (or is still throwing dice), and every
value generated or reachable by shrinking is a Unicode scalar value other than 0. -/
theorem C84_unicode (R : Rng σ) (fuel : Nat) (s : σ) :
    unicodeGen R fuel s = .diverges ∨ ∃ t s', unicodeGen R fuel s = .ok (t, s') ∧
      ∀ v, Reach t v → 1 ≤ v ∧ v ≤ 0x10FFFF ∧ ¬ (0xD800 ≤ v ∧ v ≤ 0xDFFF) := by
  obtain ⟨q1, q2, -, -, -, -, h⟩ := unicodeGen_eq
  obtain ⟨ho, eu⟩ := h R
  rw [eu]
  rcases C33_no_other_outcome R _ _ [q1, q2] rfl ho (by simp) (by simp) fuel s with h | ⟨g, hg, s₀, h, -⟩
  · exact .inl h
  · refine .inr ?_
    rw [h]
    simp only [List.mem_cons, List.not_mem_nil, or_false] at hg
    rcases hg with rfl | rfl
    · obtain ⟨t, s', e, hgood⟩ := C17_interval R .u32 (by simp [all]) 0x1 0xD7FF s₀ (by decide) (by decide) (by decide)
      exact ⟨t, s', e, fun v hv => by have := hgood.1 v hv; omega⟩
    · obtain ⟨t, s', e, hgood⟩ := C17_interval R .u32 (by simp [all]) 0xE000 0x10FFFF s₀ (by decide) (by decide) (by decide)
      exact ⟨t, s', e, fun v hv => by have := hgood.1 v hv; omega⟩

/-- C84. Each of these values can be generated. -/
theorem C84_every_value_possible (v : Int) (h : 1 ≤ v ∧ v ≤ 0x10FFFF ∧ ¬ (0xD800 ≤ v ∧ v ≤ 0xDFFF)) :
    ∃ fuel s t s', unicodeGen script fuel s = .ok (t, s') ∧ t.value = v := by
  obtain ⟨q1, q2, h10, h11, h20, h21, h'⟩ := unicodeGen_eq
  obtain ⟨ho, eu⟩ := h' script
  by_cases hv : v ≤ 0xD7FF
  · obtain ⟨r, t, s', e, ev⟩ := C17_every_value_possible .u32 (by simp [all]) 0x1 0xD7FF v (by decide) h.1 hv (by decide)
    obtain ⟨draws, hd⟩ := C33_every_alternative_possible [{ gen := interval script .u32 0x1 0xD7FF, weight := .fin q1 },
      { gen := interval script .u32 0xE000 0x10FFFF, weight := .fin q2 }] 0 (by simp) (by simp) q1 rfl h10 h11 r 1
    refine ⟨2, draws ++ r, t, s', ?_, ev⟩
    rw [eu, hd]
    simp only [List.getElem_cons_zero, retry, e]
  · obtain ⟨r, t, s', e, ev⟩ := C17_every_value_possible .u32 (by simp [all]) 0xE000 0x10FFFF v (by decide) (by omega) h.2.1 (by decide)
    obtain ⟨draws, hd⟩ := C33_every_alternative_possible [{ gen := interval script .u32 0x1 0xD7FF, weight := .fin q1 },
      { gen := interval script .u32 0xE000 0x10FFFF, weight := .fin q2 }] 1 (by simp) (by simp) q2 rfl h20 h21 r 1
    refine ⟨2, draws ++ r, t, s', ?_, ev⟩
    rw [eu, hd]
    simp only [List.getElem_cons_succ, List.getElem_cons_zero, retry, e]

/-- A grinning face. -/
example : ∃ fuel s t s', unicodeGen script fuel s = .ok (t, s') ∧ t.value = 0x1F600 :=
  C84_every_value_possible _ (by decide)

end Verif
