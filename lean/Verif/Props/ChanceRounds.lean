import Verif.Lemmas.Rounds
import Verif.Props.ChanceSet
import Verif.Props.ChanceOneOf
import Verif.Lemmas.ChanceIntervals
/-
C166: how many rounds the loops of generators take on average (Spec/Rounds.lean).
-/
namespace Verif
open Shr Random ListLike Containers Comb Integral IntType
variable {σ α β : Type}

/-! ### Filters -/

/-- C166. The number of rounds is the number of calls of the filtered generator: if, with calls counted, the count
goes from `a` to `b`, then the generator returns if it is given at least `b - a` rounds, and not before. -/
theorem C166_filter_calls (g : Gen σ α) (c : α → Bool) (n : Nat) (s s' : σ) (a b : Nat) (t : Shr α)
    (h : filter (counted g) c n (s, a) = .ok (t, s', b)) :
    a < b ∧ ∀ m, filter g c m s = if b ≤ a + m then .ok (t, s') else .diverges := by
  induction n generalizing s a with
  | zero => exact absurd h (by simp [Comb.filter])
  | succ n ih =>
    simp only [Comb.filter, counted] at h
    cases hg : g s with
    | ok r =>
      obtain ⟨x, s1⟩ := r
      simp only [hg, Outcome.ok_bind, Outcome.pure_eq] at h
      by_cases hc : c x.value = true
      · rw [if_pos hc] at h
        simp only [filterTol, if_pos hc, Outcome.ok_bind, Outcome.ok.injEq, Prod.mk.injEq] at h
        obtain ⟨h1, rfl, rfl⟩ := h
        refine ⟨by omega, fun m => ?_⟩
        cases m with
        | zero => rw [if_neg (by omega)]; rfl
        | succ m =>
          rw [if_pos (by omega)]
          simp only [Comb.filter, hg, Outcome.ok_bind, Outcome.pure_eq]
          rw [if_pos hc]
          simp only [filterTol, if_pos hc, Outcome.ok_bind, h1]
      · rw [if_neg hc] at h
        obtain ⟨h1, h2⟩ := ih s1 (a + 1) h
        refine ⟨by omega, fun m => ?_⟩
        cases m with
        | zero => rw [if_neg (by omega)]; rfl
        | succ m =>
          simp only [Comb.filter, hg, Outcome.ok_bind]
          rw [if_neg hc, h2 m]
          congr 1
          exact propext (by omega)
    | throws x => rw [hg] at h; cases h
    | ub => rw [hg] at h; cases h
    | diverges => rw [hg] at h; cases h

/-- A generator of 0, 1, 2, ... filtered by `n % 5 == 4` is called five times for the first result. -/
example : ∃ t, Comb.filter (counted fun n => .ok (leaf n, n + 1)) (fun v => decide (v % 5 = 4)) 10 (0, 0) = .ok (t, 5, 5) :=
  ⟨_, rfl⟩

/-- C166. A generator filtered by a condition that holds with probability `p` is called `1/p` times on average. -/
theorem C166_filter (g : Src (Shr α)) (c : α → Bool) (p : ℚ) (hg : Chance g (fun _ => true) 1)
    (hc : Chance g (fun t => c t.value) p) (hp : 0 < p) :
    MeanRounds (fun m σ R s => filter (g σ R) c m s) (1 / p) ∧
      ∀ m, Chance (fun σ R s => filter (g σ R) c m s) (fun _ => true) (1 - (1 - p) ^ m) := by
  obtain ⟨e, he, h1⟩ := hg
  have h2 : e.mean (hit fun t => c t.value) = p := chance_unique ⟨e, he, rfl⟩ hc
  have h4 : e.mean (hit fun t => !c t.value) = 1 - p := by
    rw [← h1, ← h2, eq_sub_iff_add_eq, ← Exp.mean_add]
    congr 1
    funext o
    cases o with
    | ok t => cases h : c t.value <;> simp [hit, h]
    | _ => simp [hit]
  have h5 : 0 ≤ 1 - p := by
    rw [← h4, hit_eq]
    refine le_of_eq_of_le (Exp.mean_const 0 he.1).symm (Exp.mean_le (fun o => ?_) he.1)
    cases o with
    | ok t => simp only [val]; split_ifs <;> norm_num
    | _ => simp [val]
  have key : ∀ m, Chance (fun σ R s => filter (g σ R) c m s) (fun _ => true) (1 - (1 - p) ^ m) := by
    intro m
    refine ⟨_, follows_filter he c m, ?_⟩
    induction m with
    | zero => simp [filterExp, Exp.mean, hit]
    | succ m ih =>
      have := mean_filter e c (fun _ => true) m
      simp only [Bool.true_and] at this
      rw [this, ih, h2, h4, pow_succ]
      ring
  refine ⟨?_, key⟩
  have := meanRounds_geometric h5 (by linarith) key
  rwa [sub_sub_cancel] at this

/-- A die of which only throws above 4 count is thrown three times on average, and more than ten times with a
probability of (2/3)^10. -/
example : MeanRounds (fun m σ R s => filter (die σ R) (fun v => decide (4 < v)) m s) 3 ∧
    Chance (fun σ R s => filter (die σ R) (fun v => decide (4 < v)) 10 s) (fun _ => true) (1 - (2 / 3) ^ 10) := by
  obtain ⟨h1, h2⟩ := C166_filter die (fun v => decide (4 < v)) ((2 : Nat) / 6) die_returns
    (die_chance (fun v => decide (4 < v)) 2 (by decide)) (by norm_num)
  have h3 := h2 10
  norm_num at h1 h3 ⊢
  exact ⟨h1, h3⟩

/-! ### Sets and maps -/

/-- C166. The number of rounds is the number of calls of the element generator. -/
theorem C166_set_calls [LinearOrder α] (g : Gen σ α) (size n : Nat) (acc xs : List (Shr α)) (s s' : σ) (a b : Nat)
    (h : fillSet (counted g) size n acc (s, a) = .ok (xs, s', b)) :
    a ≤ b ∧ ∀ m, fillSet g size m acc s = if b ≤ a + m then .ok (xs, s') else .diverges := by
  induction n generalizing acc s a with
  | zero =>
    unfold fillSet at h
    split at h
    · cases h
    · next hl =>
      cases h
      refine ⟨le_rfl, fun m => ?_⟩
      rw [if_pos (by omega)]
      cases m <;> simp only [fillSet, if_neg hl]
  | succ n ih =>
    unfold fillSet at h
    split at h
    · next hl =>
      simp only [counted] at h
      cases hg : g s with
      | ok r =>
        obtain ⟨x, s1⟩ := r
        simp only [hg, Outcome.ok_bind, Outcome.pure_eq] at h
        obtain ⟨h1, h2⟩ := ih _ s1 (a + 1) h
        refine ⟨by omega, fun m => ?_⟩
        cases m with
        | zero => rw [if_neg (by omega)]; simp only [fillSet, if_pos hl]
        | succ m =>
          simp only [fillSet, if_pos hl, hg, Outcome.ok_bind]
          rw [h2 m]
          congr 1
          exact propext (by omega)
      | throws x => rw [hg] at h; cases h
      | ub => rw [hg] at h; cases h
      | diverges => rw [hg] at h; cases h
    · next hl =>
      cases h
      refine ⟨le_rfl, fun m => ?_⟩
      rw [if_pos (by omega)]
      cases m <;> simp only [fillSet, if_neg hl]

/-- A set of three elements takes five calls of a generator of 0, 0, 1, 1, 2, ... -/
example : ∃ xs, fillSet (counted fun n => .ok (leaf (n / 2), n + 1)) 3 10 [] (0, 0) = .ok (xs, 5, 5) := ⟨_, rfl⟩

theorem meanRounds_filled [LinearOrder α] {γ : Type} (g : Src (Shr α)) (minSize maxSize : Nat) (hm : minSize ≤ maxSize)
    (hmax : maxSize < 2 ^ 32) (U : List α) (hU : U.Nodup) (hn : maxSize ≤ U.length) (hg : Chance g (fun _ => true) 1)
    (hp : ∀ v ∈ U, Chance g (fun t => decide (t.value = v)) (1 / U.length))
    (cont : List (Shr α) → Src γ) (ce : List (Shr α) → Exp (Outcome γ)) (hc : ∀ xs, Follows (cont xs) (ce xs))
    (hG : ∀ xs, SortedBy Shr.value xs → minSize ≤ xs.length → (ce xs).mean (hit fun _ => true) = 1) :
    MeanRounds (fun m σ R s => do
      let (size, s) ← getRandomSize R minSize (maxSize + 1) s
      let (xs, s) ← fillSet (g σ R) size.toNat m [] s
      cont xs σ R s)
      ((∑ k ∈ Finset.Icc minSize maxSize, ∑ j ∈ Finset.range k, (U.length : ℚ) / (U.length - j)) /
        (maxSize - minSize + 1)) := by
  obtain ⟨e, he, hret⟩ := hg
  have hp' : ∀ v ∈ U, e.mean (hit fun t => decide (t.value = v)) = 1 / U.length :=
    fun v hv => (chance_unique (hp v hv) ⟨e, he, rfl⟩).symm
  have hN : (1 : ℚ) ≤ maxSize - minSize + 1 := by
    have : (minSize : ℚ) ≤ maxSize := by exact_mod_cast hm
    linarith
  have hcard : ((Finset.Icc minSize maxSize).card : ℚ) = maxSize - minSize + 1 := by
    rw [Nat.card_Icc, Nat.cast_sub (by omega)]
    push_cast
    ring
  have hfill : ∀ m k, k ∈ Finset.Icc minSize maxSize →
      (fillExp e k m []).mean (val fun _ => 1) = 1 - lacking U.length k m k := by
    intro m k hk
    rw [Finset.mem_Icc] at hk
    rcases Nat.eq_zero_or_pos k with h0 | h0
    · subst h0
      cases m <;> simp [fillExp, Exp.mean, val, lacking]
    · exact mean_lacking e he.1 hret U hU hp' (fun h => by rw [h] at hn; simp at hn; omega) k m [] k (by simp [SortedBy])
        (by simp) (by simp)
  have hch := fun m => chance_filled_all he minSize maxSize hm hmax m cont ce hc hG
  rcases Nat.eq_zero_or_pos U.length with hl0 | hpos
  · obtain rfl : maxSize = 0 := by omega
    obtain rfl : minSize = 0 := by omega
    refine ⟨_, hch, fun ε hε => ⟨0, fun M _ => ?_⟩⟩
    have : ∀ m, (fillExp e 0 m []).mean (val fun _ => 1) = 1 := fun m => by
      cases m <;> simp [fillExp, Exp.mean, val]
    simpa [this] using hε
  have hnq : (1 : ℚ) ≤ U.length := by exact_mod_cast hpos
  have i1 : 0 < 1 / (2 * U.length : ℚ) := by positivity
  have i2 : 1 / (2 * U.length : ℚ) ≤ 1 := by rw [div_le_one (by linarith)]; linarith
  refine meanRounds_of_bound (C := (2 * U.length) ^ maxSize) (ρ := 1 - 1 / (2 * U.length)) (by linarith) (by linarith) hch
    fun M => ?_
  have e1 : ∑ m ∈ Finset.range M, (1 - (∑ k ∈ Finset.Icc minSize maxSize, (fillExp e k m []).mean (val fun _ => 1)) /
      (maxSize - minSize + 1 : ℚ)) =
      (∑ k ∈ Finset.Icc minSize maxSize, ∑ m ∈ Finset.range M, lacking U.length k m k) / (maxSize - minSize + 1) := by
    rw [Finset.sum_comm, div_eq_mul_inv, Finset.sum_mul]
    refine Finset.sum_congr rfl fun m _ => ?_
    rw [Finset.sum_congr rfl (hfill m), Finset.sum_sub_distrib, Finset.sum_const, nsmul_eq_mul, mul_one, hcard]
    field_simp
    ring
  rw [e1, ← sub_div, abs_div, abs_of_pos (by linarith : (0 : ℚ) < maxSize - minSize + 1), ← Finset.sum_sub_distrib,
    div_le_iff₀ (by linarith)]
  refine (Finset.abs_sum_le_sum_abs _ _).trans ?_
  have hb : ∀ k ∈ Finset.Icc minSize maxSize,
      |∑ m ∈ Finset.range M, lacking U.length k m k - ∑ j ∈ Finset.range k, (U.length : ℚ) / (U.length - j)| ≤
        (2 * U.length) ^ maxSize * (1 - 1 / (2 * U.length)) ^ M := by
    intro k hk
    rw [Finset.mem_Icc] at hk
    have := lacking_bound (n := U.length) (k := k) (by omega) hpos M k le_rfl
    rw [meanDraws_eq _ _ _ le_rfl, Nat.sub_self, ← Finset.range_eq_Ico] at this
    refine this.trans (mul_le_mul_of_nonneg_right ?_ (pow_nonneg (by linarith) M))
    exact pow_le_pow_right₀ (by linarith) hk.2
  refine (Finset.sum_le_sum hb).trans ?_
  rw [Finset.sum_const, nsmul_eq_mul, hcard, mul_comm]

/-- C166. A set is filled with values of which `n` are equally likely: the `j+1`-st new element takes `n/(n-j)` draws
on average, and every size has the same probability. -/
theorem C166_set [LinearOrder α] (g : Src (Shr α)) (minSize maxSize : Nat) (hm : minSize ≤ maxSize)
    (hmax : maxSize < 2 ^ 32) (U : List α) (hU : U.Nodup) (hn : maxSize ≤ U.length) (hg : Chance g (fun _ => true) 1)
    (hp : ∀ v ∈ U, Chance g (fun t => decide (t.value = v)) (1 / U.length)) :
    MeanRounds (fun m σ R s => arbiSet R (g σ R) minSize maxSize m s)
      ((∑ k ∈ Finset.Icc minSize maxSize, ∑ j ∈ Finset.range k, (U.length : ℚ) / (U.length - j)) /
        (maxSize - minSize + 1)) :=
  meanRounds_filled g minSize maxSize hm hmax U hU hn hg hp
    (fun xs σ R s => (shrinkSet xs minSize).bind fun t => .ok (t, s)) (fun xs => .ret (shrinkSet xs minSize))
    (fun xs => Follows.const _) fun xs hs hl => by
      obtain ⟨t, e1, -⟩ := set_value hs hl
      simp [Exp.mean, e1, hit]

theorem die_each (v : Int) (hv : v ∈ [1, 2, 3, 4, 5, 6]) :
    Chance die (fun t => decide (t.value = v)) (1 / ([1, 2, 3, 4, 5, 6] : List Int).length) := by
  have h : v ∈ Finset.Icc (1 : Int) 6 := by
    simp only [List.mem_cons, List.not_mem_nil, or_false] at hv
    rw [Finset.mem_Icc]
    omega
  have := die_chance (fun w => decide (w = v)) 1 (by
    rw [Finset.card_eq_one]
    refine ⟨v, Finset.ext fun w => ?_⟩
    rw [Finset.mem_filter, Finset.mem_singleton]
    simp only [decide_eq_true_eq]
    exact ⟨fun hh => hh.2, fun hh => ⟨hh ▸ h, hh⟩⟩)
  norm_num at this ⊢
  exact this

/-- To see all sides of a die one has to throw it 14.7 times on average. -/
example : MeanRounds (fun m σ R s => arbiSet R (die σ R) 6 6 m s) (147 / 10) := by
  have := C166_set die 6 6 (by norm_num) (by norm_num) [1, 2, 3, 4, 5, 6] (by decide) (by simp) die_returns die_each
  norm_num [Finset.sum_range_succ] at this ⊢
  exact this

theorem many_returns {e : Exp (Outcome (Shr β))} (h : e.mean (hit fun _ => true) = 1) (n : Nat) :
    (manyExp e n).mean (hit fun _ => true) = 1 := by
  have h' : e.mean (val fun _ => 1) = 1 := by rw [hit_eq] at h; simpa using h
  have key : (manyExp e n).mean (val fun _ => 1) = 1 := by
    induction n with
    | zero => simp [manyExp, Exp.mean, val]
    | succ n ih =>
      rw [manyExp, mean_andThen]
      have : ∀ x : Shr β, ((manyExp e n).andThen fun xs => .ret (.ok (x :: xs))).mean (val fun _ => 1) = 1 := by
        intro x
        rw [mean_andThen]
        exact ih
      simp only [this]
      exact h'
  rw [← key, hit_eq]
  simp

/-- C166. The same for the keys of a map. -/
theorem C166_map [LinearOrder α] (g : Src (Shr α)) (h : Src (Shr β)) (minSize maxSize : Nat) (hm : minSize ≤ maxSize)
    (hmax : maxSize < 2 ^ 32) (U : List α) (hU : U.Nodup) (hn : maxSize ≤ U.length) (hg : Chance g (fun _ => true) 1)
    (hp : ∀ v ∈ U, Chance g (fun t => decide (t.value = v)) (1 / U.length)) (hh : Chance h (fun _ => true) 1) :
    MeanRounds (fun m σ R s => arbiMap R (g σ R) (h σ R) minSize maxSize m s)
      ((∑ k ∈ Finset.Icc minSize maxSize, ∑ j ∈ Finset.range k, (U.length : ℚ) / (U.length - j)) /
        (maxSize - minSize + 1)) := by
  obtain ⟨e2, he2, hr⟩ := hh
  refine meanRounds_filled g minSize maxSize hm hmax U hU hn hg hp _ _ (follows_entries he2 minSize) fun xs hs hx => ?_
  exact (mean_entries e2 minSize hs hx fun _ _ => true).trans (many_returns hr xs.length)

/-- Maps from the sides of a die to numbers. -/
example : MeanRounds (fun m σ R s => arbiMap R (die σ R) (die σ R) 1 2 m s) (8 / 5) := by
  have := C166_map die die 1 2 (by norm_num) (by norm_num) [1, 2, 3, 4, 5, 6] (by decide) (by simp) die_returns die_each
    die_returns
  norm_num [Finset.sum_range_succ, Finset.sum_Icc_succ_top] at this ⊢
  exact this

/-! ### oneOf -/

/-- C166. The number of rounds of `oneOf`, in each of which one of the `n` alternatives is picked and then either
accepted, with a probability that is its weight, or not: `n` divided by the sum of the weights on average (up to the
precision of the comparison, 2^-64). So the more alternatives, the more rounds, although the result is but one. -/
theorem C166_oneOf (alts : List (Src (Shr α) × Dbl)) (qs : List ℚ)
    (hw : assignWeights (alts.map (·.2)) = .ok (qs.map Dbl.fin)) (hq : ∀ q ∈ qs, 0 ≤ q ∧ q ≤ 1)
    (hne : alts ≠ []) (hlen : alts.length ≤ 2 ^ 32) (hd : ∀ a ∈ alts, NoDiscard a.1)
    (hret : ∀ a ∈ alts, Chance a.1 (fun _ => true) 1) :
    ∃ μ, MeanRounds (fun m => oneOfCall alts (m + 1)) μ ∧
      alts.length / (qs.sum + alts.length / 2 ^ 64) ≤ μ ∧ (0 < qs.sum → μ ≤ alts.length / qs.sum) := by
  obtain ⟨h1, h2, h3⟩ := chance_oneOf_rounds alts qs (List.replicate alts.length 1) (fun _ => true) hw hq hne hlen hd (by
    clear hw hne hlen hd
    induction alts with
    | nil => exact .nil
    | cons a as ih => exact .cons (hret a (by simp)) (ih fun b hb => hret b (by simp [hb])))
  have hlq : qs.length = alts.length := by simpa using assignWeights_length hw
  have hn : (0 : ℚ) < alts.length := by exact_mod_cast List.length_pos_iff.2 hne
  have hz : (List.zipWith (fun q p => accepting q * p) qs (List.replicate alts.length 1)).sum = (qs.map accepting).sum := by
    rw [← hlq]
    clear hlq h1 h2 h3 hw hq
    induction qs with
    | nil => rfl
    | cons q qs ih => simp only [List.length_cons, List.replicate_succ, List.zipWith_cons_cons, List.sum_cons, ih,
        List.map_cons, mul_one]
  rw [hz] at h3
  have hnpos : (0 : ℚ) < alts.length * 2 ^ 64 := lt_of_lt_of_le h1 h2
  have r1 : (qs.map accepting).sum / (alts.length * 2 ^ 64) ≤ 1 := (div_le_one hnpos).2 h2
  have r0 : 0 < (qs.map accepting).sum / (alts.length * 2 ^ 64) := div_pos h1 hnpos
  have h4 := meanRounds_geometric (f := fun m => oneOfCall alts (m + 1))
    (r := 1 - (qs.map accepting).sum / (alts.length * 2 ^ 64)) (by linarith) (by linarith) (fun m => by
      have := h3 m
      rwa [div_self h1.ne', mul_one] at this)
  have hb : qs.sum * 2 ^ 64 ≤ (qs.map accepting).sum ∧ (qs.map accepting).sum ≤ qs.sum * 2 ^ 64 + qs.length := by
    clear h1 h2 h3 h4 hz hlq hw r1 r0
    induction qs with
    | nil => simp
    | cons q qs ih =>
      have i1 := ih fun a ha => hq a (by simp [ha])
      have i2 := accepting_bounds (hq q (by simp)).1 (hq q (by simp)).2
      simp only [List.map_cons, List.sum_cons, List.length_cons]
      push_cast
      constructor <;> linarith [i2.2.2.1, i2.2.2.2]
  rw [hlq] at hb
  refine ⟨_, h4, ?_, fun hs => ?_⟩
  · rw [sub_sub_cancel, one_div_div]
    have hs : 0 ≤ qs.sum := List.sum_nonneg fun q h => (hq q h).1
    have hd : 0 < qs.sum + alts.length / 2 ^ 64 := by positivity
    rw [div_le_div_iff₀ hd h1]
    have e : (alts.length : ℚ) * 2 ^ 64 * (qs.sum + alts.length / 2 ^ 64) =
        alts.length * (qs.sum * 2 ^ 64 + alts.length) := by
      field_simp
    rw [e]
    exact mul_le_mul_of_nonneg_left hb.2 hn.le
  · rw [sub_sub_cancel, one_div_div, div_le_div_iff₀ h1 hs]
    have := mul_le_mul_of_nonneg_left hb.1 hn.le
    linarith

theorem die_noDiscard : NoDiscard die := fun _ R s =>
  no_discard_interval i32 (by decide) (1, 6) (by decide) (by decide) (by decide) _ R s

/-- `oneOf` of a die with weight 0.75 and another one. -/
example : ∃ μ, MeanRounds (fun m => oneOfCall [(die, .fin (3 / 4)), (die, .fin 0)] (m + 1)) μ ∧
    2 / (1 + 2 / 2 ^ 64) ≤ μ ∧ μ ≤ 2 := by
  obtain ⟨μ, h1, h2, h3⟩ := C166_oneOf [(die, .fin (3 / 4)), (die, .fin 0)] [3 / 4, 1 / 4] (by decide +kernel)
    (by norm_num) (by simp) (by simp) (by
      intro a ha
      simp only [List.mem_cons, List.not_mem_nil, or_false] at ha
      rcases ha with rfl | rfl <;> exact die_noDiscard) (by
      intro a ha
      simp only [List.mem_cons, List.not_mem_nil, or_false] at ha
      rcases ha with rfl | rfl <;> exact die_returns)
  have h4 := h3 (by norm_num)
  norm_num at h2 h4
  exact ⟨μ, h1, by norm_num; exact h2, h4⟩

end Verif
