import Verif.Spec.ChanceDiscard
import Verif.Lemmas.ChanceNested
/-
Alternatives of `oneOf` that may discard.
-/
namespace Verif
open Shr Random Comb Filter Topology
variable {α : Type}

/-- At most `m` attempts of a generator that may discard. -/
def retryExp (e : Exp (Outcome (Option (Shr α)))) : Nat → Exp (Outcome (Shr α))
  | 0 => .ret .diverges
  | m + 1 => e.andThen fun o => match o with
    | some t => .ret (.ok t)
    | none => retryExp e m

theorem follows_retry {h : Src (Option (Shr α))} {e : Exp (Outcome (Option (Shr α)))} (he : Follows h e)
    (hd : ∀ (σ : Type) (R : Rng σ) (s : σ), h σ R s ≠ .throws .discard) (w : Dbl) (m : Nat) :
    Follows (fun σ R s => retry (mayDiscard (h σ R) w) m s) (retryExp e m) := by
  induction m with
  | zero => exact ⟨trivial, fun _ _ _ => rfl⟩
  | succ m ih =>
    refine (he.bind (g := fun o => match o with
      | some t => fun _ _ s => .ok (t, s)
      | none => fun σ R s => retry (mayDiscard (h σ R) w) m s) fun o => ?_).congr fun σ R s => ?_
    · cases o with
      | none => exact ih
      | some t => exact Follows.pure t
    · have := hd σ R s
      rw [retry]
      simp only [mayDiscard]
      cases hh : h σ R s with
      | ok r =>
        obtain ⟨o, s'⟩ := r
        cases o with
        | none => rfl
        | some t => rfl
      | throws x =>
        cases x <;> first | (exact absurd hh this) | rfl
      | ub => rfl
      | diverges => rfl

/-- The probability of a return within `m` attempts. -/
theorem mean_retry {h : Src (Option (Shr α))} {e : Exp (Outcome (Option (Shr α)))} (he : Follows h e) {E : Shr α → Bool}
    {p d : ℚ} (hp : Chance h (fun o => o.any E) p) (hd : Chance h (fun o => o.isNone) d) (hd1 : d < 1) (m : Nat) :
    (retryExp e m).mean (hit E) = (1 - d ^ m) * (p / (1 - d)) := by
  have h1 : e.mean (hit fun o => o.any E) = p := chance_unique ⟨e, he, rfl⟩ hp
  have h2 : e.mean (hit fun o => o.isNone) = d := chance_unique ⟨e, he, rfl⟩ hd
  have hne : 1 - d ≠ 0 := by linarith
  induction m with
  | zero => simp [retryExp, Exp.mean, hit]
  | succ m ih =>
    have e1 : (retryExp e (m + 1)).mean (hit E) = e.mean (hit fun o => o.any E) +
        (retryExp e m).mean (hit E) * e.mean (hit fun o => o.isNone) := by
      rw [retryExp, hit_eq, mean_andThen, ← Exp.mean_mul, ← Exp.mean_add]
      congr 1
      funext o
      cases o with
      | ok o =>
        cases o with
        | none => simp [val, hit]
        | some t => simp [val, hit, Exp.mean]
      | throws x => simp [val, hit]
      | ub => simp [val, hit]
      | diverges => simp [val, hit]
    rw [e1, ih, h1, h2, pow_succ]
    field_simp
    ring

/-- The loop of `oneOf`, what is done with a chosen alternative depending on the rounds left. -/
def roundsExp (l : List ((Nat → Exp (Outcome α)) × ℚ)) : Nat → Exp (Outcome α)
  | 0 => .ret .diverges
  | m + 1 => .draw 0 (l.length - 1) fun i =>
    match l[i.toNat]? with
    | none => .ret .ub
    | some a =>
      if a.2 = 1 then a.1 m
      else .draw 0 (2 ^ 64 - 1) fun v => if v ≤ ⌊a.2 * 2 ^ 64⌋.toNat then a.1 m else roundsExp l m

/-- Alternatives, what trying them does, and their weights. -/
abbrev Tried (α : Type) := Src (Option (Shr α)) × (Nat → Exp (Outcome (Shr α))) × ℚ

theorem follows_rounds (l : List (Tried α)) (hne : l ≠ [])
    (hlen : l.length ≤ 2 ^ 32)
    (h : ∀ a ∈ l, (∀ w m, Follows (fun σ R s => retry (mayDiscard (a.1 σ R) w) m s) (a.2.1 m)) ∧ 0 ≤ a.2.2 ∧ a.2.2 ≤ 1)
    (m : Nat) :
    Follows (fun σ R s => oneOfLoop R (l.map fun a => mayDiscard (a.1 σ R) (.fin a.2.2)) m s)
      (roundsExp (l.map (·.2)) m) := by
  have hpos : 0 < l.length := List.length_pos_iff.2 hne
  induction m with
  | zero => exact ⟨trivial, fun _ _ _ => rfl⟩
  | succ m ih =>
    refine ⟨⟨by simp; omega, fun i h0 h1 => ?_⟩, fun σ R s => ?_⟩
    · dsimp only
      rw [List.getElem?_map]
      cases ha : l[i.toNat]? with
      | none => trivial
      | some a =>
        have ha := h a (List.mem_of_getElem? ha)
        simp only [Option.map_some]
        split_ifs with h1
        · exact (ha.1 (.fin a.2.2) m).1
        · refine ⟨by norm_num, fun v _ _ => ?_⟩
          dsimp only
          split_ifs
          · exact (ha.1 (.fin a.2.2) m).1
          · exact ih.1
    · rw [roundsExp, Exp.run]
      have hd := R.draw_mem s 0 ((l.map (·.2)).length - 1) (by simp; omega)
      dsimp only
      rw [oneOfLoop, getRandomSize_eq R s (by simpa using hpos) (by simpa using hlen)]
      simp only [List.length_map, Nat.cast_zero, Outcome.ok_bind] at hd ⊢
      generalize R.draw s 0 (l.length - 1) = r at hd ⊢
      obtain ⟨i, s1⟩ := r
      simp only [List.getElem?_map] at hd ⊢
      cases ha : l[i.toNat]? with
      | none =>
        have := List.getElem?_eq_none_iff.1 ha
        omega
      | some a =>
        have ha := h a (List.mem_of_getElem? ha)
        simp only [Option.map_some]
        have ht := ha.1 (.fin a.2.2) m
        have hwt : (mayDiscard (a.1 σ R) (.fin a.2.2)).weight = .fin a.2.2 := rfl
        rw [hwt]
        by_cases hq : a.2.2 = 1
        · simp only [threshold, hq, if_true, Outcome.ok_bind, getRandomBool]
          have := ht.2 σ R s1
          rw [hq] at this
          exact this
        · have h2 : ¬ (a.2.2 ≤ -1 / 2 ^ 64 ∨ 1 < a.2.2) := by
            rintro (h | h)
            · have : (-1 : ℚ) / 2 ^ 64 < 0 := by norm_num
              linarith
            · linarith
          simp only [threshold, hq, if_false, h2, Outcome.ok_bind]
          have hb : getRandomBool R (some ⌊a.2.2 * 2 ^ 64⌋.toNat) s1 =
            (decide ((R.draw s1 0 (2 ^ 64 - 1)).1 ≤ ⌊a.2.2 * 2 ^ 64⌋.toNat), (R.draw s1 0 (2 ^ 64 - 1)).2) := rfl
          rw [Exp.run, hb]
          generalize R.draw s1 0 (2 ^ 64 - 1) = r
          obtain ⟨v, s2⟩ := r
          by_cases hv : v ≤ ⌊a.2.2 * 2 ^ 64⌋.toNat
          · simp only [hv, decide_true, if_true]
            exact ht.2 σ R s2
          · simp only [hv, decide_false, if_false, Bool.false_eq_true]
            exact ih.2 σ R s2

/-- One round of the loop. -/
theorem mean_rounds_succ (l : List ((Nat → Exp (Outcome α)) × ℚ)) (hne : l ≠ []) (h : ∀ a ∈ l, 0 ≤ a.2 ∧ a.2 ≤ 1)
    (f : α → ℚ) (m : Nat) :
    (roundsExp l (m + 1)).mean (val f) =
      ((l.map fun a => accepting a.2 * (a.1 m).mean (val f)).sum +
        (l.length * 2 ^ 64 - (l.map fun a => accepting a.2).sum) * (roundsExp l m).mean (val f)) / (l.length * 2 ^ 64) := by
  have hpos : (0 : ℚ) < l.length := by exact_mod_cast List.length_pos_iff.2 hne
  rw [roundsExp, Exp.mean]
  have key : ∀ a ∈ l, ((if a.2 = 1 then a.1 m
      else .draw 0 (2 ^ 64 - 1) fun v => if v ≤ ⌊a.2 * 2 ^ 64⌋.toNat then a.1 m else roundsExp l m :
      Exp (Outcome α))).mean (val f) =
      (accepting a.2 * (a.1 m).mean (val f) + (2 ^ 64 - accepting a.2) * (roundsExp l m).mean (val f)) / 2 ^ 64 := by
    intro a ha
    have hb := h a ha
    by_cases hq : a.2 = 1
    · rw [if_pos hq, accepting, if_pos hq]
      ring
    · have hlt : a.2 < 1 := lt_of_le_of_ne hb.2 hq
      have h2 : a.2 * 2 ^ 64 < ((2 ^ 64 : ℤ) : ℚ) := by push_cast; linarith
      have h3 : (0 : ℤ) ≤ ⌊a.2 * 2 ^ 64⌋ := Int.floor_nonneg.2 (by have := hb.1; positivity)
      have h4 : ⌊a.2 * 2 ^ 64⌋ < (2 : ℤ) ^ 64 := Int.floor_lt.2 h2
      rw [if_neg hq, Exp.mean, accepting, if_neg hq, Int.toNat_of_nonneg h3]
      rw [Finset.sum_congr rfl (g := fun v => if v ≤ ⌊a.2 * 2 ^ 64⌋ then (a.1 m).mean (val f)
        else (roundsExp l m).mean (val f))]
      · rw [Exp.mean_draw_le (by omega) (by omega)]
        push_cast
        ring
      · intro v _
        split_ifs with hv <;> rfl
  have e1 := sum_Icc_get l fun o => Exp.mean (val f) (match o with
    | none => .ret .ub
    | some a => if a.2 = 1 then a.1 m
      else .draw 0 (2 ^ 64 - 1) fun v => if v ≤ ⌊a.2 * 2 ^ 64⌋.toNat then a.1 m else roundsExp l m)
  simp only at e1
  rw [e1]
  rw [List.map_congr_left key]
  have e2 : ∀ (l' : List ((Nat → Exp (Outcome α)) × ℚ)) (x : ℚ),
      (l'.map fun a => (accepting a.2 * (a.1 m).mean (val f) + (2 ^ 64 - accepting a.2) * x) / 2 ^ 64).sum =
      ((l'.map fun a => accepting a.2 * (a.1 m).mean (val f)).sum +
        (l'.length * 2 ^ 64 - (l'.map fun a => accepting a.2).sum) * x) / 2 ^ 64 := by
    intro l' x
    induction l' with
    | nil => simp
    | cons a as ih =>
      simp only [List.map_cons, List.sum_cons, ih, List.length_cons]
      push_cast
      ring
  rw [e2]
  have e3 : (((l.length : ℤ) - 1 : ℤ) : ℚ) - ((0 : ℤ) : ℚ) + 1 = l.length := by push_cast; ring
  rw [e3]
  field_simp

/-- A sequence that is contracted and pushed by what tends to `L`. -/
theorem tendsto_contraction {x y : Nat → ℚ} {r L : ℚ} (hr0 : 0 ≤ r) (hr1 : r < 1) (h : ∀ n, x (n + 1) = y n + r * x n)
    (hy : Tendsto y atTop (𝓝 L)) : Tendsto x atTop (𝓝 (L / (1 - r))) := by
  have hne : 0 < 1 - r := by linarith
  rw [LinearOrderedAddCommGroup.tendsto_nhds] at hy ⊢
  intro ε hε
  obtain ⟨N, hN⟩ := eventually_atTop.1 (hy ((1 - r) * (ε / 2)) (by positivity))
  have key : ∀ k, |x (N + k) - L / (1 - r)| ≤ ε / 2 + r ^ k * |x N - L / (1 - r)| := by
    intro k
    induction k with
    | zero => simp; linarith
    | succ k ih =>
      have e : x (N + (k + 1)) - L / (1 - r) = (y (N + k) - L) + r * (x (N + k) - L / (1 - r)) := by
        rw [← add_assoc, h]
        field_simp
        ring
      rw [e]
      have h1 := (hN (N + k) (by omega)).le
      have h2 := mul_le_mul_of_nonneg_left ih hr0
      calc _ ≤ |y (N + k) - L| + |r * (x (N + k) - L / (1 - r))| := abs_add_le _ _
        _ = |y (N + k) - L| + r * |x (N + k) - L / (1 - r)| := by rw [abs_mul, abs_of_nonneg hr0]
        _ ≤ (1 - r) * (ε / 2) + r * (ε / 2 + r ^ k * |x N - L / (1 - r)|) := add_le_add h1 h2
        _ = _ := by ring
  have hb : Tendsto (fun k : Nat => r ^ k * |x N - L / (1 - r)|) atTop (𝓝 0) := by
    have := (tendsto_pow_atTop_nhds_zero_of_lt_one hr0 hr1).mul_const |x N - L / (1 - r)|
    rwa [zero_mul] at this
  rw [LinearOrderedAddCommGroup.tendsto_nhds] at hb
  obtain ⟨K, hK⟩ := eventually_atTop.1 (hb (ε / 2) (by positivity))
  filter_upwards [eventually_ge_atTop (N + K)] with n hn
  obtain ⟨k, rfl⟩ := Nat.exists_eq_add_of_le (show N ≤ n by omega)
  have h1 := hK k (by omega)
  have h2 := key k
  rw [sub_zero] at h1
  have h3 := le_abs_self (r ^ k * |x N - L / (1 - r)|)
  linarith

theorem limit_discarding (alts : List (Src (Option (Shr α)) × Dbl)) (qs ps : List ℚ) (E : Shr α → Bool)
    (hw : assignWeights (alts.map (·.2)) = .ok (qs.map Dbl.fin)) (hq : ∀ q ∈ qs, 0 ≤ q ∧ q ≤ 1)
    (hne : alts ≠ []) (hlen : alts.length ≤ 2 ^ 32)
    (hd : ∀ a ∈ alts, ∀ (σ : Type) (R : Rng σ) (s : σ), a.1 σ R s ≠ .throws .discard)
    (hp : List.Forall₂ (fun a p => ∃ d u, d < 1 ∧ Chance a.1 (fun o => o.isNone) d ∧ Chance a.1 (fun o => o.any E) u ∧
      p = u / (1 - d)) alts ps) :
    ChanceLimit (oneOfDiscarding alts) E
      ((List.zipWith (fun q p => accepting q * p) qs ps).sum / (qs.map accepting).sum) := by
  have hlq : qs.length = alts.length := by simpa using assignWeights_length hw
  obtain ⟨l, hl1, hl2, hl3, hps⟩ : ∃ l : List (Tried α),
      l.map (·.1) = alts.map (·.1) ∧ l.map (·.2.2) = qs ∧
      (∀ a ∈ l, ∀ w m, Follows (fun σ R s => retry (mayDiscard (a.1 σ R) w) m s) (a.2.1 m)) ∧
      Tendsto (fun m => (l.map fun a => accepting a.2.2 * (a.2.1 m).mean (hit E)).sum) atTop
        (𝓝 (List.zipWith (fun q p => accepting q * p) qs ps).sum) := by
    clear hw hq hne hlen
    induction hp generalizing qs with
    | nil =>
      cases List.length_eq_zero_iff.1 hlq
      exact ⟨[], rfl, rfl, by simp, tendsto_const_nhds⟩
    | @cons a p as ps h _ ih =>
      obtain ⟨d, u, hd1, ⟨e, he, hdm⟩, hu, rfl⟩ := h
      cases qs with
      | nil => simp at hlq
      | cons q qs =>
        obtain ⟨l, h1, h2, h3, h4⟩ := ih qs (fun a ha => hd a (by simp [ha])) (by simpa using hlq)
        refine ⟨(a.1, retryExp e, q) :: l, by rw [List.map_cons, List.map_cons, h1], by rw [List.map_cons, h2], ?_, ?_⟩
        · intro b hb
          rcases List.mem_cons.1 hb with rfl | hb
          · exact fun w m => follows_retry he (hd a (by simp)) w m
          · exact h3 b hb
        · simp only [List.map_cons, List.sum_cons, List.zipWith_cons_cons]
          refine Tendsto.add (Tendsto.const_mul _ ?_) h4
          have hd0 : 0 ≤ d := by
            have := Exp.mean_le (f := fun _ => 0) (g := hit fun o : Option (Shr α) => o.isNone) (fun o => by
              cases o with
              | ok t => simp only [hit]; split_ifs <;> norm_num
              | throws x => simp [hit]
              | ub => simp [hit]
              | diverges => simp [hit]) he.1
            rw [Exp.mean_const 0 he.1, hdm] at this
            exact this
          have t := ((tendsto_pow_atTop_nhds_zero_of_lt_one hd0 hd1).const_sub 1).mul_const (u / (1 - d))
          rw [sub_zero, one_mul] at t
          refine t.congr fun m => ?_
          exact (mean_retry he hu ⟨e, he, hdm⟩ hd1 m).symm
  have hll : l.length = alts.length := by simpa using congrArg List.length hl1
  have hlne : l ≠ [] := by
    intro h0
    rw [h0] at hll
    exact hne (List.length_eq_zero_iff.1 hll.symm)
  have hq' : ∀ a ∈ l, 0 ≤ a.2.2 ∧ a.2.2 ≤ 1 := fun a ha => hq _ (by rw [← hl2]; exact List.mem_map_of_mem ha)
  have hq2 : ∀ a ∈ l.map (·.2), 0 ≤ a.2 ∧ a.2 ≤ 1 := by
    intro a ha
    obtain ⟨b, hb, rfl⟩ := List.mem_map.1 ha
    exact hq' b hb
  have hne2 : l.map (·.2) ≠ [] := by simpa using hlne
  have hcall : ∀ m σ R s, oneOfDiscarding alts m σ R s =
      oneOfLoop R (l.map fun a => mayDiscard (a.1 σ R) (.fin a.2.2)) m s := by
    intro m σ R s
    have e1 : (alts.map fun a => mayDiscard (a.1 σ R) a.2).map (·.weight) = alts.map (·.2) := by
      simp [List.map_map, Function.comp_def, mayDiscard]
    have e2 : List.zipWith (fun (g : Weighted σ α) (w : Dbl) => { g with weight := w })
        (alts.map fun a => mayDiscard (a.1 σ R) a.2) (qs.map Dbl.fin) =
        l.map fun a => mayDiscard (a.1 σ R) (.fin a.2.2) := by
      have h1 : List.zipWith (fun (g : Weighted σ α) (w : Dbl) => { g with weight := w })
          (alts.map fun a => mayDiscard (a.1 σ R) a.2) (qs.map Dbl.fin) =
          List.zipWith (fun (g : Src (Option (Shr α))) (q : ℚ) => mayDiscard (g σ R) (.fin q)) (alts.map (·.1)) qs := by
        simp [List.zipWith_map_left, List.zipWith_map_right, mayDiscard]
      rw [h1, ← hl1, ← hl2]
      simp [List.zipWith_map, List.zipWith_self]
    show (oneOf _ >>= fun ws => oneOfLoop R ws m s) = _
    unfold oneOf
    rw [e1, hw]
    simp only [Outcome.ok_bind, Outcome.pure_eq]
    rw [e2]
  have hb : 0 < (qs.map accepting).sum ∧ (qs.map accepting).sum ≤ alts.length * 2 ^ 64 := by
    have := total_bounds (l.map fun a => ((Exp.ret (.ub : Outcome (Shr α))), a.2.2)) (by simpa using hlne) (by
      intro a ha
      obtain ⟨b, hb, rfl⟩ := List.mem_map.1 ha
      exact hq' b hb)
    rw [List.map_map, List.length_map, hll] at this
    have e : (l.map ((fun a : Exp (Outcome (Shr α)) × ℚ => accepting a.2) ∘ fun a => (Exp.ret .ub, a.2.2))) = qs.map accepting := by
      rw [← hl2, List.map_map]
      rfl
    rwa [e] at this
  have hD : (0 : ℚ) < alts.length * 2 ^ 64 := lt_of_lt_of_le hb.1 hb.2
  rw [chanceLimit_iff]
  refine ⟨fun m => (roundsExp (l.map (·.2)) m).mean (hit E), ?_, .of_forall fun m => ⟨roundsExp (l.map (·.2)) m,
    (follows_rounds l hlne (by omega) (fun a ha => ⟨hl3 a ha, hq' a ha⟩) m).congr fun σ R s => hcall m σ R s, rfl⟩⟩
  have key := tendsto_contraction (x := fun m => (roundsExp (l.map (·.2)) m).mean (hit E))
    (y := fun m => (l.map fun a => accepting a.2.2 * (a.2.1 m).mean (hit E)).sum / (alts.length * 2 ^ 64))
    (r := 1 - (qs.map accepting).sum / (alts.length * 2 ^ 64)) (by
      have := (div_le_one hD).2 hb.2
      linarith) (by
      have := div_pos hb.1 hD
      linarith) (fun m => by
      have e := mean_rounds_succ (l.map (·.2)) hne2 hq2 (fun a => if E a then 1 else 0) m
      rw [← hit_eq, List.map_map, List.map_map, List.length_map, hll] at e
      have e' : (l.map ((fun a : (Nat → Exp (Outcome (Shr α))) × ℚ => accepting a.2) ∘ fun a : Tried α => a.2)) =
          qs.map accepting := by
        rw [← hl2, List.map_map]
        rfl
      rw [e'] at e
      simp only [Function.comp_def] at e
      rw [e]
      have hD' := hD.ne'
      generalize (alts.length * 2 ^ 64 : ℚ) = D at hD' ⊢
      field_simp) (hps.div_const _)
  have e : (List.zipWith (fun q p => accepting q * p) qs ps).sum / (alts.length * 2 ^ 64) /
      (1 - (1 - (qs.map accepting).sum / (alts.length * 2 ^ 64))) =
      (List.zipWith (fun q p => accepting q * p) qs ps).sum / (qs.map accepting).sum := by
    rw [sub_sub_cancel]
    exact div_div_div_cancel_right₀ hD.ne' _ _
  rwa [e] at key

end Verif
