import Verif.Lemmas.Chance
import Verif.Lemmas.Integral
import Verif.Lemmas.OneOf
import Mathlib.Algebra.Order.Archimedean.Basic
import Mathlib.Data.Rat.Floor
/-
The experiments that the generators of integers and booleans and `oneOf` follow.
-/
namespace Verif
open Shr Random Integral IntType Comb
variable {σ α β : Type}

/-! ### Integers -/

theorem getRandomT_eq (R : Rng σ) {T : IntType} (hT : T ∈ all) {min max : Int} (s : σ)
    (h1 : T.lo ≤ min) (h2 : min ≤ max) (h3 : max ≤ T.hi) : getRandomT R T min max s = .ok (R.draw s min max) := by
  have hm := R.draw_mem s min max h2
  unfold getRandomT uniform
  rw [wrap_id hT h1 (by omega), wrap_id hT (by omega) h3, if_pos h2, Outcome.ok_bind]
  simp only [wrap_id hT (x := (R.draw s min max).1) (by omega) (by omega)]
  rfl

theorem getRandomSize_eq (R : Rng σ) {a b : Nat} (s : σ) (h : a < b) (hb : b ≤ 2^32) :
    getRandomSize R a b s = .ok (R.draw s a (b - 1)) := by
  obtain ⟨b, rfl⟩ : ∃ c, b = c + 1 := ⟨b - 1, by omega⟩
  obtain ⟨v, s', e, -, -, hd⟩ := getRandomSize_draw R (a := a) (b := b) s (by omega) (by omega)
  rw [e]
  have : ((b + 1 : Nat) : Int) - 1 = b := by omega
  rw [this, hd]

theorem shrinkableOf_value {T : IntType} (hT : T ∈ all) {min max v : Int} (h1 : T.lo ≤ min) (h2 : min ≤ v)
    (h3 : v ≤ max) (h4 : max ≤ T.hi) : ∃ t, shrinkableOf T min max v = .ok t ∧ t.value = v := by
  rcases shrinkableOf_eq hT h1 h2 h3 h4 with ⟨h, e⟩ | ⟨h, e⟩
  · exact ⟨_, e, by rw [value_map, BinSearch.bsNat_value]; omega⟩
  · exact ⟨_, e, by rw [value_map, BinSearch.bsNat_value]; omega⟩

/-- The experiment of a generator of a part of the type. -/
theorem follows_part {T : IntType} (hT : T ∈ all) {min max : Int} (h1 : T.lo ≤ min) (h2 : min ≤ max) (h3 : max ≤ T.hi)
    (hp : ¬ (min = T.lo ∧ max = T.hi)) : Follows (fun _ R s => generateInteger R T min max s)
      (.draw min max fun v => .ret (shrinkableOf T min max v)) := by
  refine (Follows.draw h2 fun v => Follows.const (shrinkableOf T min max v)).congr fun σ R s => ?_
  simp only [generateInteger, drawValue, if_neg hp, getRandomT_eq R hT s h1 h2 h3, Outcome.ok_bind]
  rfl

/-- The experiment of a generator of the whole type. -/
theorem follows_whole {T : IntType} (hT : T ∈ all) : Follows (fun _ R s => arbiInt R T s)
      (.draw 0 (2 ^ 64 - 1) fun w =>
        if w ≤ 2 ^ 63 then .draw 0 ((boundaryValues T).length - 1) fun i =>
          match (boundaryValues T)[i.toNat]? with
          | some v => .ret (shrinkableOf T T.lo T.hi v)
          | none => .ret .ub
        else .draw T.lo T.hi fun v => .ret (shrinkableOf T T.lo T.hi v)) := by
  have hle : T.lo ≤ T.hi := by
    simp only [all, List.mem_cons, List.not_mem_nil, or_false] at hT
    rcases hT with rfl | rfl | rfl | rfl | rfl | rfl | rfl | rfl <;> decide
  have hlen : 0 < (boundaryValues T).length ∧ (boundaryValues T).length < 100 := by
    simp only [all, List.mem_cons, List.not_mem_nil, or_false] at hT
    rcases hT with rfl | rfl | rfl | rfl | rfl | rfl | rfl | rfl <;> decide
  refine ⟨⟨by norm_num, fun w _ _ => ?_⟩, fun σ R s => ?_⟩
  · dsimp only
    split_ifs
    · refine ⟨by omega, fun i _ _ => ?_⟩
      dsimp only
      cases (boundaryValues T)[i.toNat]? <;> trivial
    · exact ⟨hle, fun _ _ _ => trivial⟩
  · rw [Exp.run]
    have hb : getRandomBool R half s = (decide ((R.draw s 0 (2 ^ 64 - 1)).1 ≤ 2 ^ 63), (R.draw s 0 (2 ^ 64 - 1)).2) := rfl
    generalize R.draw s 0 (2 ^ 64 - 1) = r at hb ⊢
    obtain ⟨w, s1⟩ := r
    simp only at hb ⊢
    unfold arbiInt generateInteger drawValue
    rw [if_pos ⟨rfl, rfl⟩, hb]
    by_cases hw : w ≤ 2 ^ 63
    · rw [if_pos hw, decide_eq_true hw]
      simp only [if_true, getRandomSize_eq R s1 hlen.1 (by omega : _ ≤ 2 ^ 32), Outcome.ok_bind, Exp.run, Nat.cast_zero]
      cases (boundaryValues T)[(R.draw s1 0 ((boundaryValues T).length - 1)).1.toNat]? with
      | some v => rfl
      | none => rfl
    · rw [if_neg hw, decide_eq_false hw]
      simp only [getRandomT_eq R hT s1 le_rfl hle le_rfl, Outcome.ok_bind, Exp.run, Bool.false_eq_true, if_false]
      rfl

/-- The experiment of `Arbi<bool>`. -/
theorem follows_bool (k : Nat) : Follows (fun _ R s => arbiBool R (some k) s)
    (.draw 0 (2 ^ 64 - 1) fun w => .ret (.ok (shrinkBool (decide (w ≤ k))))) :=
  ⟨⟨by norm_num, fun _ _ _ => trivial⟩, fun _ _ _ => rfl⟩

/-! ### Chances of integers -/

theorem sum_hit (a b : Int) (E : Int → Bool) :
    (∑ v ∈ Finset.Icc a b, if E v then (1 : ℚ) else 0) = ((Finset.Icc a b).filter fun v => E v).card := by
  rw [Finset.sum_ite]
  simp

/-- The table as a sum over its positions. -/
theorem sum_range_get {γ : Type} (l : List γ) (F : Option γ → ℚ) :
    ∑ i ∈ Finset.range l.length, F l[i]? = (l.map fun x => F (some x)).sum := by
  induction l with
  | nil => rfl
  | cons x xs ih =>
    rw [List.length_cons, Finset.sum_range_succ']
    simp only [List.getElem?_cons_succ, List.getElem?_cons_zero, ih, List.map_cons, List.sum_cons]
    ring

theorem sum_Icc_get {γ : Type} (l : List γ) (F : Option γ → ℚ) :
    ∑ i ∈ Finset.Icc (0 : Int) (l.length - 1), F l[i.toNat]? = (l.map fun x => F (some x)).sum := by
  rw [← sum_range_get l F]
  refine Finset.sum_bij' (fun i _ => i.toNat) (fun i _ => (i : Int)) ?_ ?_ ?_ ?_ ?_
  · intro i hi
    have := Finset.mem_Icc.1 hi
    simp; omega
  · intro i hi
    have := Finset.mem_range.1 hi
    simp; omega
  · intro i hi
    have := Finset.mem_Icc.1 hi
    simp; omega
  · intro i hi
    simp
  · intro i hi
    rfl

/-! ### oneOf -/

/-- The number of values of the 64-bit draw (out of 2^64) that accept an alternative of weight `q`. -/
def accepting (q : ℚ) : ℚ := if q = 1 then 2 ^ 64 else ⌊q * 2 ^ 64⌋ + 1

theorem accepting_bounds {q : ℚ} (h0 : 0 ≤ q) (h1 : q ≤ 1) :
    1 ≤ accepting q ∧ accepting q ≤ 2 ^ 64 ∧ q * 2 ^ 64 ≤ accepting q ∧ accepting q ≤ q * 2 ^ 64 + 1 := by
  unfold accepting
  split_ifs with h
  · subst h; norm_num
  · have hlt : q < 1 := lt_of_le_of_ne h1 h
    have h2 : q * 2 ^ 64 < (2 : ℤ) ^ 64 := by push_cast; linarith
    have h3 : (0 : ℤ) ≤ ⌊q * 2 ^ 64⌋ := Int.floor_nonneg.2 (by positivity)
    have h4 : ⌊q * 2 ^ 64⌋ < (2 : ℤ) ^ 64 := Int.floor_lt.2 (by exact_mod_cast h2)
    have h5 := Int.lt_floor_add_one (q * 2 ^ 64)
    have h6 := Int.floor_le (q * 2 ^ 64)
    have h3' : (0 : ℚ) ≤ ⌊q * 2 ^ 64⌋ := by exact_mod_cast h3
    have h4' : (⌊q * 2 ^ 64⌋ : ℚ) + 1 ≤ 2 ^ 64 := by exact_mod_cast Int.add_one_le_iff.2 h4
    exact ⟨by linarith, h4', h5.le, by linarith⟩

/-- What is done with an alternative that was accepted. -/
def takenExp (e : Exp (Outcome α)) : Nat → Exp (Outcome α)
  | 0 => .ret .diverges
  | _ + 1 => e

/-- The experiment of the loop of `oneOf`, for alternatives given by their experiments and weights. -/
def loopExp (l : List (Exp (Outcome α) × ℚ)) : Nat → Exp (Outcome α)
  | 0 => .ret .diverges
  | m + 1 => .draw 0 (l.length - 1) fun i =>
    match l[i.toNat]? with
    | none => .ret .ub
    | some a =>
      if a.2 = 1 then takenExp a.1 m
      else .draw 0 (2 ^ 64 - 1) fun v => if v ≤ ⌊a.2 * 2 ^ 64⌋.toNat then takenExp a.1 m else loopExp l m

/-- Alternatives that do not discard, their experiments and weights. -/
def Alt (g : Src (Shr α)) (e : Exp (Outcome (Shr α))) : Prop :=
  Follows g e ∧ ∀ (σ : Type) (R : Rng σ) (s : σ), g σ R s ≠ .throws .discard

theorem follows_taken {g : Src (Shr α)} {e : Exp (Outcome (Shr α))} (h : Alt g e) (m : Nat) (w : Dbl) :
    Follows (fun σ R s => retry { gen := g σ R, weight := w } m s) (takenExp e m) := by
  cases m with
  | zero => exact ⟨trivial, fun _ _ _ => rfl⟩
  | succ m =>
    refine h.1.congr fun σ R s => ?_
    have := h.2 σ R s
    simp only [retry]

theorem follows_loop (l : List (Src (Shr α) × Exp (Outcome (Shr α)) × ℚ)) (hne : l ≠ []) (hlen : l.length ≤ 2 ^ 32)
    (h : ∀ a ∈ l, Alt a.1 a.2.1 ∧ 0 ≤ a.2.2 ∧ a.2.2 ≤ 1) (m : Nat) :
    Follows (fun σ R s => oneOfLoop R (l.map fun a => { gen := a.1 σ R, weight := .fin a.2.2 }) m s)
      (loopExp (l.map (·.2)) m) := by
  have hpos : 0 < l.length := List.length_pos_iff.2 hne
  induction m with
  | zero => exact ⟨trivial, fun _ _ _ => rfl⟩
  | succ m ih =>
    refine ⟨⟨by simp; omega, fun i h0 h1 => ?_⟩, fun σ R s => ?_⟩
    · dsimp only
      rw [List.getElem?_map]
      cases ha : l[i.toNat]? with
      | none => trivial
      | some a =>
        have ha := h a (List.mem_of_getElem? ha)
        simp only [Option.map_some]
        split_ifs with h1
        · exact (follows_taken ha.1 m (.fin a.2.2)).1
        · refine ⟨by norm_num, fun v _ _ => ?_⟩
          dsimp only
          split_ifs
          · exact (follows_taken ha.1 m (.fin a.2.2)).1
          · exact ih.1
    · rw [loopExp, Exp.run]
      have hd := R.draw_mem s 0 ((l.map (·.2)).length - 1) (by simp; omega)
      dsimp only
      rw [oneOfLoop, getRandomSize_eq R s (by simpa using hpos) (by simpa using hlen)]
      simp only [List.length_map, Nat.cast_zero, Outcome.ok_bind] at hd ⊢
      generalize R.draw s 0 (l.length - 1) = r at hd ⊢
      obtain ⟨i, s1⟩ := r
      simp only [List.getElem?_map] at hd ⊢
      cases ha : l[i.toNat]? with
      | none =>
        have := List.getElem?_eq_none_iff.1 ha
        omega
      | some a =>
        have ha := h a (List.mem_of_getElem? ha)
        simp only [Option.map_some]
        have ht := follows_taken ha.1 m (.fin a.2.2)
        by_cases hq : a.2.2 = 1
        · simp only [threshold, hq, if_true, Outcome.ok_bind, getRandomBool]
          have := ht.2 σ R s1
          rw [hq] at this
          exact this
        · have h2 : ¬ (a.2.2 ≤ -1 / 2 ^ 64 ∨ 1 < a.2.2) := by
            rintro (h | h)
            · have : (-1 : ℚ) / 2 ^ 64 < 0 := by norm_num
              linarith
            · linarith
          simp only [threshold, hq, if_false, h2, Outcome.ok_bind]
          have hb : getRandomBool R (some ⌊a.2.2 * 2 ^ 64⌋.toNat) s1 =
            (decide ((R.draw s1 0 (2 ^ 64 - 1)).1 ≤ ⌊a.2.2 * 2 ^ 64⌋.toNat), (R.draw s1 0 (2 ^ 64 - 1)).2) := rfl
          rw [Exp.run, hb]
          generalize R.draw s1 0 (2 ^ 64 - 1) = r
          obtain ⟨v, s2⟩ := r
          by_cases hv : v ≤ ⌊a.2.2 * 2 ^ 64⌋.toNat
          · simp only [hv, decide_true, if_true]
            exact ht.2 σ R s2
          · simp only [hv, decide_false, if_false, Bool.false_eq_true]
            exact ih.2 σ R s2

theorem mean_taken (e : Exp (Outcome α)) (f : α → ℚ) (m : Nat) :
    (takenExp e m).mean (val f) = if m = 0 then 0 else e.mean (val f) := by
  cases m <;> rfl

/-- One round of the loop. -/
theorem mean_loop_succ (l : List (Exp (Outcome α) × ℚ)) (hne : l ≠ []) (h : ∀ a ∈ l, 0 ≤ a.2 ∧ a.2 ≤ 1)
    (f : α → ℚ) (m : Nat) :
    (loopExp l (m + 1)).mean (val f) =
      ((if m = 0 then 0 else (l.map fun a => accepting a.2 * a.1.mean (val f)).sum) +
        (l.length * 2 ^ 64 - (l.map fun a => accepting a.2).sum) * (loopExp l m).mean (val f)) / (l.length * 2 ^ 64) := by
  have hpos : (0 : ℚ) < l.length := by exact_mod_cast List.length_pos_iff.2 hne
  rw [loopExp, Exp.mean]
  have key : ∀ a ∈ l, ((if a.2 = 1 then takenExp a.1 m
      else .draw 0 (2 ^ 64 - 1) fun v => if v ≤ ⌊a.2 * 2 ^ 64⌋.toNat then takenExp a.1 m else loopExp l m :
      Exp (Outcome α))).mean (val f) =
      (accepting a.2 * (if m = 0 then 0 else a.1.mean (val f)) + (2 ^ 64 - accepting a.2) * (loopExp l m).mean (val f)) / 2 ^ 64 := by
    intro a ha
    have hb := h a ha
    by_cases hq : a.2 = 1
    · rw [if_pos hq, mean_taken, accepting, if_pos hq]
      ring
    · have hlt : a.2 < 1 := lt_of_le_of_ne hb.2 hq
      have h2 : a.2 * 2 ^ 64 < ((2 ^ 64 : ℤ) : ℚ) := by push_cast; linarith
      have h3 : (0 : ℤ) ≤ ⌊a.2 * 2 ^ 64⌋ := Int.floor_nonneg.2 (by have := hb.1; positivity)
      have h4 : ⌊a.2 * 2 ^ 64⌋ < (2 : ℤ) ^ 64 := Int.floor_lt.2 h2
      rw [if_neg hq, Exp.mean, accepting, if_neg hq, Int.toNat_of_nonneg h3]
      rw [Finset.sum_congr rfl (g := fun v => if v ≤ ⌊a.2 * 2 ^ 64⌋ then (if m = 0 then 0 else a.1.mean (val f))
        else (loopExp l m).mean (val f))]
      · rw [Exp.mean_draw_le (by omega) (by omega)]
        push_cast
        ring
      · intro v _
        split_ifs with hv hm
        · rw [mean_taken, if_pos hm]
        · rw [mean_taken, if_neg hm]
        · rfl
  have e1 := sum_Icc_get l fun o => Exp.mean (val f) (match o with
    | none => .ret .ub
    | some a => if a.2 = 1 then takenExp a.1 m
      else .draw 0 (2 ^ 64 - 1) fun v => if v ≤ ⌊a.2 * 2 ^ 64⌋.toNat then takenExp a.1 m else loopExp l m)
  simp only at e1
  rw [e1]
  rw [List.map_congr_left key]
  have e2 : ∀ (l' : List (Exp (Outcome α) × ℚ)) (x : ℚ),
      (l'.map fun a => (accepting a.2 * (if m = 0 then 0 else a.1.mean (val f)) + (2 ^ 64 - accepting a.2) * x) / 2 ^ 64).sum =
      ((if m = 0 then 0 else (l'.map fun a => accepting a.2 * a.1.mean (val f)).sum) +
        (l'.length * 2 ^ 64 - (l'.map fun a => accepting a.2).sum) * x) / 2 ^ 64 := by
    intro l' x
    induction l' with
    | nil => simp
    | cons a as ih =>
      simp only [List.map_cons, List.sum_cons, ih, List.length_cons]
      push_cast
      split_ifs <;> ring
  rw [e2]
  have e3 : (((l.length : ℤ) - 1 : ℤ) : ℚ) - ((0 : ℤ) : ℚ) + 1 = l.length := by push_cast; ring
  rw [e3]
  field_simp

theorem round_eq (a y : ℚ) {n c : ℚ} (hn : 0 < n) (hc : 0 < c) :
    (a + (n * 2 ^ 64 - c) * ((1 - y) * (a / c))) / (n * 2 ^ 64) = (1 - y * (1 - c / (n * 2 ^ 64))) * (a / c) := by
  field_simp
  ring

/-- The loop, in closed form: after `m` rounds. -/
theorem mean_loop (l : List (Exp (Outcome α) × ℚ)) (hne : l ≠ []) (h : ∀ a ∈ l, 0 ≤ a.2 ∧ a.2 ≤ 1)
    (f : α → ℚ) (m : Nat) :
    (loopExp l (m + 1)).mean (val f) =
      (1 - (1 - (l.map fun a => accepting a.2).sum / (l.length * 2 ^ 64)) ^ m) *
        ((l.map fun a => accepting a.2 * a.1.mean (val f)).sum / (l.map fun a => accepting a.2).sum) := by
  have hpos : (0 : ℚ) < l.length := by exact_mod_cast List.length_pos_iff.2 hne
  have hC : 0 < (l.map fun a => accepting a.2).sum := by
    cases l with
    | nil => exact absurd rfl hne
    | cons a as =>
      rw [List.map_cons, List.sum_cons]
      have h1 := (accepting_bounds (h a (by simp)).1 (h a (by simp)).2).1
      have h2 : 0 ≤ (as.map fun a => accepting a.2).sum := List.sum_nonneg fun x hx => by
        obtain ⟨b, hb, rfl⟩ := List.mem_map.1 hx
        have := (accepting_bounds (h b (by simp [hb])).1 (h b (by simp [hb])).2).1
        linarith
      linarith
  induction m with
  | zero => rw [mean_loop_succ l hne h]; simp [loopExp, Exp.mean, val]
  | succ m ih =>
    rw [mean_loop_succ l hne h, ih, if_neg (by omega), pow_succ _ m]
    exact round_eq _ _ hpos hC

theorem total_bounds (l : List (Exp (Outcome α) × ℚ)) (hne : l ≠ []) (h : ∀ a ∈ l, 0 ≤ a.2 ∧ a.2 ≤ 1) :
    0 < (l.map fun a => accepting a.2).sum ∧ (l.map fun a => accepting a.2).sum ≤ l.length * 2 ^ 64 := by
  have key : ∀ l : List (Exp (Outcome α) × ℚ), (∀ a ∈ l, 0 ≤ a.2 ∧ a.2 ≤ 1) →
      (l.length : ℚ) ≤ (l.map fun a => accepting a.2).sum ∧ (l.map fun a => accepting a.2).sum ≤ l.length * 2 ^ 64 := by
    intro l h
    induction l with
    | nil => simp
    | cons a as ih =>
      have h1 := accepting_bounds (h a (by simp)).1 (h a (by simp)).2
      have h2 := ih fun b hb => h b (by simp [hb])
      rw [List.map_cons, List.sum_cons, List.length_cons]
      push_cast
      constructor <;> linarith
  have hpos : (0 : ℚ) < l.length := by exact_mod_cast List.length_pos_iff.2 hne
  have := key l h
  exact ⟨by linarith, this.2⟩

/-- Probabilities that approach `p` from below, `p` times what is missing from 1 to a power. -/
theorem limit_of_geometric {f : Nat → Src α} {E : α → Bool} {p r : ℚ} (hr0 : 0 ≤ r) (hr1 : r < 1)
    (h : ∀ m, Chance (f (m + 1)) E ((1 - r ^ m) * p)) : ChanceLimit f E p := by
  intro ε hε
  obtain ⟨N, hN⟩ := exists_pow_lt_of_lt_one (show 0 < ε / (|p| + 1) by positivity) hr1
  refine ⟨N + 1, fun n hn => ⟨(1 - r ^ (n - 1)) * p, ?_, ?_⟩⟩
  · have := h (n - 1)
    rwa [Nat.sub_add_cancel (by omega)] at this
  · have h1 : r ^ (n - 1) ≤ r ^ N := pow_le_pow_of_le_one hr0 hr1.le (by omega)
    have h2 : 0 ≤ r ^ (n - 1) := pow_nonneg hr0 _
    have e : (1 - r ^ (n - 1)) * p - p = -(r ^ (n - 1) * p) := by ring
    rw [e, abs_neg, abs_mul, abs_of_nonneg h2]
    have h3 : r ^ (n - 1) < ε / (|p| + 1) := lt_of_le_of_lt h1 hN
    rw [lt_div_iff₀ (by positivity)] at h3
    have : r ^ (n - 1) * |p| ≤ r ^ (n - 1) * (|p| + 1) := by
      refine mul_le_mul_of_nonneg_left (by linarith) h2
    linarith

/-- The probability of a return within `m` rounds. -/
theorem chance_oneOf_rounds (alts : List (Src (Shr α) × Dbl)) (qs ps : List ℚ) (E : Shr α → Bool)
    (hw : assignWeights (alts.map (·.2)) = .ok (qs.map Dbl.fin)) (hq : ∀ q ∈ qs, 0 ≤ q ∧ q ≤ 1)
    (hne : alts ≠ []) (hlen : alts.length ≤ 2 ^ 32)
    (hd : ∀ a ∈ alts, ∀ (σ : Type) (R : Rng σ) (s : σ), a.1 σ R s ≠ .throws .discard)
    (hp : List.Forall₂ (fun a p => Chance a.1 E p) alts ps) :
    0 < (qs.map accepting).sum ∧ (qs.map accepting).sum ≤ alts.length * 2 ^ 64 ∧
      ∀ m, Chance (oneOfCall alts (m + 1)) E ((1 - (1 - (qs.map accepting).sum / (alts.length * 2 ^ 64)) ^ m) *
        ((List.zipWith (fun q p => accepting q * p) qs ps).sum / (qs.map accepting).sum)) := by
  have hlq : qs.length = alts.length := by simpa using assignWeights_length hw
  obtain ⟨l, hl1, hl2, hl3, hps⟩ : ∃ l : List (Src (Shr α) × Exp (Outcome (Shr α)) × ℚ),
      l.map (·.1) = alts.map (·.1) ∧ l.map (·.2.2) = qs ∧ (∀ a ∈ l, Alt a.1 a.2.1) ∧
      ps = l.map fun a => a.2.1.mean (hit E) := by
    clear hw hq hne hlen
    induction hp generalizing qs with
    | nil =>
      cases List.length_eq_zero_iff.1 hlq
      exact ⟨[], rfl, rfl, by simp, rfl⟩
    | cons h _ ih =>
      obtain ⟨e, he, rfl⟩ := h
      cases qs with
      | nil => simp at hlq
      | cons q qs =>
        obtain ⟨l, h1, h2, h3, h4⟩ := ih qs (fun a ha => hd a (by simp [ha])) (by simpa using hlq)
        refine ⟨(_, e, q) :: l, by rw [List.map_cons, List.map_cons, h1], by rw [List.map_cons, h2], ?_,
          by rw [List.map_cons, h4]⟩
        intro a ha
        rcases List.mem_cons.1 ha with rfl | ha
        · exact ⟨he, hd _ (by simp)⟩
        · exact h3 a ha
  have hll : l.length = alts.length := by simpa using congrArg List.length hl1
  have hlne : l ≠ [] := by
    intro h0
    rw [h0] at hll
    exact hne (List.length_eq_zero_iff.1 hll.symm)
  have hq' : ∀ a ∈ l, 0 ≤ a.2.2 ∧ a.2.2 ≤ 1 := fun a ha => hq _ (by rw [← hl2]; exact List.mem_map_of_mem ha)
  have hq2 : ∀ a ∈ l.map (·.2), 0 ≤ a.2 ∧ a.2 ≤ 1 := by
    intro a ha
    obtain ⟨b, hb, rfl⟩ := List.mem_map.1 ha
    exact hq' b hb
  have hne2 : l.map (·.2) ≠ [] := by simpa using hlne
  have hcall : ∀ m σ R s, oneOfCall alts m σ R s =
      oneOfLoop R (l.map fun a => { gen := a.1 σ R, weight := .fin a.2.2 }) m s := by
    intro m σ R s
    have e1 : (alts.map fun a => ({ gen := a.1 σ R, weight := a.2 } : Weighted σ (α))).map (·.weight) = alts.map (·.2) := by
      simp [List.map_map, Function.comp_def]
    have e2 : List.zipWith (fun (g : Weighted σ α) (w : Dbl) => { g with weight := w })
        (alts.map fun a => ({ gen := a.1 σ R, weight := a.2 } : Weighted σ α)) (qs.map Dbl.fin) =
        l.map fun a => { gen := a.1 σ R, weight := .fin a.2.2 } := by
      have h1 : List.zipWith (fun (g : Weighted σ α) (w : Dbl) => { g with weight := w })
          (alts.map fun a => ({ gen := a.1 σ R, weight := a.2 } : Weighted σ α)) (qs.map Dbl.fin) =
          List.zipWith (fun (g : Src (Shr α)) (q : ℚ) => ({ gen := g σ R, weight := .fin q } : Weighted σ α))
            (alts.map (·.1)) qs := by
        simp [List.zipWith_map_left, List.zipWith_map_right]
      rw [h1, ← hl1, ← hl2]
      simp [List.zipWith_map, List.zipWith_self]
    show (oneOf _ >>= fun ws => oneOfLoop R ws m s) = _
    unfold oneOf
    rw [e1, hw]
    simp only [Outcome.ok_bind, Outcome.pure_eq]
    rw [e2]
  have hsum : (List.zipWith (fun q p => accepting q * p) qs ps).sum =
      ((l.map (·.2)).map fun a => accepting a.2 * a.1.mean (hit E)).sum := by
    rw [hps, ← hl2]
    simp [List.zipWith_map, List.zipWith_self, List.map_map, Function.comp_def]
  have hacc : (qs.map accepting).sum = ((l.map (·.2)).map fun a => accepting a.2).sum := by
    rw [← hl2]
    simp [List.map_map, Function.comp_def]
  have hb := total_bounds (l.map (·.2)) hne2 hq2
  have hln : (l.map (·.2)).length = alts.length := by rw [List.length_map, hll]
  rw [hln] at hb
  rw [hacc]
  refine ⟨hb.1, hb.2, fun m => ⟨loopExp (l.map (·.2)) (m + 1), ?_, ?_⟩⟩
  · refine (follows_loop l hlne (by omega) (fun a ha => ⟨hl3 a ha, hq' a ha⟩) (m + 1)).congr fun σ R s => ?_
    exact hcall (m + 1) σ R s
  · rw [hsum, hit_eq, mean_loop _ hne2 hq2, hln]

theorem chance_oneOf (alts : List (Src (Shr α) × Dbl)) (qs ps : List ℚ) (E : Shr α → Bool)
    (hw : assignWeights (alts.map (·.2)) = .ok (qs.map Dbl.fin)) (hq : ∀ q ∈ qs, 0 ≤ q ∧ q ≤ 1)
    (hne : alts ≠ []) (hlen : alts.length ≤ 2 ^ 32)
    (hd : ∀ a ∈ alts, ∀ (σ : Type) (R : Rng σ) (s : σ), a.1 σ R s ≠ .throws .discard)
    (hp : List.Forall₂ (fun a p => Chance a.1 E p) alts ps) :
    ChanceLimit (oneOfCall alts) E
      ((List.zipWith (fun q p => accepting q * p) qs ps).sum / (qs.map accepting).sum) := by
  obtain ⟨h1, h2, h3⟩ := chance_oneOf_rounds alts qs ps E hw hq hne hlen hd hp
  have hnpos : (0 : ℚ) < alts.length * 2 ^ 64 := lt_of_lt_of_le h1 h2
  refine limit_of_geometric ?_ ?_ h3
  · have := (div_le_one hnpos).2 h2
    linarith
  · have := div_pos h1 hnpos
    linarith

end Verif
