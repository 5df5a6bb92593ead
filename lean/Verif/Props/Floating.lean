import Verif.Lemmas.FloatingBits
/-
C101-C107: floating point numbers. `shrinkFloat F x` are the shrinks offered for `x` with everything below them explored.
-/
namespace Verif
open Shr Floating

/-- 2.5 as a float. -/
def float2_5 : Fl := .fin false (5 * 2^21) 2

/-! ### C101: looking at the shrinks is defined -/

/-- C101 fails. For every float or double of magnitude at least 2^32, and for the infinities, exploring the shrinks has
undefined behaviour. -/
theorem C101_huge_violated (F : Fmt) (x : Fl) (hx : x.Valid F)
    (h : (∃ neg, x = .inf neg) ∨ ∃ q, x.toRat? F = some q ∧ 2^32 ≤ |q|) : shrinkFloat F x = .ub := by
  have hp := F.p_pos
  rcases h with ⟨neg, rfl⟩ | ⟨q, hq, hb⟩
  · refine shrinkFinite_ub ⟨?_, ?_, Int.le_refl _, ?_⟩ (by have := F.emax_ge; omega)
    · have : 2^F.p = 2 * 2^(F.p - 1) := by rw [← Nat.pow_succ']; congr 1; omega
      have := Nat.two_pow_pos (F.p - 1)
      omega
    · have := Nat.two_pow_pos F.p
      omega
    · have := F.emin_p
      have := F.emax_ge
      rw [show (F.emin - (F.emax - F.p)).toNat = 0 by cases F <;> decide]
      simp
  · cases x with
    | nan => cases hq
    | inf => cases hq
    | zero => cases hq; norm_num at hb
    | fin neg f e =>
      simp only [Fl.toRat?, Option.some.injEq] at hq
      rw [← hq, abs_fin] at hb
      refine shrinkFinite_ub hx ?_
      have h1 := lt_of_le_of_lt hb (fin_lt hx)
      have h2 : (2:ℚ)^(32:Int) < 2^e := by exact_mod_cast h1
      have := (zpow_lt_zpow_iff_right₀ (by norm_num : (1:ℚ) < 2)).mp h2
      omega

/-- C101, the part that holds: below 2^32 in magnitude (and for NaN) all shrinks can be explored. -/
theorem C101_defined_partial (F : Fmt) (x : Fl) (hx : x.Valid F) (h : ∀ neg, x ≠ .inf neg)
    (hq : ∀ q, x.toRat? F = some q → |q| < 2^32) : ∃ l, shrinkFloat F x = .ok l := by
  cases x with
  | nan => exact ⟨_, rfl⟩
  | inf neg => exact absurd rfl (h neg)
  | zero => exact ⟨_, rfl⟩
  | fin neg f e =>
    have hb := hq _ rfl
    rw [abs_fin] at hb
    have h2 : (2:ℚ)^(e - 1) < 2^(32:Int) := by exact_mod_cast lt_of_le_of_lt (fin_ge hx) hb
    have := (zpow_lt_zpow_iff_right₀ (by norm_num : (1:ℚ) < 2)).mp h2
    obtain ⟨t, _, h⟩ := shrinkFinite_ok (neg := neg) hx (by omega)
    exact ⟨_, h⟩

/-- 2.5 is in the defined part, 5e9 (0x1.2a05f2p+32) and the smallest double are examples of both kinds. -/
example : (float2_5).Valid .single ∧ float2_5.toRat? .single = some (5/2) ∧ (Fl.fin false (5 * 2^50) 33).Valid .double ∧
    (Fl.fin false (5 * 2^50) 33).toRat? .double = some (5 * 2^30) ∧ (Fl.fin false (2^52) (-1073)).Valid .double := by
  refine ⟨by decide +kernel, ?_, by decide +kernel, ?_, by decide +kernel⟩ <;>
    · simp only [Fl.toRat?, float2_5, Fmt.p]
      norm_num

/-! ### C102: which numbers shrinking arrives at -/

/-- A number for which the shrinks are defined. -/
theorem floating_cases {F : Fmt} {neg : Bool} {f : Nat} {e : Int} {l : List (Shr Fl)} (hx : F.Finite f e)
    (h : shrinkFloat F (.fin neg f e) = .ok l) :
    ∃ t, BinSearch.binarySearchShrinkable e = .ok t ∧ l = mid F neg f t := by
  simp only [shrinkFloat] at h
  by_cases he : e ≤ 32
  · obtain ⟨t, ht, hs⟩ := shrinkFinite_ok (neg := neg) hx he
    rw [hs] at h
    cases h
    exact ⟨t, ht, rfl⟩
  · rw [shrinkFinite_ub hx (by omega)] at h
    cases h

/-- C102. Every number below the shrinks of a finite number `±(f / 2^p) * 2^e` is 0, or has the same sign, an exponent
strictly between that of the number and 0 (or 0), and either the same fraction or the fraction 1/2. It is a finite number of the
format: nothing is rounded and nothing overflows. -/
theorem C102_values (F : Fmt) (neg : Bool) (f : Nat) (e : Int) (hx : (Fl.fin neg f e).Valid F) (l : List (Shr Fl))
    (h : shrinkFloat F (.fin neg f e) = .ok l) (c : Shr Fl) (hc : c ∈ l) (w : Fl) (hw : Reach c w) :
    w.Valid F ∧ (w = .zero false ∨ ∃ e', ((0 ≤ e' ∧ e' < e) ∨ (e < e' ∧ e' ≤ 0)) ∧
      (w = .fin neg f e' ∨ w = .fin neg (2^(F.p - 1)) e')) := by
  obtain ⟨t, ht, rfl⟩ := floating_cases hx h
  rcases mid_reach hx ht w ⟨c, hc, hw⟩ with rfl | ⟨e', hb, hne, hw⟩
  · exact ⟨trivial, .inl rfl⟩
  · refine ⟨?_, .inr ⟨e', by unfold Between0 at hb; omega, hw⟩⟩
    have := Fmt.Finite.between hx hb
    rcases hw with rfl | rfl
    · exact this
    · exact this.half

/-- C102, the other direction: 0 is offered first, and every smaller exponent can be arrived at with the same fraction. -/
theorem C102_complete (F : Fmt) (neg : Bool) (f : Nat) (e : Int) (hx : (Fl.fin neg f e).Valid F) (l : List (Shr Fl))
    (h : shrinkFloat F (.fin neg f e) = .ok l) :
    (∃ r, l = leaf (.zero false) :: r) ∧
    ∀ e', ((0 ≤ e' ∧ e' < e) ∨ (e < e' ∧ e' ≤ 0)) → ∃ c ∈ l, Reach c (.fin neg f e') := by
  obtain ⟨t, ht, rfl⟩ := floating_cases hx h
  exact ⟨⟨_, rfl⟩, fun e' he => reach_mid hx ht (by unfold Between0; omega) (by omega)⟩

/-- The shrinks of 2.5f are 0, 0.625 (then 0.5) and 1.25 (then 1). -/
example : shrinkFloat .single float2_5 = .ok
    [leaf (.zero false), node (.fin false (5 * 2^21) 0) [leaf (.fin false (2^23) 0)],
     node (.fin false (5 * 2^21) 1) [leaf (.fin false (2^23) 1)]] := rfl

/-! ### C103: NaN and zero -/

/-- C103. NaN has the only shrink 0, which has no shrinks; the zeros have no shrinks; an infinity is never a shrink and NaN is
never a shrink of anything. -/
theorem C103_special (F : Fmt) :
    shrinkFloat F .nan = .ok [leaf (.zero false)] ∧ (∀ neg, shrinkFloat F (.zero neg) = .ok []) ∧
    ∀ x l, x.Valid F → shrinkFloat F x = .ok l → ∀ c ∈ l, ∀ w, Reach c w → w ≠ .nan ∧ ∀ neg, w ≠ .inf neg := by
  refine ⟨rfl, fun _ => rfl, ?_⟩
  intro x l hx h c hc w hw
  cases x with
  | nan =>
    cases h
    rw [List.mem_singleton] at hc
    subst hc
    rw [reach_leaf] at hw
    subst hw
    simp
  | zero => cases h; simp at hc
  | inf neg => rw [C101_huge_violated F _ hx (.inl ⟨neg, rfl⟩)] at h; cases h
  | fin neg f e =>
    rcases (C102_values F neg f e hx l h c hc w hw).2 with rfl | ⟨e', _, rfl | rfl⟩ <;> simp

example : (Fl.nan).Valid .double ∧ (Fl.fin true (2^52) 3).Valid .double := by decide +kernel

/-! ### C104: the integer part -/

/-- C104 fails. If the integer part of a number (without sign) is `n`, and `n` is no power of two, then shrinking does not arrive at
a number of magnitude `n`: the "integerfy" step never adds a shrink. -/
theorem C104_integer_part_violated (F : Fmt) (x : Fl) (hx : x.Valid F) (q : ℚ) (hq : x.toRat? F = some q) (n : Nat)
    (hn : (n : ℚ) ≤ |q| ∧ |q| < n + 1) (h0 : n ≠ 0) (h2 : ∀ k, n ≠ 2^k) (l : List (Shr Fl)) (h : shrinkFloat F x = .ok l)
    (c : Shr Fl) (hc : c ∈ l) (w : Fl) (hw : Reach c w) (r : ℚ) (hr : w.toRat? F = some r) : |r| ≠ n := by
  cases x with
  | nan => cases hq
  | inf => cases hq
  | zero => cases h; simp at hc
  | fin neg f e =>
    intro hrn
    have h0' : (1:ℚ) ≤ n := by exact_mod_cast Nat.one_le_iff_ne_zero.mpr h0
    simp only [Fl.toRat?, Option.some.injEq] at hq
    rw [← hq, abs_fin] at hn
    -- the exponent is positive
    have he : 1 ≤ e := by
      have h1 : (1:ℚ) < 2^e := lt_of_le_of_lt (le_trans h0' hn.1) (fin_lt hx)
      have h2 : (2:ℚ)^(0:Int) < 2^e := by simpa using h1
      have := (zpow_lt_zpow_iff_right₀ (by norm_num : (1:ℚ) < 2)).mp h2
      omega
    rcases (C102_values F neg f e hx l h c hc w hw).2 with rfl | ⟨e', he', rfl | rfl⟩
    · simp only [Fl.toRat?, Option.some.injEq] at hr
      subst hr
      rw [abs_zero] at hrn
      linarith
    · simp only [Fl.toRat?, Option.some.injEq] at hr
      rw [← hr, abs_fin] at hrn
      have hle : (f:ℚ) * 2^(e' - F.p) ≤ f * 2^(e - 1 - F.p) := by
        have : (2:ℚ)^(e' - (F.p:Int)) ≤ 2^(e - 1 - (F.p:Int)) := zpow_le_zpow_right₀ (by norm_num) (by omega)
        gcongr
      have heq : (f:ℚ) * 2^(e - F.p) = 2 * (f * 2^(e - 1 - F.p)) := by
        rw [show e - (F.p:Int) = (e - 1 - F.p) + 1 by omega, zpow_add_one₀ (by norm_num)]
        ring
      rw [heq] at hn
      linarith [hn.1, hn.2]
    · simp only [Fl.toRat?, Option.some.injEq] at hr
      rw [← hr, abs_fin, half_mul] at hrn
      by_cases he'' : 1 ≤ e'
      · apply h2 (e' - 1).toNat
        have : ((2:ℚ)^(e' - 1)) = ((2^(e' - 1).toNat : Nat) : ℚ) := by
          rw [Nat.cast_pow, ← zpow_natCast]
          congr 1
          omega
        rw [this] at hrn
        exact_mod_cast hrn.symm
      · have : (2:ℚ)^(e' - 1) < 2^(0:Int) := zpow_lt_zpow_right₀ (by norm_num) (by omega)
        rw [zpow_zero] at this
        linarith

/-- 3.5 = (7/8) * 2^2 has the integer part 3, which is no power of two. -/
example : (Fl.fin false (7 * 2^50) 2).Valid .double ∧ (Fl.fin false (7 * 2^50) 2).toRat? .double = some (7/2) ∧
    (∃ l, shrinkFloat .double (.fin false (7 * 2^50) 2) = .ok l) ∧ (3 : ℚ) ≤ |7/2| ∧ |(7/2 : ℚ)| < 3 + 1 := by
  have hv : (Fl.fin false (7 * 2^50) 2).Valid .double := by decide +kernel
  have hq : (Fl.fin false (7 * 2^50) 2).toRat? .double = some (7/2) := by
    simp only [Fl.toRat?, Fmt.p]
    norm_num
  refine ⟨hv, hq, C101_defined_partial .double _ hv (by simp) ?_, ?_, ?_⟩
  · intro q h
    rw [hq] at h
    cases h
    rw [abs_of_nonneg (by norm_num)]
    norm_num
  · rw [abs_of_nonneg (by norm_num)]; norm_num
  · rw [abs_of_nonneg (by norm_num)]; norm_num

/-! ### C105: a shrink differs from what it shrinks -/

/-- C105 fails. A power of two other than 1/2 whose shrinks are defined has, below its shrinks, a position with a shrink that
has the same value. -/
theorem C105_repeat_violated (F : Fmt) (neg : Bool) (e : Int) (hx : (Fl.fin neg (2^(F.p - 1)) e).Valid F) (he : e ≠ 0)
    (l : List (Shr Fl)) (h : shrinkFloat F (.fin neg (2^(F.p - 1)) e) = .ok l) :
    ∃ c ∈ l, ∃ s d, Desc c s ∧ d ∈ s.shrinks ∧ d.value = s.value := by
  obtain ⟨t, ht, rfl⟩ := floating_cases hx h
  obtain ⟨n, ⟨_, rfl, rfl⟩ | ⟨_, rfl, rfl⟩⟩ := bs_cases (.inl ⟨Fmt.Finite.i64 hx, ht⟩)
  all_goals
    refine ⟨node (.fin neg (2^(F.p - 1)) 0) [leaf (.fin neg (2^(F.p - 1)) 0)], ?_, _, _, .refl _, List.mem_singleton.mpr rfl, rfl⟩
    refine List.mem_cons_of_mem _ (List.mem_map.mpr ⟨leaf 0, ?_, ?_⟩)
    · rw [shrinks_map, List.mem_map]
      refine ⟨leaf 0, ?_, by simp [BinSearch.negNat]⟩
      unfold BinSearch.bsNat
      rw [shrinks_node, if_neg (by omega)]
      simp
    · rw [← Shr.eta (Shr.andThen _ _), value_andThen, shrinks_andThen_nil _ (by simp)]
      simp [frac]

/-- C105, the part that holds: if the number is no power of two, every position below its shrinks differs from all of its own
shrinks, and the shrinks differ from the number. -/
theorem C105_distinct_partial (F : Fmt) (neg : Bool) (f : Nat) (e : Int) (hx : (Fl.fin neg f e).Valid F)
    (hf : f ≠ 2^(F.p - 1)) (l : List (Shr Fl)) (h : shrinkFloat F (.fin neg f e) = .ok l) :
    ∀ c ∈ l, c.value ≠ .fin neg f e ∧ ∀ s d, Desc c s → d ∈ s.shrinks → d.value ≠ s.value := by
  intro c hc
  refine ⟨?_, ?_⟩
  · intro hv
    rcases (C102_values F neg f e hx l h c hc _ (Reach.self c)).2 with h | ⟨e', he', h | h⟩
    · rw [hv] at h; cases h
    · rw [hv] at h; cases h; omega
    · rw [hv] at h; cases h; omega
  · intro s d hs hd
    obtain ⟨t, ht, rfl⟩ := floating_cases hx h
    obtain ⟨t', ht', _, _, _, hne⟩ := exps e (Fmt.Finite.i64 hx)
    rw [ht] at ht'
    cases ht'
    simp only [mid, List.mem_cons, List.mem_map] at hc
    rcases hc with rfl | ⟨c, hc, rfl⟩
    · rw [desc_iff] at hs
      rcases hs with rfl | ⟨u, hu, _⟩
      · simp at hd
      · simp at hu
    · have hk : ∀ s, ∀ c ∈ frac F s, c.shrinks = [] := by
        intro s c hc
        unfold frac at hc
        split at hc
        · rw [List.mem_singleton] at hc; subst hc; rfl
        · simp at hc
      obtain ⟨u, hu, h⟩ := desc_andThen_leaf hk hs
      obtain ⟨x, hx', rfl⟩ := desc_map.mp hu
      rcases h with rfl | ⟨_, h⟩
      · by_cases hxs : x.shrinks = []
        · rw [shrinks_andThen_nil _ (by simpa)] at hd
          simp only [frac, value_map, List.mem_singleton] at hd
          subst hd
          simp only [value_leaf, value_andThen, value_map, ne_eq, Fl.fin.injEq, true_and, and_true]
          exact fun e => hf e.symm
        · rw [shrinks_andThen_ne _ (by simpa)] at hd
          simp only [shrinks_map, List.map_map, List.mem_map] at hd
          obtain ⟨y, hy, rfl⟩ := hd
          have := hne x (.step hc hx') y hy
          simpa using this
      · rw [hk _ _ h] at hd; simp at hd

/-- 1.0f has the shrinks 0 and 0.5, and 0.5 has the shrink 0.5. -/
example : shrinkFloat .single (.fin false (2^23) 1) = .ok
    [leaf (.zero false), node (.fin false (2^23) 0) [leaf (.fin false (2^23) 0)]] := rfl
example : (5 * 2^21 : Nat) ≠ 2^(Fmt.single.p - 1) := by decide

/-! ### C106: which numbers are generated -/

/-- C106. Every value that is generated is a number of the type, and every number of the type (zeros of both signs, subnormal
numbers, infinities and NaN included) is generated for some draw. -/
theorem C106_generated (F : Fmt) :
    (∀ {σ : Type} (R : Rng σ) (s : σ), ∃ x s', arbiValue R F s = .ok (x, s') ∧ x.Valid F) ∧
    ∀ x : Fl, x.Valid F → ∃ R : Rng Unit, arbiValue R F () = .ok (x, ()) := by
  have hpos : (1 : Int) ≤ 2^(F.ebits + F.p) := by
    have := Nat.two_pow_pos (F.ebits + F.p)
    have h : ((2:Int)^(F.ebits + F.p)) = ((2^(F.ebits + F.p) : Nat) : Int) := by simp
    rw [h]; omega
  constructor
  · intro σ R s
    refine ⟨_, (R.draw s 0 (2^(F.ebits + F.p) - 1)).2, ?_, ofBits_valid F (R.draw s 0 (2^(F.ebits + F.p) - 1)).1.toNat⟩
    unfold arbiValue Random.uniform
    rw [if_pos (by omega)]
    rfl
  · intro x hx
    obtain ⟨bits, hb, rfl⟩ := ofBits_surjective F x hx
    refine ⟨Random.wish bits, ?_⟩
    have h : ((2:Int)^(F.ebits + F.p)) = ((2^(F.ebits + F.p) : Nat) : Int) := by simp
    unfold arbiValue Random.uniform
    rw [if_pos (by omega)]
    simp only [Random.wish, Outcome.ok_bind]
    rw [if_pos (by rw [h]; omega)]
    rfl

/-- C106. The generated shrinkable carries the generated value and its shrinks. -/
theorem C106_shrinkable {σ : Type} (R : Rng σ) (F : Fmt) (s s' : σ) (t : Shr Fl) (h : arbi R F s = .ok (t, s')) :
    arbiValue R F s = .ok (t.value, s') ∧ shrinkFloat F t.value = .ok t.shrinks := by
  unfold arbi at h
  cases hv : arbiValue R F s with
  | ok r =>
    rw [hv, Outcome.ok_bind] at h
    cases hs : shrinkFloat F r.1 with
    | ok l =>
      simp only [hs, Outcome.ok_bind] at h
      cases h
      exact ⟨rfl, hs⟩
    | _ => simp only [hs] at h; cases h
  | _ => rw [hv] at h; cases h

/-- The bits of 2.5f, of the smallest double and of infinity. -/
example : ofBits .single 0x40200000 = float2_5 ∧ ofBits .double 1 = .fin false (2^52) (-1073) ∧
    ofBits .double 0xFFF0000000000000 = .inf true := by decide +kernel
example : ∃ t, arbi (Random.wish 0x40200000) .single () = .ok (t, ()) ∧ t.value = float2_5 ∧ t.shrinks.length = 3 :=
  ⟨node float2_5 [leaf (.zero false), node (.fin false (5 * 2^21) 0) [leaf (.fin false (2^23) 0)],
     node (.fin false (5 * 2^21) 1) [leaf (.fin false (2^23) 1)]], rfl, rfl, rfl⟩

/-! ### C107: magnitude -/

/-- C107 fails. Every number of magnitude less than 1/2 other than 0 has a shrink of larger magnitude. -/
theorem C107_larger_violated (F : Fmt) (neg : Bool) (f : Nat) (e : Int) (hx : (Fl.fin neg f e).Valid F)
    (q : ℚ) (hq : (Fl.fin neg f e).toRat? F = some q) (hh : |q| < 1/2) (l : List (Shr Fl)) (h : shrinkFloat F (.fin neg f e) = .ok l) :
    ∃ c ∈ l, ∃ w r, Reach c w ∧ w.toRat? F = some r ∧ |q| < |r| := by
  have he : e ≤ -1 := by
    simp only [Fl.toRat?, Option.some.injEq] at hq
    rw [← hq, abs_fin] at hh
    have h2 : (2:ℚ)^(e - 1) < 2^(-1:Int) := lt_of_le_of_lt (fin_ge hx) (by norm_num; linarith)
    have := (zpow_lt_zpow_iff_right₀ (by norm_num : (1:ℚ) < 2)).mp h2
    omega
  obtain ⟨c, hc, hw⟩ := (C102_complete F neg f e hx l h).2 0 (.inr ⟨by omega, Int.le_refl _⟩)
  refine ⟨c, hc, _, _, hw, rfl, ?_⟩
  simp only [Fl.toRat?, Option.some.injEq] at hq
  rw [← hq, abs_fin, abs_fin]
  have h1 := fin_lt hx
  have h2 := fin_ge (Fmt.Finite.between (e' := 0) hx (by unfold Between0; omega))
  have h3 : (2:ℚ)^e ≤ 2^((0:Int) - 1) := zpow_le_zpow_right₀ (by norm_num) (by omega)
  linarith

/-- C107, the part that holds: if the magnitude is at least 1/2, every number below the shrinks has at most half the magnitude
and does not change sign. -/
theorem C107_halved_partial (F : Fmt) (x : Fl) (hx : x.Valid F) (q : ℚ) (hq : x.toRat? F = some q) (hh : 1/2 ≤ |q|)
    (l : List (Shr Fl)) (h : shrinkFloat F x = .ok l) (c : Shr Fl) (hc : c ∈ l) (w : Fl) (hw : Reach c w) :
    ∃ r, w.toRat? F = some r ∧ |r| ≤ |q| / 2 ∧ 0 ≤ q * r := by
  cases x with
  | nan => cases hq
  | inf => cases hq
  | zero => cases h; simp at hc
  | fin neg f e =>
    simp only [Fl.toRat?, Option.some.injEq] at hq
    subst hq
    rw [abs_fin] at hh ⊢
    have hpos : (0:ℚ) ≤ f * 2^(e - F.p) := by positivity
    have he : 0 ≤ e := by
      have h2 : (2:ℚ)^(-1:Int) < 2^e := lt_of_le_of_lt (by norm_num; linarith) (fin_lt hx)
      have := (zpow_lt_zpow_iff_right₀ (by norm_num : (1:ℚ) < 2)).mp h2
      omega
    have hdouble : (f:ℚ) * 2^(e - F.p) = 2 * (f * 2^(e - 1 - F.p)) := by
      rw [show e - (F.p:Int) = (e - 1 - F.p) + 1 by omega, zpow_add_one₀ (by norm_num)]
      ring
    have hsign : ∀ a b : ℚ, 0 ≤ a → 0 ≤ b → 0 ≤ ((if neg then -1 else 1) * a) * ((if neg then -1 else 1) * b) := by
      intro a b ha hb
      cases neg
      · simpa using mul_nonneg ha hb
      · simpa using mul_nonneg ha hb
    rcases (C102_values F neg f e hx l h c hc w hw).2 with rfl | ⟨e', he', rfl | rfl⟩
    · exact ⟨0, rfl, by rw [abs_zero]; linarith, by simp⟩
    · refine ⟨_, rfl, ?_, ?_⟩
      · rw [abs_fin, hdouble]
        have : (2:ℚ)^(e' - (F.p:Int)) ≤ 2^(e - 1 - (F.p:Int)) := zpow_le_zpow_right₀ (by norm_num) (by omega)
        have : (f:ℚ) * 2^(e' - F.p) ≤ f * 2^(e - 1 - F.p) := by gcongr
        linarith
      · have := hsign _ _ hpos (by positivity : (0:ℚ) ≤ f * 2^(e' - F.p))
        simpa only [mul_assoc] using this
    · refine ⟨_, rfl, ?_, ?_⟩
      · rw [abs_fin, hdouble, half_mul]
        have h1 : (2:ℚ)^(e' - 1) ≤ 2^(e - 1 - 1) := zpow_le_zpow_right₀ (by norm_num) (by omega)
        have h2 := fin_ge (Fmt.Finite.between (e' := e - 1) hx (by unfold Between0; omega))
        linarith
      · have := hsign _ _ hpos (by positivity : (0:ℚ) ≤ ((2^(F.p - 1) : Nat) : ℚ) * 2^(e' - F.p))
        simpa only [mul_assoc] using this

/-- 0.15625 = (5/8) * 2^(-2) has the shrink 0.625; 2.5 is in the other part. -/
example : (Fl.fin false (5 * 2^21) (-2)).Valid .single ∧
    ∃ l, shrinkFloat .single (.fin false (5 * 2^21) (-2)) = .ok l ∧
      (leaf (.fin false (5 * 2^21) 0)).andThen (frac .single) ∈ l :=
  ⟨by decide +kernel, _, rfl, List.mem_cons_of_mem _ (List.mem_cons_self ..)⟩

end Verif
