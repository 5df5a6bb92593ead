import Verif.Props.FloatSet
import Verif.Props.ChanceSet
/-
C163: how likely the generators of sets of floating point numbers do not return (Spec/Chance.lean).
-/
namespace Verif
open Shr Random ListLike Floating FloatSet
variable {bal : Balance} (hb : ∀ (β : Type) (t : SetTree β), (bal β t).toList = t.toList)

/-- The experiment of filling a set. -/
def treeExp (bal : Balance) (F : Fmt) (e : Exp (Outcome (Shr Fl))) (size : Nat) :
    Nat → SetTree (Shr Fl) → Exp (Outcome (SetTree (Shr Fl)))
  | 0, t => if t.toList.length < size then .ret .diverges else .ret (.ok t)
  | m + 1, t =>
    if t.toList.length < size then e.andThen fun x => treeExp bal F e size m (insert bal (onValue (less F)) x t)
    else .ret (.ok t)

theorem follows_tree (F : Fmt) {g : Src (Shr Fl)} {e : Exp (Outcome (Shr Fl))} (h : Follows g e) (size m : Nat)
    (t : SetTree (Shr Fl)) : Follows (fun σ R s => fill bal (less F) (g σ R) size m t s) (treeExp bal F e size m t) := by
  induction m generalizing t with
  | zero =>
    unfold fill treeExp
    split
    · exact ⟨trivial, fun _ _ _ => rfl⟩
    · exact Follows.pure t
  | succ m ih =>
    unfold fill treeExp
    split
    · exact h.bind fun x => ih _
    · exact Follows.pure t

theorem tree_valid (F : Fmt) {e : Exp (Outcome (Shr Fl))} (h : e.Valid) (size m : Nat) (t : SetTree (Shr Fl)) :
    (treeExp bal F e size m t).Valid := by
  induction m generalizing t with
  | zero =>
    unfold treeExp
    split <;> trivial
  | succ m ih =>
    unfold treeExp
    split
    · refine Exp.valid_bind (fun o => ?_) h
      cases o with
      | ok x => exact ih _
      | throws x => trivial
      | ub => trivial
      | diverges => trivial
    · trivial

theorem mean_val_zero {α : Type} (e : Exp (Outcome α)) : e.mean (val fun _ => 0) = 0 := by
  have h0 := mean_and e (fun _ => true) 0
  simpa using h0

theorem mean_val_one {α : Type} (e : Exp (Outcome α)) : e.mean (val fun _ => 1) = e.mean (hit fun _ => true) := by
  rw [hit_eq]; simp

theorem mean_val_le {α : Type} (e : Exp (Outcome α)) (hv : e.Valid) : e.mean (val fun _ => 1) ≤ 1 := by
  refine le_of_le_of_eq (Exp.mean_le (g := fun _ => 1) (fun o => ?_) hv) (Exp.mean_const 1 hv)
  cases o <;> simp [val]

/-- A set of NaN stays as it is. -/
theorem tree_nan (F : Fmt) (e : Exp (Outcome (Shr Fl))) (size : Nat) (h2 : 2 ≤ size) (m : Nat) (t : SetTree (Shr Fl)) (x : Shr Fl)
    (ht : t.toList = [x]) (hx : x.value = .nan) : (treeExp bal F e size m t).mean (val fun _ => 1) = 0 := by
  induction m with
  | zero =>
    rw [treeExp, if_pos (by rw [ht]; simp; omega)]
    rfl
  | succ m ih =>
    rw [treeExp, if_pos (by rw [ht]; simp; omega), mean_andThen]
    have l1 : ∀ v, less F v .nan = false := fun v => by cases v <;> rfl
    have l2 : ∀ v, less F .nan v = false := fun v => by cases v <;> rfl
    have : ∀ y, insert bal (onValue (less F)) y t = t := fun y =>
      insert_rejected (by rw [ht]; simp) (fun z hz => by rw [ht, List.mem_singleton] at hz; rw [onValue, hz, hx, l1])
        (fun z hz => by rw [ht, List.mem_singleton] at hz; rw [onValue, hz, hx, l2])
    simp only [this, ih]
    exact mean_val_zero e

include hb in
/-- The loop ends with probability 1 if the set is without NaN and enough numbers have a positive probability. -/
theorem tree_done (F : Fmt) (e : Exp (Outcome (Shr Fl))) (hv : e.Valid) (hret : e.mean (hit fun _ => true) = 1) (U : List Fl)
    (hU : (U.filterMap (Fl.number F)).Nodup) (hUn : ∀ u ∈ U, u ≠ .nan) (δ : ℚ) (hδ : 0 < δ) (hδ1 : δ ≤ 1)
    (hp : ∀ u ∈ U, δ ≤ e.mean (hit fun t => decide (t.value = u)))
    (size : Nat) (hsize : size ≤ U.length) (m : Nat) (t : SetTree (Shr Fl)) (b : Nat)
    (hs : Ordered (onValue (less F)) t.toList) (hn : ∀ y ∈ t.toList, Fl.number F y.value ≠ none) (ht : t.toList ≠ [])
    (hsz : t.toList.length + b = size) :
    1 - (2 / δ) ^ b * (1 - δ / 2) ^ m ≤ (treeExp bal F e size m t).mean (val fun _ => 1) := by
  have hk : ByKey (onValue (less F)) (fun a : Shr Fl => Fl.number F a.value) := (less_byKey F).comp Shr.value
  have hρ : (0 : ℚ) ≤ 1 - δ / 2 := by linarith
  have h2δ : (1 : ℚ) ≤ 2 / δ := by rw [le_div_iff₀ hδ]; linarith
  induction m generalizing t b with
  | zero =>
    unfold treeExp
    cases b with
    | zero => rw [if_neg (by omega)]; simp [Exp.mean, val]
    | succ b =>
      rw [if_pos (by omega)]
      have : (1 : ℚ) ≤ (2 / δ) ^ (b + 1) := one_le_pow₀ h2δ
      simp only [Exp.mean, val, pow_zero, mul_one]
      linarith
  | succ m ih =>
    unfold treeExp
    cases b with
    | zero =>
      rw [if_neg (by omega)]
      have : (0 : ℚ) ≤ (1 - δ / 2) ^ (m + 1) := pow_nonneg hρ _
      simp only [Exp.mean, val, pow_zero, one_mul]; linarith
    | succ b =>
      rw [if_pos (by omega), mean_andThen]
      have hm0 : (0 : ℚ) ≤ (1 - δ / 2) ^ m := pow_nonneg hρ m
      set y : ℚ := (1 - δ / 2) ^ m with hy
      set B : ℚ := (2 / δ) ^ b with hB
      have hB0 : 0 ≤ B := by positivity
      have hB1 : (2 / δ) ^ (b + 1) = 2 / δ * B := by rw [pow_succ]; ring
      -- numbers that make no difference
      let old : Fl → Prop := fun v => Fl.number F v = none ∨ Fl.number F v ∈ t.toList.map fun z => Fl.number F z.value
      haveI : DecidablePred old := fun v => inferInstanceAs (Decidable (_ ∨ _))
      obtain ⟨u, hu, hun⟩ : ∃ u ∈ U, ¬ old u := by
        by_contra hc
        push Not at hc
        have hlen : (U.filterMap (Fl.number F)).length = U.length := by
          rw [List.length_filterMap_eq_countP, List.countP_eq_length]
          intro v hv
          exact Option.isSome_iff_ne_none.2 fun h => hUn v hv ((number_none F v).1 h)
        have hsub : U.filterMap (Fl.number F) ⊆ t.toList.filterMap fun z => Fl.number F z.value := by
          intro k hk'
          obtain ⟨v, hv', hvk⟩ := List.mem_filterMap.1 hk'
          rcases hc v hv' with h | h
          · exact absurd ((number_none F v).1 h) (hUn v hv')
          · obtain ⟨z, hz, ez⟩ := List.mem_map.1 h
            exact List.mem_filterMap.2 ⟨z, hz, ez.trans hvk⟩
        have h1 := (List.subperm_of_subset hU hsub).length_le
        have h2 := List.length_filterMap_le (fun z : Shr Fl => Fl.number F z.value) t.toList
        omega
      have hin : e.mean (hit fun x => decide (old x.value)) ≤ 1 - δ := by
        have h1 : e.mean (hit fun x => decide (old x.value)) + e.mean (hit fun t => decide (t.value = u)) ≤ 1 := by
          rw [← Exp.mean_add, ← hret]
          refine Exp.mean_le (fun o => ?_) hv
          cases o with
          | ok x =>
            simp only [hit, if_true]
            by_cases h1 : old x.value
            · have h2 : x.value ≠ u := fun h => hun (h ▸ h1)
              simp [h1, h2]
            · simp only [h1, decide_false, Bool.false_eq_true, if_false, zero_add]
              split <;> norm_num
          | throws x => simp [hit]
          | ub => simp [hit]
          | diverges => simp [hit]
        have := hp u hu
        linarith
      have hlow : e.mean (val fun x => 1 - B * y - (if decide (old x.value) = true then (2 / δ * B - B) * y else 0)) ≤
          e.mean (val fun x => (treeExp bal F e size m (insert bal (onValue (less F)) x t)).mean (val fun _ => 1)) := by
        refine val_le (fun x => ?_) hv
        by_cases h1 : old x.value
        · have hsame : insert bal (onValue (less F)) x t = t := by
            rcases h1 with h1 | h1
            · have hx : x.value = .nan := (number_none F _).1 h1
              have l1 : ∀ v, less F v .nan = false := fun v => by cases v <;> rfl
              have l2 : ∀ v, less F .nan v = false := fun v => by cases v <;> rfl
              exact insert_rejected ht (fun z _ => by rw [onValue, hx, l2]) (fun z _ => by rw [onValue, hx, l1])
            · obtain ⟨z, hz, ez⟩ := List.mem_map.1 h1
              cases hxk : Fl.number F x.value with
              | none => rw [hxk] at ez; exact absurd ez (hn z hz)
              | some k =>
                have := (insert_sorted hb hk hxk hs hn).2
                rwa [if_pos ⟨z, hz, ez.trans hxk⟩] at this
          rw [hsame]
          have := ih t (b + 1) hs hn ht hsz
          rw [hB1] at this
          simp only [h1, decide_true, if_true]
          linarith
        · have h1' := h1
          simp only [old, not_or] at h1'
          obtain ⟨g1, g2⟩ := h1'
          cases hxk : Fl.number F x.value with
          | none => exact absurd hxk g1
          | some k =>
            obtain ⟨j1, j2⟩ := insert_sorted hb hk hxk hs hn
            rw [if_neg fun ⟨z, hz, ez⟩ => g2 (List.mem_map.2 ⟨z, hz, ez.trans hxk.symm⟩)] at j2
            have := ih (insert bal (onValue (less F)) x t) b j1 (fun z hz => by
                rcases List.mem_cons.1 (j2.subset hz) with rfl | hz
                · exact g1
                · exact hn z hz) (fun h0 => by
                have := j2.length_eq; rw [h0] at this; simp at this)
              (by rw [j2.length_eq, List.length_cons]; omega)
            simp only [h1, decide_false, Bool.false_eq_true, if_false]
            linarith
      refine le_trans ?_ hlow
      have e2 : (val fun x : Shr Fl => 1 - B * y - (if decide (old x.value) = true then (2 / δ * B - B) * y else 0)) =
          fun o => (1 - B * y) * hit (fun _ => true) o + (-((2 / δ * B - B) * y)) * hit (fun x => decide (old x.value)) o := by
        funext o
        cases o with
        | ok x => simp only [val, hit]; split <;> simp; ring
        | throws x => simp [val, hit]
        | ub => simp [val, hit]
        | diverges => simp [val, hit]
      rw [e2, Exp.mean_add, Exp.mean_mul, Exp.mean_mul, hret, hB1, pow_succ, ← hy]
      have hD : 0 ≤ (2 / δ * B - B) * y := by
        refine mul_nonneg ?_ hm0
        nlinarith
      have h3 : (2 / δ * B - B) * y * e.mean (hit fun x => decide (old x.value)) ≤
          (2 / δ * B - B) * y * (1 - δ) := mul_le_mul_of_nonneg_left hin hD
      have h4 : (2 / δ * B - B) * y * (1 - δ) + B * y = (2 / δ * B) * (y * (1 - δ / 2)) - (1 - δ) * (B * y) := by
        field_simp
        ring
      have h5 : 0 ≤ (1 - δ) * (B * y) := mul_nonneg (by linarith) (mul_nonneg hB0 hm0)
      linarith

theorem sat_tree (F : Fmt) (e : Exp (Outcome (Shr Fl))) (size m : Nat) (t : SetTree (Shr Fl)) :
    (treeExp bal F e size m t).Sat fun o => ∀ u, o = .ok u → size ≤ u.toList.length := by
  induction m generalizing t with
  | zero =>
    unfold treeExp
    split
    · intro u hu; cases hu
    · next h => intro u hu; cases hu; omega
  | succ m ih =>
    unfold treeExp
    split
    · refine Exp.sat_bind (Exp.sat_true e) fun o _ => ?_
      cases o with
      | ok x => exact ih _
      | throws x => intro u hu; cases hu
      | ub => intro u hu; cases hu
      | diverges => intro u hu; cases hu
    · next h => intro u hu; cases hu; omega

theorem follows_floats (F : Fmt) : Follows (fun _ R s => floats R F s)
    (.draw 0 (2^(F.ebits + F.p) - 1) fun v => .ret (.ok (leaf (ofBits F v.toNat)))) := by
  have h := (follows_value F).bind fun v => Follows.pure (leaf v)
  exact h

theorem chance_floats (F : Fmt) {E : Fl → Bool} {p : ℚ} (h : Chance (fun _ R s => arbiValue R F s) E p) :
    Chance (fun _ R s => floats R F s) (fun t => E t.value) p := by
  have h1 := chance_unique h ⟨_, follows_value F, rfl⟩
  refine ⟨_, follows_floats F, ?_⟩
  rw [h1]
  rfl

/-- Numbers between 1/2 and 1 that are all different. -/
def spaced (F : Fmt) : List Fl := (List.range (2^(F.p - 1))).map fun i => .fin false (2^(F.p - 1) + i) 0

theorem spaced_valid (F : Fmt) : ∀ u ∈ spaced F, u.Valid F ∧ u ≠ .nan := by
  intro u hu
  obtain ⟨i, hi, rfl⟩ := List.mem_map.1 hu
  rw [List.mem_range] at hi
  have hpp : 2^F.p = 2 * 2^(F.p - 1) := by rw [← Nat.pow_succ']; congr 1; have := F.p_pos; omega
  refine ⟨⟨by omega, by omega, by have := F.emax_ge; omega, ?_⟩, by simp⟩
  have : (F.emin - (0 - F.p)).toNat = 0 := by have := F.emin_p; omega
  rw [this]
  simp

theorem spaced_different (F : Fmt) : ((spaced F).filterMap (Fl.number F)).Nodup := by
  unfold spaced
  rw [List.filterMap_map]
  have : (Fl.number F ∘ fun i : Nat => Fl.fin false (2^(F.p - 1) + i) 0) = some ∘ fun i : Nat =>
      (((((2^(F.p - 1) + i : Nat) : ℚ) * 2^((0 : Int) - F.p) : ℚ) : WithTop ℚ) : WithBot (WithTop ℚ)) := by
    funext i
    simp [Fl.number, Fl.toRat?]
  rw [this]
  have h2 : (List.range (2^(F.p - 1))).filterMap (some ∘ fun i : Nat =>
      (((((2^(F.p - 1) + i : Nat) : ℚ) * 2^((0 : Int) - F.p) : ℚ) : WithTop ℚ) : WithBot (WithTop ℚ))) =
      (List.range (2^(F.p - 1))).map fun i : Nat =>
      (((((2^(F.p - 1) + i : Nat) : ℚ) * 2^((0 : Int) - F.p) : ℚ) : WithTop ℚ) : WithBot (WithTop ℚ)) :=
    congrFun List.filterMap_eq_map _
  rw [h2]
  refine List.Nodup.map (fun i j hij => ?_) List.nodup_range
  have h3 := WithTop.coe_injective (WithBot.coe_injective hij)
  have h4 : ((2 : ℚ)^((0 : Int) - F.p)) ≠ 0 := by positivity
  have h5 := mul_right_cancel₀ h4 h3
  have h6 : 2^(F.p - 1) + i = 2^(F.p - 1) + j := by exact_mod_cast h5
  omega

include hb in
/-- How likely the loop ends, for every size. -/
theorem tree_limit (F : Fmt) (e : Exp (Outcome (Shr Fl))) (hv : e.Valid) (hret : e.mean (hit fun _ => true) = 1) (U : List Fl)
    (hU : (U.filterMap (Fl.number F)).Nodup) (hUn : ∀ u ∈ U, u ≠ .nan) (δ : ℚ) (hδ : 0 < δ) (hδ1 : δ ≤ 1)
    (hp : ∀ u ∈ U, δ ≤ e.mean (hit fun t => decide (t.value = u))) (maxSize size : Nat) (hle : size ≤ maxSize)
    (hsize : size ≤ U.length) (m : Nat) :
    |(treeExp bal F e size m .nil).mean (val fun _ => 1) -
      (1 - if 2 ≤ size then e.mean (hit fun t => decide (t.value = .nan)) else 0)| ≤ 2 * (2 / δ) ^ maxSize * (1 - δ / 2) ^ m := by
  have hρ : (1 / 2 : ℚ) ≤ 1 - δ / 2 := by linarith
  have h2δ : (1 : ℚ) ≤ 2 / δ := by rw [le_div_iff₀ hδ]; linarith
  have hC : (1 : ℚ) ≤ (2 / δ) ^ maxSize := one_le_pow₀ h2δ
  have hy : (0 : ℚ) ≤ (1 - δ / 2) ^ m := pow_nonneg (by linarith) m
  have hpn1 : e.mean (hit fun t => decide (t.value = .nan)) ≤ 1 := by
    rw [← hret]
    refine Exp.mean_le (fun o => ?_) hv
    cases o with
    | ok x => simp only [hit, if_true]; split <;> norm_num
    | throws x => simp [hit]
    | ub => simp [hit]
    | diverges => simp [hit]
  have hpn0 : 0 ≤ e.mean (hit fun t => decide (t.value = .nan)) := by
    rw [← Exp.mean_const (e := e) (0 : ℚ) hv]
    refine Exp.mean_le (fun o => ?_) hv
    cases o with
    | ok x => simp only [hit]; split <;> norm_num
    | throws x => simp [hit]
    | ub => simp [hit]
    | diverges => simp [hit]
  set pn := e.mean (hit fun t => decide (t.value = .nan)) with hpn
  have hif : (0 : ℚ) ≤ (if 2 ≤ size then pn else 0) ∧ (if 2 ≤ size then pn else 0) ≤ 1 := by
    split
    · exact ⟨hpn0, hpn1⟩
    · norm_num
  rcases Nat.eq_zero_or_pos size with rfl | hpos
  · have h1 : (treeExp bal F e 0 m .nil).mean (val fun _ => 1) = 1 := by
      cases m <;> simp [treeExp, Exp.mean, val]
    rw [h1]
    simp only [show ¬ 2 ≤ 0 by decide, if_false, sub_zero, sub_self, abs_zero]
    positivity
  cases m with
  | zero =>
    have h1 : (treeExp bal F e size 0 .nil).mean (val fun _ => 1) = 0 := by
      rw [treeExp, if_pos (by simpa [SetTree.toList] using hpos)]
      rfl
    rw [h1, pow_zero, mul_one, abs_le]
    constructor <;> linarith [hif.1, hif.2]
  | succ m =>
    have hk : ByKey (onValue (less F)) (fun a : Shr Fl => Fl.number F a.value) := (less_byKey F).comp Shr.value
    have one : ∀ x : Shr Fl, (insert bal (onValue (less F)) x .nil).toList = [x] := fun x => insert_empty _ x rfl hb
    rw [treeExp, if_pos (by simpa [SetTree.toList] using hpos), mean_andThen]
    have e1 : ∀ (c : ℚ), (val fun x : Shr Fl => c * (if decide (x.value = .nan) = true then 0 else 1)) =
        fun o => c * hit (fun _ => true) o + (-c) * hit (fun t => decide (t.value = .nan)) o := by
      intro c
      funext o
      cases o with
      | ok x => simp only [val, hit]; split <;> simp
      | throws x => simp [val, hit]
      | ub => simp [val, hit]
      | diverges => simp [val, hit]
    have e2 : ∀ (c : ℚ), e.mean (val fun x : Shr Fl => c * (if decide (x.value = .nan) = true then 0 else 1)) = c * (1 - pn) := by
      intro c
      rw [e1, Exp.mean_add, Exp.mean_mul, Exp.mean_mul, hret, ← hpn]
      ring
    by_cases h2 : 2 ≤ size
    · rw [if_pos h2]
      have hy' : (0 : ℚ) ≤ (1 - δ / 2) ^ m := pow_nonneg (by linarith) m
      have up : e.mean (val fun x => (treeExp bal F e size m (insert bal (onValue (less F)) x .nil)).mean (val fun _ => 1)) ≤ 1 - pn := by
        rw [← one_mul (1 - pn), ← e2 1]
        refine val_le (fun x => ?_) hv
        by_cases hx : x.value = .nan
        · rw [tree_nan F e size h2 m _ x (one x) hx]
          simp [hx]
        · simp only [hx, decide_false, Bool.false_eq_true, if_false, mul_one]
          exact mean_val_le _ (tree_valid F hv size m _)
      have low : (1 - (2 / δ) ^ maxSize * (1 - δ / 2) ^ m) * (1 - pn) ≤
          e.mean (val fun x => (treeExp bal F e size m (insert bal (onValue (less F)) x .nil)).mean (val fun _ => 1)) := by
        rw [← e2]
        refine val_le (fun x => ?_) hv
        by_cases hx : x.value = .nan
        · rw [tree_nan F e size h2 m _ x (one x) hx]
          simp [hx]
        · simp only [hx, decide_false, Bool.false_eq_true, if_false, mul_one]
          refine le_trans ?_ (tree_done hb F e hv hret U hU hUn δ hδ hδ1 hp size hsize m _ (size - 1) ?_ ?_ ?_ ?_)
          · have : (2 / δ) ^ (size - 1) ≤ (2 / δ) ^ maxSize := pow_le_pow_right₀ h2δ (by omega)
            have := mul_le_mul_of_nonneg_right this hy'
            linarith
          · rw [one]; exact List.pairwise_singleton _ _
          · rw [one]
            intro y hy
            rw [List.mem_singleton] at hy
            rw [hy]
            exact fun h => hx ((number_none F _).1 h)
          · rw [one]; simp
          · rw [one]; simp; omega
      have h3 : (1 - δ / 2) ^ m ≤ 2 * (1 - δ / 2) ^ (m + 1) := by
        rw [pow_succ]
        nlinarith
      have h4 : (2 / δ) ^ maxSize * (1 - δ / 2) ^ m * (1 - pn) ≤ 2 * (2 / δ) ^ maxSize * (1 - δ / 2) ^ (m + 1) := by
        have h5 : (2 / δ) ^ maxSize * (1 - δ / 2) ^ m ≤ (2 / δ) ^ maxSize * (2 * (1 - δ / 2) ^ (m + 1)) :=
          mul_le_mul_of_nonneg_left h3 (by linarith)
        have h6 : 0 ≤ (2 / δ) ^ maxSize * (1 - δ / 2) ^ m := mul_nonneg (by linarith) hy'
        nlinarith
      have h7 : 0 ≤ 2 * (2 / δ) ^ maxSize * (1 - δ / 2) ^ (m + 1) := by positivity
      rw [abs_le]
      constructor <;> linarith
    · have hs1 : size = 1 := by omega
      subst hs1
      have h1 : ∀ x : Shr Fl, (treeExp bal F e 1 m (insert bal (onValue (less F)) x .nil)).mean (val fun _ => 1) = 1 := by
        intro x
        cases m <;> simp [treeExp, one, Exp.mean, val]
      simp only [h1]
      rw [mean_val_one, hret]
      simp only [show ¬ 2 ≤ 1 by decide, if_false, sub_zero, sub_self, abs_zero]
      positivity

include hb in
/-- C163. With which probability the generator of sets of floating point numbers returns (in the limit of more and more
iterations of its loop; the rest is the probability that the loop never ends): 1 for sizes below 2, and for larger sizes the
probability that the first number is not NaN. All sizes from `minSize` to `maxSize` are equally likely. So for sets of 2 or more
floats, one of 256 calls of the generator hangs. -/
theorem C163_chance_violated (F : Fmt) (minSize maxSize : Nat) (h : minSize ≤ maxSize) (hm : maxSize < 2 ^ 32)
    (hF : maxSize ≤ 2 ^ (F.p - 1)) :
    ChanceLimit (fun m σ R s => FloatSet.arbiSet bal (less F) R (floats R F) minSize maxSize m s) (fun _ => true)
      (1 - ((maxSize + 1 - max minSize 2 : Nat) : ℚ) / (maxSize - minSize + 1) * ((2 ^ F.p - 2) / 2 ^ (F.ebits + F.p))) := by
  obtain ⟨hv, -⟩ := follows_floats F
  set e : Exp (Outcome (Shr Fl)) := .draw 0 (2^(F.ebits + F.p) - 1) fun v => .ret (.ok (leaf (ofBits F v.toNat))) with he
  have hfol : Follows (fun _ R s => floats R F s) e := follows_floats F
  have ch : ∀ {E : Fl → Bool} {p : ℚ}, Chance (fun _ R s => arbiValue R F s) E p → e.mean (hit fun t => E t.value) = p :=
    fun hc => (chance_unique (chance_floats F hc) ⟨e, hfol, rfl⟩).symm
  have hnan := ch (C146_nan F)
  have hret : e.mean (hit fun _ => true) = 1 := by
    rw [← Exp.mean_const (e := e) 1 hv, he, Exp.mean, Exp.mean]
    rfl
  set δ : ℚ := 1 / 2 ^ (F.ebits + F.p) with hδ
  have hδ0 : 0 < δ := by positivity
  have hδ1 : δ ≤ 1 := by rw [hδ, div_le_one (by positivity)]; exact one_le_pow₀ (by norm_num)
  have hp : ∀ u ∈ spaced F, δ ≤ e.mean (hit fun t => decide (t.value = u)) := fun u hu =>
    (ch (C146_value F u (spaced_valid F u hu).1 (spaced_valid F u hu).2)).ge
  have hlen : (spaced F).length = 2 ^ (F.p - 1) := by simp [spaced]
  have hN : (1 : ℚ) ≤ maxSize - minSize + 1 := by
    have : (minSize : ℚ) ≤ maxSize := by exact_mod_cast h
    linarith
  set pn : ℚ := (2 ^ F.p - 2) / 2 ^ (F.ebits + F.p) with hpn
  -- the probability with at most `m` iterations
  have hc : ∀ m, Chance (fun σ R s => FloatSet.arbiSet bal (less F) R (floats R F) minSize maxSize m s) (fun _ => true)
      ((∑ v ∈ Finset.Icc (minSize : Int) maxSize, (treeExp bal F e v.toNat m .nil).mean (val fun _ => 1)) /
        (maxSize - minSize + 1)) := by
    intro m
    have hf : Follows (fun σ R s => (fun σ R s => (fill bal (less F) (floats R F) (R.draw s minSize maxSize).1.toNat m .nil
        (R.draw s minSize maxSize).2 >>= fun p => (FloatSet.shrinkSet bal (less F) p.1.toList minSize).bind fun t => .ok (t, p.2)) :
          Src (Shr (List Fl))) σ R s)
        (.draw minSize maxSize fun v => (treeExp bal F e v.toNat m .nil).andThen fun t =>
          .ret (FloatSet.shrinkSet bal (less F) t.toList minSize)) :=
      Follows.draw (g := fun v σ R s => fill bal (less F) (floats R F) v.toNat m .nil s >>= fun p =>
          (FloatSet.shrinkSet bal (less F) p.1.toList minSize).bind fun t => .ok (t, p.2))
        (by omega) fun v => (follows_tree F hfol v.toNat m .nil).bind fun t => Follows.const _
    refine ⟨_, hf.congr fun σ R s => ?_, ?_⟩
    · rw [FloatSet.arbiSet, getRandomSize_eq R s (by omega) (by omega)]
      have : ((maxSize + 1 : Nat) : Int) - 1 = maxSize := by omega
      rw [this, Outcome.ok_bind]
      rfl
    · rw [Exp.mean]
      have key : ∀ v : Int, v ∈ Finset.Icc (minSize : Int) maxSize →
          ((treeExp bal F e v.toNat m .nil).andThen fun t =>
            .ret (FloatSet.shrinkSet bal (less F) t.toList minSize)).mean (hit fun _ => true) =
          (treeExp bal F e v.toNat m .nil).mean (val fun _ => 1) := by
        intro v hv'
        rw [Finset.mem_Icc] at hv'
        rw [hit_eq, mean_andThen, ← hit_eq]
        refine Exp.mean_congr (fun o ho => ?_) (sat_tree F e v.toNat m .nil)
        cases o with
        | ok t =>
          have := ho t rfl
          obtain ⟨t0, h0⟩ := (C24_defined t.toList minSize).1.2 (by omega)
          have h1 : ∃ t1, FloatSet.shrinkSet bal (less F) t.toList minSize = .ok t1 := by
            unfold FloatSet.shrinkSet
            rw [h0]
            exact ⟨_, rfl⟩
          obtain ⟨t1, h1⟩ := h1
          simp [val, Exp.mean, h1, hit]
        | throws x => rfl
        | ub => rfl
        | diverges => rfl
      rw [Finset.sum_congr rfl key]
      push_cast
      rfl
  refine limit_of_bound (C := 2 * (2 / δ) ^ maxSize) (ρ := 1 - δ / 2) (by linarith) (by linarith) hc fun m => ?_
  have hcount : ∑ v ∈ Finset.Icc (minSize : Int) maxSize, (1 - if 2 ≤ v.toNat then pn else 0) =
      (maxSize - minSize + 1) - ((maxSize + 1 - max minSize 2 : Nat) : ℚ) * pn := by
    rw [Finset.sum_sub_distrib, Finset.sum_const, ← Finset.sum_filter, Finset.sum_const, nsmul_eq_mul, nsmul_eq_mul, mul_one]
    have f1 : (Finset.Icc (minSize : Int) maxSize).filter (fun v => 2 ≤ v.toNat) = Finset.Icc ((max minSize 2 : Nat) : Int) maxSize := by
      ext v
      simp only [Finset.mem_filter, Finset.mem_Icc]
      omega
    rw [f1, Int.card_Icc, Int.card_Icc]
    congr 1
    · have : ((maxSize : Int) + 1 - minSize).toNat = maxSize + 1 - minSize := by omega
      rw [this, Nat.cast_sub (by omega)]
      push_cast
      ring
    · congr 2
      omega
  have e3 : (1 - ((maxSize + 1 - max minSize 2 : Nat) : ℚ) / (maxSize - minSize + 1) * pn) =
      (∑ v ∈ Finset.Icc (minSize : Int) maxSize, (1 - if 2 ≤ v.toNat then pn else 0)) / (maxSize - minSize + 1) := by
    rw [hcount]
    field_simp
  rw [e3, ← sub_div, ← Finset.sum_sub_distrib, abs_div, abs_of_pos (by linarith : (0 : ℚ) < maxSize - minSize + 1),
    div_le_iff₀ (by linarith)]
  refine (Finset.abs_sum_le_sum_abs _ _).trans ?_
  refine (Finset.sum_le_card_nsmul _ _ (2 * (2 / δ) ^ maxSize * (1 - δ / 2) ^ m) fun v hv' => ?_).trans (le_of_eq ?_)
  · rw [Finset.mem_Icc] at hv'
    have := tree_limit hb F e hv hret (spaced F) (spaced_different F) (fun u hu => (spaced_valid F u hu).2) δ hδ0 hδ1 hp maxSize
      v.toNat (by omega) (by omega) m
    rw [hnan] at this
    exact this
  · rw [nsmul_eq_mul, Int.card_Icc, mul_comm]
    congr 1
    have : ((maxSize : Int) + 1 - minSize).toNat = maxSize + 1 - minSize := by omega
    rw [this, Nat.cast_sub (by omega)]
    push_cast
    ring

/-- Sets of two floats: the generator returns with a probability of 1 - 8388607/2^31, slightly more than 255/256. -/
example : ChanceLimit (fun m σ R s => FloatSet.arbiSet (fun _ t => t) (less .single) R (floats R .single) 2 2 m s) (fun _ => true)
    (1 - 8388607 / 2147483648) := by
  have := C163_chance_violated (bal := fun _ t => t) (fun _ _ => rfl) .single 2 2 le_rfl (by norm_num) (by norm_num [Fmt.p])
  norm_num [Fmt.ebits, Fmt.p] at this ⊢
  exact this

/-- The default sizes, 0 to 200, for doubles. -/
example : ChanceLimit (fun m σ R s => FloatSet.arbiSet (fun _ t => t) (less .double) R (floats R .double) 0 200 m s) (fun _ => true)
    (1 - 199 / 201 * (4503599627370495 / 9223372036854775808)) := by
  have := C163_chance_violated (bal := fun _ t => t) (fun _ _ => rfl) .double 0 200 (by norm_num) (by norm_num) (by norm_num [Fmt.p])
  norm_num [Fmt.ebits, Fmt.p] at this ⊢
  exact this

end Verif
