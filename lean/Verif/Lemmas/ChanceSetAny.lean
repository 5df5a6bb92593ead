import Verif.Spec.ChanceSetAny
import Verif.Lemmas.ChanceSetLimit
import Mathlib.Algebra.Order.BigOperators.Group.Finset
import Mathlib.Topology.Algebra.Monoid
/-
Sets of elements of different probabilities.
-/
namespace Verif
open Shr Random ListLike Containers Comb Filter Topology
variable {α : Type}

section
variable [DecidableEq α]

/-- The same within a number of rounds. -/
def reachDrawn (P : α → ℚ) : Nat → Nat → Finset α → ℚ → ℚ
  | _, 0, _, _ => 1
  | 0, _ + 1, _, _ => 0
  | m + 1, k + 1, rest, t =>
    (∑ u ∈ rest, P u * reachDrawn P m k (rest.erase u) (t + P u)) + t * reachDrawn P m (k + 1) rest t

theorem reachDrawn_zero (P : α → ℚ) (m : Nat) (rest : Finset α) (t : ℚ) : reachDrawn P m 0 rest t = 1 := by
  cases m <;> rfl

theorem reachDrawn_nonneg (P : α → ℚ) (m k : Nat) (rest : Finset α) (t : ℚ) (hP : ∀ u ∈ rest, 0 ≤ P u) (ht : 0 ≤ t) :
    0 ≤ reachDrawn P m k rest t := by
  induction m generalizing k rest t with
  | zero => cases k <;> simp [reachDrawn]
  | succ m ih =>
    cases k with
    | zero => simp [reachDrawn]
    | succ k =>
      rw [reachDrawn]
      refine add_nonneg (Finset.sum_nonneg fun u hu => mul_nonneg (hP u hu) ?_) (mul_nonneg ht (ih _ _ _ hP ht))
      exact ih _ _ _ (fun v hv => hP v (Finset.mem_of_mem_erase hv)) (add_nonneg ht (hP u hu))

/-- As long as an element is missing, the others do not have all of the probability. -/
def Missable (P : α → ℚ) (rest : Finset α) (t : ℚ) : Prop :=
  0 ≤ t ∧ (∀ u ∈ rest, 0 ≤ P u) ∧ ∀ u ∈ rest, t + ∑ v ∈ rest.erase u, P v < 1

theorem Missable.erase {P : α → ℚ} {rest : Finset α} {t : ℚ} (h : Missable P rest t) {u : α} (hu : u ∈ rest) :
    Missable P (rest.erase u) (t + P u) := by
  obtain ⟨h0, h1, h2⟩ := h
  refine ⟨add_nonneg h0 (h1 u hu), fun v hv => h1 v (Finset.mem_of_mem_erase hv), fun v hv => ?_⟩
  have hv' := Finset.mem_of_mem_erase hv
  have hne : u ≠ v := fun h => by subst h; simp at hv
  have e : P u + ∑ w ∈ (rest.erase v).erase u, P w = ∑ w ∈ rest.erase v, P w :=
    Finset.add_sum_erase _ P (Finset.mem_erase.2 ⟨hne, hu⟩)
  have h3 := h2 v hv'
  rw [Finset.erase_right_comm]
  linarith

theorem Missable.lt {P : α → ℚ} {rest : Finset α} {t : ℚ} (h : Missable P rest t) (hne : rest.Nonempty) : t < 1 := by
  obtain ⟨u, hu⟩ := hne
  have h1 := h.2.2 u hu
  have h2 : 0 ≤ ∑ v ∈ rest.erase u, P v := Finset.sum_nonneg fun v hv => h.2.1 v (Finset.mem_of_mem_erase hv)
  linarith

theorem tendsto_reachDrawn {P : α → ℚ} (k : Nat) (rest : Finset α) (t : ℚ) (h : Missable P rest t) (hk : k = rest.card) :
    Tendsto (fun m => reachDrawn P m k rest t) atTop (𝓝 (successive P k rest t)) := by
  induction k generalizing rest t with
  | zero => simp only [reachDrawn_zero, successive]; exact tendsto_const_nhds
  | succ k ih =>
    refine tendsto_contraction (y := fun m => ∑ u ∈ rest, P u * reachDrawn P m k (rest.erase u) (t + P u)) h.1
      (h.lt (Finset.card_pos.1 (by omega))) (fun n => rfl) (tendsto_finsetSum _ fun u hu => ?_)
    exact (ih _ _ (h.erase hu) (by rw [Finset.card_erase_of_mem hu]; omega)).const_mul _

theorem successive_nonneg {P : α → ℚ} (k : Nat) (rest : Finset α) (t : ℚ) (h : Missable P rest t) (hk : k = rest.card) :
    0 ≤ successive P k rest t :=
  ge_of_tendsto' (tendsto_reachDrawn k rest t h hk) fun m => reachDrawn_nonneg P m k rest t h.2.1 h.1

theorem reachDrawn_le {P : α → ℚ} (m k : Nat) (rest : Finset α) (t : ℚ) (h : Missable P rest t) (hk : k = rest.card) :
    reachDrawn P m k rest t ≤ successive P k rest t := by
  induction m generalizing k rest t with
  | zero =>
    cases k with
    | zero => simp [reachDrawn, successive]
    | succ k => exact successive_nonneg _ _ _ h hk
  | succ m ih =>
    cases k with
    | zero => simp [reachDrawn, successive]
    | succ k =>
      have hlt := h.lt (Finset.card_pos.1 (by omega))
      have e : successive P (k + 1) rest t =
          (∑ u ∈ rest, P u * successive P k (rest.erase u) (t + P u)) + t * successive P (k + 1) rest t := by
        rw [successive]
        have : 1 - t ≠ 0 := by linarith
        field_simp
        ring
      rw [e, reachDrawn]
      refine add_le_add (Finset.sum_le_sum fun u hu => mul_le_mul_of_nonneg_left ?_ (h.2.1 u hu))
        (mul_le_mul_of_nonneg_left (ih _ _ _ h hk) h.1)
      exact ih _ _ _ (h.erase hu) (by rw [Finset.card_erase_of_mem hu]; omega)

/-- The probability is continuous in those of the elements. -/
theorem successive_continuous {P : α → ℚ} (k : Nat) (rest : Finset α) (t : ℚ → ℚ) (h : Missable P rest (t 0))
    (ht : ContinuousAt t 0) (hk : k = rest.card) :
    ContinuousAt (fun δ => successive (fun v => P v + δ) k rest (t δ)) 0 := by
  induction k generalizing rest t with
  | zero => exact continuousAt_const
  | succ k ih =>
    have hlt := h.lt (Finset.card_pos.1 (by omega))
    simp only [successive]
    refine ContinuousAt.div₀ (tendsto_finsetSum _ fun u hu => ?_) (continuousAt_const.sub ht) ?_
    · have hc : ContinuousAt (fun δ : ℚ => P u + δ) 0 := continuousAt_const.add continuousAt_id
      refine hc.mul (ih (rest.erase u) (fun δ => t δ + (P u + δ)) ?_ (ht.add hc) (by rw [Finset.card_erase_of_mem hu]; omega))
      rw [add_zero]
      exact h.erase hu
    · exact ne_of_gt (by linarith)

end

section
variable [LinearOrder α]

theorem mean_over_set (e : Exp (Outcome (Shr α))) (S : Finset α) (F : Shr α → ℚ) (w : α → ℚ)
    (h1 : ∀ x : Shr α, x.value ∈ S → F x = w x.value) (h2 : ∀ x : Shr α, x.value ∉ S → F x = 0) :
    e.mean (val F) = ∑ u ∈ S, w u * e.mean (hit fun t => decide (t.value = u)) := by
  rw [mean_over e S.toList S.nodup_toList F w (fun x hx => h1 x (Finset.mem_toList.1 hx))
    fun x hx => h2 x fun h => hx (Finset.mem_toList.2 h)]
  exact Finset.sum_map_toList S _

/-- The probability of a given set if those of its elements are only known to be within bounds. -/
theorem mean_fill_between (e : Exp (Outcome (Shr α))) (hv : e.Valid) (S : List α) (hS : S.Pairwise (· < ·)) (P₁ P₂ : α → ℚ)
    (h0 : ∀ v ∈ S, 0 ≤ P₁ v) (h12 : ∀ v ∈ S, P₁ v ≤ e.mean (hit fun t => decide (t.value = v)))
    (h22 : ∀ v ∈ S, e.mean (hit fun t => decide (t.value = v)) ≤ P₂ v)
    (m : Nat) (acc : List (Shr α)) (V : Finset α) (hs : SortedBy Shr.value acc) (hV : ∀ v, v ∈ V ↔ v ∈ acc.map Shr.value)
    (hsub : V ⊆ S.toFinset) (b : Nat) (hb : acc.length + b = S.length) :
    reachDrawn P₁ m b (S.toFinset \ V) (∑ v ∈ V, P₁ v) ≤ (fillExp e S.length m acc).mean (val (gain S 1)) ∧
      (fillExp e S.length m acc).mean (val (gain S 1)) ≤ reachDrawn P₂ m b (S.toFinset \ V) (∑ v ∈ V, P₂ v) := by
  have hsub' : ∀ v ∈ acc.map Shr.value, v ∈ S := fun v hv => List.mem_toFinset.1 (hsub ((hV v).2 hv))
  induction m generalizing acc V b with
  | zero =>
    unfold fillExp
    cases b with
    | zero =>
      rw [if_neg (by omega)]
      have := sorted_ext (List.pairwise_map.2 hs) hS hsub' (by rw [List.length_map]; omega)
      simp [Exp.mean, val, gain, this, reachDrawn]
    | succ b =>
      rw [if_pos (by omega)]
      simp [Exp.mean, val, reachDrawn]
  | succ m ih =>
    unfold fillExp
    cases b with
    | zero =>
      rw [if_neg (by omega)]
      have := sorted_ext (List.pairwise_map.2 hs) hS hsub' (by rw [List.length_map]; omega)
      simp [Exp.mean, val, gain, this, reachDrawn]
    | succ b =>
      rw [if_pos (by omega), mean_andThen]
      have h02 : ∀ v ∈ S, 0 ≤ P₂ v := fun v hv => (h0 v hv).trans ((h12 v hv).trans (h22 v hv))
      have hSV : ∀ v ∈ V, v ∈ S := fun v hv => List.mem_toFinset.1 (hsub hv)
      have hSR : ∀ v ∈ S.toFinset \ V, v ∈ S := fun v hv => List.mem_toFinset.1 (Finset.mem_sdiff.1 hv).1
      -- the sum over the elements of the set
      have key : ∀ (A : ℚ) (B : α → ℚ),
          e.mean (val fun x : Shr α => if x.value ∈ S.toFinset then (if x.value ∈ V then A else B x.value) else 0) =
          ∑ u ∈ S.toFinset \ V, B u * e.mean (hit fun t => decide (t.value = u)) +
            ∑ u ∈ V, A * e.mean (hit fun t => decide (t.value = u)) := by
        intro A B
        rw [mean_over_set e S.toFinset _ (fun u => if u ∈ V then A else B u) (fun x hx => if_pos hx) fun x hx => if_neg hx,
          ← Finset.sum_sdiff hsub]
        congr 1
        · exact Finset.sum_congr rfl fun u hu => by rw [if_neg (Finset.mem_sdiff.1 hu).2]
        · exact Finset.sum_congr rfl fun u hu => by rw [if_pos hu]
      have hin : ∀ x : Shr α, x.value ∈ V → insertBy Shr.value x acc = acc := fun x hx => by
        obtain ⟨y, hy, e1⟩ := List.mem_map.1 ((hV _).1 hx)
        exact insertBy_present hs ⟨y, hy, e1⟩
      have hout : ∀ x : Shr α, x.value ∈ S.toFinset → x.value ∉ V →
          reachDrawn P₁ m b ((S.toFinset \ V).erase x.value) (∑ v ∈ V, P₁ v + P₁ x.value) ≤
            (fillExp e S.length m (insertBy Shr.value x acc)).mean (val (gain S 1)) ∧
          (fillExp e S.length m (insertBy Shr.value x acc)).mean (val (gain S 1)) ≤
            reachDrawn P₂ m b ((S.toFinset \ V).erase x.value) (∑ v ∈ V, P₂ v + P₂ x.value) := by
        intro x hx hxV
        have hab : ∀ y ∈ acc, y.value ≠ x.value := fun y hy e1 => hxV ((hV _).2 (e1 ▸ List.mem_map_of_mem hy))
        have hV' : ∀ v, v ∈ insert x.value V ↔ v ∈ (insertBy Shr.value x acc).map Shr.value := fun v => by
          rw [Finset.mem_insert, hV, value_mem_insertBy hs x v]
        have hsub2 : insert x.value V ⊆ S.toFinset := Finset.insert_subset hx hsub
        have := ih (insertBy Shr.value x acc) (insert x.value V) (sorted_insertBy hs) hV' hsub2 b
          (by rw [(insertBy_absent hab).1]; omega) fun v hv => List.mem_toFinset.1 (hsub2 ((hV' v).2 hv))
        rw [Finset.sum_insert hxV, Finset.sum_insert hxV, add_comm (P₁ _), add_comm (P₂ _)] at this
        have e1 : S.toFinset \ insert x.value V = (S.toFinset \ V).erase x.value := by
          ext v; simp only [Finset.mem_sdiff, Finset.mem_insert, Finset.mem_erase]; tauto
        rwa [e1] at this
      have hno : ∀ x : Shr α, x.value ∉ S.toFinset →
          (fillExp e S.length m (insertBy Shr.value x acc)).mean (val (gain S 1)) = 0 := fun x hx =>
        mean_fill_zero e S 1 _ m _ (sorted_insertBy hs) (le_trans (insertBy_length_le hs) (by omega))
          (.inl ⟨x.value, (value_mem_insertBy hs x _).2 (.inl rfl), fun h => hx (List.mem_toFinset.2 h)⟩)
      have hsame := ih acc V hs hV hsub (b + 1) hb hsub'
      constructor
      · refine le_trans ?_ (val_le (f := fun x : Shr α => if x.value ∈ S.toFinset then (if x.value ∈ V then
          reachDrawn P₁ m (b + 1) (S.toFinset \ V) (∑ v ∈ V, P₁ v) else
          reachDrawn P₁ m b ((S.toFinset \ V).erase x.value) (∑ v ∈ V, P₁ v + P₁ x.value)) else 0) (fun x => ?_) hv)
        · rw [key _ fun u => reachDrawn P₁ m b ((S.toFinset \ V).erase u) (∑ v ∈ V, P₁ v + P₁ u), reachDrawn, Finset.sum_mul]
          have ht : 0 ≤ ∑ v ∈ V, P₁ v := Finset.sum_nonneg fun v hv => h0 v (hSV v hv)
          refine add_le_add (Finset.sum_le_sum fun u hu => ?_) (Finset.sum_le_sum fun u hu => ?_)
          · rw [mul_comm]
            exact mul_le_mul_of_nonneg_left (h12 u (hSR u hu)) (reachDrawn_nonneg _ _ _ _ _
              (fun v hv => h0 v (hSR v (Finset.mem_of_mem_erase hv))) (add_nonneg ht (h0 u (hSR u hu))))
          · rw [mul_comm]
            exact mul_le_mul_of_nonneg_left (h12 u (hSV u hu)) (reachDrawn_nonneg _ _ _ _ _ (fun v hv => h0 v (hSR v hv)) ht)
        · by_cases hx : x.value ∈ S.toFinset
          · by_cases hxV : x.value ∈ V
            · rw [if_pos hx, if_pos hxV, hin x hxV]; exact hsame.1
            · rw [if_pos hx, if_neg hxV]; exact (hout x hx hxV).1
          · rw [if_neg hx, hno x hx]
      · refine le_trans (val_le (g := fun x : Shr α => if x.value ∈ S.toFinset then (if x.value ∈ V then
          reachDrawn P₂ m (b + 1) (S.toFinset \ V) (∑ v ∈ V, P₂ v) else
          reachDrawn P₂ m b ((S.toFinset \ V).erase x.value) (∑ v ∈ V, P₂ v + P₂ x.value)) else 0) (fun x => ?_) hv) ?_
        · by_cases hx : x.value ∈ S.toFinset
          · by_cases hxV : x.value ∈ V
            · rw [if_pos hx, if_pos hxV, hin x hxV]; exact hsame.2
            · rw [if_pos hx, if_neg hxV]; exact (hout x hx hxV).2
          · rw [if_neg hx, hno x hx]
        · rw [key _ fun u => reachDrawn P₂ m b ((S.toFinset \ V).erase u) (∑ v ∈ V, P₂ v + P₂ u), reachDrawn, Finset.sum_mul]
          have ht : 0 ≤ ∑ v ∈ V, P₂ v := Finset.sum_nonneg fun v hv => h02 v (hSV v hv)
          refine add_le_add (Finset.sum_le_sum fun u hu => ?_) (Finset.sum_le_sum fun u hu => ?_)
          · rw [mul_comm (P₂ u)]
            exact mul_le_mul_of_nonneg_left (h22 u (hSR u hu)) (reachDrawn_nonneg _ _ _ _ _
              (fun v hv => h02 v (hSR v (Finset.mem_of_mem_erase hv))) (add_nonneg ht (h02 u (hSR u hu))))
          · rw [mul_comm (P₂ u)]
            exact mul_le_mul_of_nonneg_left (h22 u (hSV u hu)) (reachDrawn_nonneg _ _ _ _ _ (fun v hv => h02 v (hSR v hv)) ht)

/-- Different values have probabilities of sum at most 1. -/
theorem sum_hits_le {e : Exp (Outcome (Shr α))} (hv : e.Valid) (S : Finset α) :
    ∑ u ∈ S, e.mean (hit fun t => decide (t.value = u)) ≤ 1 := by
  have h := mean_over_set e S (fun x => if x.value ∈ S then 1 else 0) (fun _ => 1) (fun x hx => if_pos hx) fun x hx => if_neg hx
  simp only [one_mul] at h
  rw [← h]
  refine le_of_le_of_eq (Exp.mean_le (g := fun _ => 1) (fun o => ?_) hv) (Exp.mean_const 1 hv)
  cases o with
  | ok x => simp only [val]; split <;> norm_num
  | throws x => simp [val]
  | ub => simp [val]
  | diverges => simp [val]

/-- The probability of a given set, of elements whose probabilities tend to `P`. -/
theorem tendsto_fill_any {e : Nat → Exp (Outcome (Shr α))} (hv : ∀ᶠ n in atTop, (e n).Valid) (S : List α)
    (hS : S.Pairwise (· < ·)) (P : α → ℚ) (hP : ∀ v ∈ S, 0 < P v)
    (hp : ∀ v ∈ S, Tendsto (fun n => (e n).mean (hit fun t => decide (t.value = v))) atTop (𝓝 (P v))) :
    Tendsto (fun n => (fillExp (e n) S.length n []).mean (val (gain S 1))) atTop
      (𝓝 (successive P S.length S.toFinset 0)) := by
  have hSn : S.Nodup := hS.imp fun h => ne_of_lt h
  have hcard : S.length = S.toFinset.card := (List.toFinset_card_of_nodup hSn).symm
  have hsum : ∑ v ∈ S.toFinset, P v ≤ 1 := by
    refine le_of_tendsto (tendsto_finsetSum _ fun v hv => hp v (List.mem_toFinset.1 hv)) ?_
    filter_upwards [hv] with n hn
    exact sum_hits_le hn _
  have hless : ∀ u ∈ S.toFinset, ∑ v ∈ S.toFinset.erase u, P v < 1 := fun u hu => by
    have := Finset.add_sum_erase _ P hu
    have := hP u (List.mem_toFinset.1 hu)
    linarith
  have hmiss : Missable P S.toFinset 0 := ⟨le_rfl, fun u hu => (hP u (List.mem_toFinset.1 hu)).le, fun u hu => by
    rw [zero_add]; exact hless u hu⟩
  have hcont := successive_continuous (P := P) S.length S.toFinset (fun _ => 0) hmiss continuousAt_const hcard
  -- nearby probabilities
  have hall : ∀ᶠ δ : ℚ in 𝓝 0, Missable (fun v => P v + δ) S.toFinset 0 := by
    have a1 : ∀ u ∈ S.toFinset, ∀ᶠ δ : ℚ in 𝓝 0, 0 ≤ P u + δ := by
      intro u hu
      have hc : ContinuousAt (fun δ : ℚ => P u + δ) 0 := continuousAt_const.add continuousAt_id
      have h0 : (0 : ℚ) < P u + 0 := by rw [add_zero]; exact hP u (List.mem_toFinset.1 hu)
      filter_upwards [hc.eventually_const_lt h0] with δ h
      exact h.le
    have a2 : ∀ u ∈ S.toFinset, ∀ᶠ δ : ℚ in 𝓝 0, 0 + ∑ v ∈ S.toFinset.erase u, (P v + δ) < 1 := by
      intro u hu
      have hc : ContinuousAt (fun δ : ℚ => 0 + ∑ v ∈ S.toFinset.erase u, (P v + δ)) 0 :=
        continuousAt_const.add (tendsto_finsetSum _ fun v _ => continuousAt_const.add continuousAt_id)
      refine hc.eventually_lt_const ?_
      simpa using hless u hu
    filter_upwards [(Filter.eventually_all_finset _).2 a1, (Filter.eventually_all_finset _).2 a2] with δ b1 b2
    exact ⟨le_rfl, b1, b2⟩
  rw [LinearOrderedAddCommGroup.tendsto_nhds]
  intro ε hε
  have hnear : ∀ᶠ δ : ℚ in 𝓝 0, |successive (fun v => P v + δ) S.length S.toFinset 0 -
      successive P S.length S.toFinset 0| < ε / 2 := by
    have := LinearOrderedAddCommGroup.tendsto_nhds.1 hcont (ε / 2) (by positivity)
    simp only [add_zero] at this
    exact this
  obtain ⟨η, hη, hη'⟩ := (nhds_basis_abs_sub_lt (0 : ℚ)).eventually_iff.1 (hall.and hnear)
  obtain ⟨b1, b2⟩ := hη' (x := -(η / 2)) (by rw [Set.mem_setOf_eq, sub_zero, abs_neg, abs_of_pos (by positivity)]; linarith)
  obtain ⟨b3, b4⟩ := hη' (x := η / 2) (by rw [Set.mem_setOf_eq, sub_zero, abs_of_pos (by positivity)]; linarith)
  have hev : ∀ᶠ n in atTop, ∀ v ∈ S, P v + -(η / 2) ≤ (e n).mean (hit fun t => decide (t.value = v)) ∧
      (e n).mean (hit fun t => decide (t.value = v)) ≤ P v + η / 2 := by
    have : ∀ v ∈ S.toFinset, ∀ᶠ n in atTop, P v + -(η / 2) ≤ (e n).mean (hit fun t => decide (t.value = v)) ∧
        (e n).mean (hit fun t => decide (t.value = v)) ≤ P v + η / 2 := by
      intro v hv
      have hv' := hp v (List.mem_toFinset.1 hv)
      filter_upwards [hv'.eventually_const_lt (show P v + -(η / 2) < P v by linarith),
        hv'.eventually_lt_const (show P v < P v + η / 2 by linarith)] with n h1 h2
      exact ⟨h1.le, h2.le⟩
    filter_upwards [(Filter.eventually_all_finset _).2 this] with n hn v hv
    exact hn v (List.mem_toFinset.2 hv)
  have hreach := LinearOrderedAddCommGroup.tendsto_nhds.1 (tendsto_reachDrawn S.length S.toFinset 0 b1 hcard) (ε / 2)
    (by positivity)
  filter_upwards [hv, hev, hreach] with n hvn hn hr
  obtain ⟨l, u⟩ := mean_fill_between (e n) hvn S hS (fun v => P v + -(η / 2)) (fun v => P v + η / 2)
    (fun v hv => b1.2.1 v (List.mem_toFinset.2 hv)) (fun v hv => (hn v hv).1) (fun v hv => (hn v hv).2) n [] ∅
    (by simp [SortedBy]) (by simp) (by simp) S.length (by simp)
  rw [Finset.sdiff_empty, Finset.sum_empty] at l u
  have u' := u.trans (reachDrawn_le n S.length S.toFinset 0 b3 hcard)
  rw [abs_lt] at b2 b4 hr ⊢
  constructor <;> linarith [b2.1, b2.2, b4.1, b4.2, hr.1, hr.2]

end

end Verif
