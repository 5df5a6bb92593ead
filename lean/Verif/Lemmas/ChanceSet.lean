import Verif.Lemmas.ChanceComb
import Verif.Lemmas.Containers
import Mathlib.Data.Nat.Choose.Basic
import Mathlib.Tactic.GCongr
/-
Helpers for C145: the experiment of the loop that fills a set, and its limit.
-/
namespace Verif
open Shr Random ListLike Containers
variable {α β : Type}

/-! ### All results of an experiment -/

/-- Every result of the experiment satisfies `P`. -/
def Exp.Sat (P : α → Prop) : Exp α → Prop
  | .ret x => P x
  | .draw _ _ next => ∀ v, (next v).Sat P

theorem Exp.sat_bind {P : α → Prop} {Q : β → Prop} {e : Exp α} {k : α → Exp β} (he : e.Sat P)
    (hk : ∀ a, P a → (k a).Sat Q) : (e.bind k).Sat Q := by
  induction e with
  | ret x => exact hk x he
  | draw a b next ih => exact fun v => ih v (he v)

theorem Exp.sat_true (e : Exp α) : e.Sat fun _ => True := by
  induction e with
  | ret x => trivial
  | draw a b next ih => exact ih

theorem Exp.mean_congr {P : α → Prop} {f g : α → ℚ} (h : ∀ a, P a → f a = g a) {e : Exp α} (he : e.Sat P) :
    e.mean f = e.mean g := by
  induction e with
  | ret x => exact h x he
  | draw a b next ih =>
    simp only [Exp.mean]
    rw [Finset.sum_congr rfl fun v _ => ih v (he v)]

/-! ### The loop -/

section
variable [LinearOrder α]

/-- The experiment of filling a set. -/
def fillExp (e : Exp (Outcome (Shr α))) (size : Nat) : Nat → List (Shr α) → Exp (Outcome (List (Shr α)))
  | 0, acc => if acc.length < size then .ret .diverges else .ret (.ok acc)
  | m + 1, acc =>
    if acc.length < size then e.andThen fun x => fillExp e size m (insertBy Shr.value x acc) else .ret (.ok acc)

theorem follows_fill {g : Src (Shr α)} {e : Exp (Outcome (Shr α))} (h : Follows g e) (size m : Nat)
    (acc : List (Shr α)) : Follows (fun σ R s => fillSet (g σ R) size m acc s) (fillExp e size m acc) := by
  induction m generalizing acc with
  | zero =>
    unfold fillSet fillExp
    split
    · exact ⟨trivial, fun _ _ _ => rfl⟩
    · exact Follows.pure acc
  | succ m ih =>
    unfold fillSet fillExp
    split
    · exact h.bind fun x => ih _
    · exact Follows.pure acc

/-- A full set. -/
def Full (size : Nat) : Outcome (List (Shr α)) → Prop
  | .ok xs => xs.length = size ∧ SortedBy Shr.value xs
  | _ => True

theorem insertBy_length_le {x : Shr α} {l : List (Shr α)} (hs : SortedBy Shr.value l) :
    (insertBy Shr.value x l).length ≤ l.length + 1 := by
  by_cases h : ∃ y ∈ l, y.value = x.value
  · rw [insertBy_present hs h]; omega
  · push Not at h
    exact (insertBy_absent h).1.le

theorem sat_fill (e : Exp (Outcome (Shr α))) (size m : Nat) (acc : List (Shr α)) (hs : SortedBy Shr.value acc)
    (hl : acc.length ≤ size) : (fillExp e size m acc).Sat (Full size) := by
  induction m generalizing acc with
  | zero =>
    unfold fillExp
    split
    · trivial
    · exact ⟨by omega, hs⟩
  | succ m ih =>
    unfold fillExp
    split
    · next hlt =>
      refine Exp.sat_bind (Exp.sat_true e) fun o _ => ?_
      cases o with
      | ok x => exact ih _ (sorted_insertBy hs) (le_trans (insertBy_length_le hs) hlt)
      | throws x => trivial
      | ub => trivial
      | diverges => trivial
    · exact ⟨by omega, hs⟩

/-! ### One round -/

omit [LinearOrder α] in
theorem mean_list_sum {γ : Type} (l : List γ) (f : γ → α → ℚ) (e : Exp α) :
    (e.mean fun a => (l.map fun c => f c a).sum) = (l.map fun c => e.mean (f c)).sum := by
  induction l with
  | nil =>
    have := Exp.mean_mul 0 (fun _ : α => 1) e
    simpa using this
  | cons c l ih => simp only [List.map_cons, List.sum_cons, Exp.mean_add, ih]

theorem sum_single (l : List α) (hn : l.Nodup) (w : α → ℚ) (v : α) :
    (l.map fun u => w u * if decide (v = u) = true then 1 else 0).sum = if v ∈ l then w v else 0 := by
  induction l with
  | nil => simp
  | cons u l ih =>
    rw [List.nodup_cons] at hn
    rw [List.map_cons, List.sum_cons, ih hn.2]
    by_cases h : v = u
    · subst h
      simp [hn.1]
    · simp [h]

/-- A function of what was drawn that matters only on the elements of a list. -/
theorem mean_over (e : Exp (Outcome (Shr α))) (S : List α) (hn : S.Nodup) (F : Shr α → ℚ) (w : α → ℚ)
    (h1 : ∀ x : Shr α, x.value ∈ S → F x = w x.value) (h2 : ∀ x : Shr α, x.value ∉ S → F x = 0) :
    e.mean (val F) = (S.map fun u => w u * e.mean (hit fun t => decide (t.value = u))).sum := by
  have : val F = fun o => (S.map fun u => w u * hit (fun t => decide (t.value = u)) o).sum := by
    funext o
    cases o with
    | ok x =>
      simp only [val, hit]
      rw [sum_single S hn w x.value]
      split
      · next h => exact h1 x h
      · next h => exact h2 x h
    | throws x => simp [val, hit]
    | ub => simp [val, hit]
    | diverges => simp [val, hit]
  rw [this, mean_list_sum]
  simp only [Exp.mean_mul]

theorem sum_inside (S V : List α) (hS : S.Nodup) (hV : V.Nodup) (hsub : ∀ v ∈ V, v ∈ S) (A B : ℚ) :
    (S.map fun u => if u ∈ V then A else B).sum = V.length * A + (S.length - V.length) * B := by
  have hp : (S.filter fun u => decide (u ∈ V)).Perm V := by
    refine (List.perm_ext_iff_of_nodup (hS.filter _) hV).2 fun v => ?_
    rw [List.mem_filter]
    simp only [decide_eq_true_eq]
    exact ⟨fun h => h.2, fun h => ⟨hsub v h, h⟩⟩
  have key : ∀ l : List α, (l.map fun u => if u ∈ V then A else B).sum =
      (l.filter fun u => decide (u ∈ V)).length * A + (l.length - (l.filter fun u => decide (u ∈ V)).length) * B := by
    intro l
    induction l with
    | nil => simp
    | cons u l ih =>
      rw [List.map_cons, List.sum_cons, ih]
      by_cases h : u ∈ V
      · simp [h]; ring
      · simp [h]; ring
  rw [key, hp.length_eq]

theorem sorted_ext {V S : List α} (hV : V.Pairwise (· < ·)) (hS : S.Pairwise (· < ·)) (hsub : ∀ v ∈ V, v ∈ S)
    (hl : S.length ≤ V.length) : V = S := by
  have h1 : V.Subperm S := List.subperm_of_subset (hV.imp fun h => ne_of_lt h) hsub
  have h2 : V.Sublist S := List.sublist_of_subperm_of_pairwise h1 hV hS
  exact h2.eq_of_length_le hl

/-! ### A given set -/

/-- `c` if the values are those of the set. -/
def gain (S : List α) (c : ℚ) (xs : List (Shr α)) : ℚ := if xs.map Shr.value = S then c else 0

/-- A set that already has another element, or that is to get another size, does not become the given one. -/
theorem mean_fill_zero (e : Exp (Outcome (Shr α))) (S : List α) (c : ℚ) (size m : Nat) (acc : List (Shr α))
    (hs : SortedBy Shr.value acc) (hl : acc.length ≤ size)
    (h : (∃ v ∈ acc.map Shr.value, v ∉ S) ∨ size ≠ S.length) : (fillExp e size m acc).mean (val (gain S c)) = 0 := by
  rcases h with h | h
  · clear hl
    induction m generalizing acc with
    | zero =>
      unfold fillExp
      split
      · rfl
      · obtain ⟨v, hv, hn⟩ := h
        have : acc.map Shr.value ≠ S := fun he => hn (he ▸ hv)
        simp [Exp.mean, val, gain, this]
    | succ m ih =>
      unfold fillExp
      split
      · rw [mean_andThen]
        have : ∀ x, (fillExp e size m (insertBy Shr.value x acc)).mean (val (gain S c)) = 0 := by
          intro x
          refine ih _ (sorted_insertBy hs) ?_
          obtain ⟨v, hv, hn⟩ := h
          exact ⟨v, (value_mem_insertBy hs x v).2 (.inr hv), hn⟩
        simp only [this]
        have h0 := mean_and e (fun _ => true) 0
        simpa using h0
      · obtain ⟨v, hv, hn⟩ := h
        have : acc.map Shr.value ≠ S := fun he => hn (he ▸ hv)
        simp [Exp.mean, val, gain, this]
  · have h0 := mean_and (fillExp e size m acc) (fun _ => true) 0
    simp only [if_true, zero_mul] at h0
    rw [← h0]
    refine Exp.mean_congr (fun o ho => ?_) (sat_fill e size m acc hs hl)
    cases o with
    | ok xs =>
      have : xs.map Shr.value ≠ S := fun he => h (by rw [← he, List.length_map]; exact ho.1.symm)
      simp [val, gain, this]
    | throws x => rfl
    | ub => rfl
    | diverges => rfl

/-- The probability of getting all of the last `b` elements of `k` in a number of rounds, each element being drawn
with probability `1/n`. -/
def reachAll (n k : Nat) : Nat → Nat → ℚ
  | _, 0 => 1
  | 0, _ + 1 => 0
  | m + 1, b + 1 => ((k - (b + 1)) * reachAll n k m (b + 1) + (b + 1) * reachAll n k m b) / n

theorem mean_fill (e : Exp (Outcome (Shr α))) (S : List α) (hS : S.Pairwise (· < ·)) (c : ℚ) (n : Nat)
    (hp : ∀ v ∈ S, e.mean (hit fun t => decide (t.value = v)) = 1 / n) (m : Nat) (acc : List (Shr α)) (b : Nat)
    (hs : SortedBy Shr.value acc) (hsub : ∀ v ∈ acc.map Shr.value, v ∈ S) (hb : acc.length + b = S.length) :
    (fillExp e S.length m acc).mean (val (gain S c)) = c * reachAll n S.length m b := by
  induction m generalizing acc b with
  | zero =>
    unfold fillExp
    cases b with
    | zero =>
      rw [if_neg (by omega)]
      have := sorted_ext (List.pairwise_map.2 hs) hS hsub (by rw [List.length_map]; omega)
      simp [Exp.mean, val, gain, this, reachAll]
    | succ b =>
      rw [if_pos (by omega)]
      simp [Exp.mean, val, reachAll]
  | succ m ih =>
    unfold fillExp
    cases b with
    | zero =>
      rw [if_neg (by omega)]
      have := sorted_ext (List.pairwise_map.2 hs) hS hsub (by rw [List.length_map]; omega)
      simp [Exp.mean, val, gain, this, reachAll]
    | succ b =>
      rw [if_pos (by omega), mean_andThen]
      have hSn : S.Nodup := hS.imp fun h => ne_of_lt h
      have hVn : (acc.map Shr.value).Nodup := (List.pairwise_map.2 hs).imp fun h => ne_of_lt h
      rw [mean_over e S hSn _ (fun u => if u ∈ acc.map Shr.value then c * reachAll n S.length m (b + 1)
        else c * reachAll n S.length m b)]
      · rw [List.map_congr_left (g := fun u => (1 / n) * (if u ∈ acc.map Shr.value then c * reachAll n S.length m (b + 1)
          else c * reachAll n S.length m b)) fun u hu => by rw [hp u hu, mul_comm]]
        rw [List.sum_map_mul_left, sum_inside S _ hSn hVn hsub, reachAll, List.length_map]
        have : (S.length : ℚ) = acc.length + (b + 1) := by exact_mod_cast hb.symm
        rw [this]
        ring
      · intro x hx
        split
        · next hin =>
          obtain ⟨y, hy, e1⟩ := List.mem_map.1 hin
          rw [insertBy_present hs ⟨y, hy, e1⟩]
          exact ih acc (b + 1) hs hsub hb
        · next hout =>
          have hab : ∀ y ∈ acc, y.value ≠ x.value := fun y hy e1 => hout (e1 ▸ List.mem_map_of_mem hy)
          refine ih _ b (sorted_insertBy hs) (fun v hv => ?_) (by rw [(insertBy_absent hab).1]; omega)
          rcases (value_mem_insertBy hs x v).1 hv with rfl | hv
          · exact hx
          · exact hsub v hv
      · intro x hx
        refine mean_fill_zero e S c _ m _ (sorted_insertBy hs) ?_ (.inl ⟨x.value, ?_, hx⟩)
        · exact le_trans (insertBy_length_le hs) (by omega)
        · exact (value_mem_insertBy hs x _).2 (.inl rfl)

end

/-! ### The limit -/

theorem reach_bound (n k d : Nat) (hn : n = d + k) (m b : Nat) (hb : b ≤ k) :
    |reachAll n k m b - 1 / (d + b).choose b| ≤ (2 * n) ^ b * (1 - 1 / (2 * n)) ^ m := by
  rcases Nat.eq_zero_or_pos n with h0 | hpos
  · obtain rfl : b = 0 := by omega
    rw [h0]
    simp [reachAll]
  have hnq : (1 : ℚ) ≤ n := by exact_mod_cast hpos
  have hρ : (0 : ℚ) ≤ 1 - 1 / (2 * n) := by
    have : 1 / (2 * n : ℚ) ≤ 1 := by rw [div_le_one (by linarith)]; linarith
    linarith
  induction m generalizing b with
  | zero =>
    cases b with
    | zero => simp [reachAll]
    | succ b =>
      rw [reachAll, zero_sub, abs_neg, pow_zero, mul_one, abs_of_nonneg (by positivity)]
      have h1 : (1 : ℚ) ≤ (d + (b + 1)).choose (b + 1) := by exact_mod_cast Nat.choose_pos (by omega)
      have h2 : 1 / ((d + (b + 1)).choose (b + 1) : ℚ) ≤ 1 := by rw [div_le_one (by linarith)]; exact h1
      have h3 : (1 : ℚ) ≤ (2 * n) ^ (b + 1) := one_le_pow₀ (by linarith)
      exact h2.trans h3
  | succ m ih =>
    cases b with
    | zero =>
      simp only [reachAll, Nat.choose_zero_right, Nat.cast_one, div_one, sub_self, abs_zero]
      positivity
    | succ b =>
      have i1 := ih (b + 1) hb
      have i2 := ih b (by omega)
      set L1 : ℚ := 1 / (d + (b + 1)).choose (b + 1) with hL1
      set L0 : ℚ := 1 / (d + b).choose b with hL0
      have hc : ((d + (b + 1)).choose (b + 1) : ℚ) * (b + 1) = (d + b + 1) * (d + b).choose b := by
        have := Nat.add_one_mul_choose_eq (d + b) b
        rw [show d + (b + 1) = d + b + 1 by omega]
        exact_mod_cast this.symm
      have c1 : (0 : ℚ) < (d + (b + 1)).choose (b + 1) := by exact_mod_cast Nat.choose_pos (by omega)
      have c0 : (0 : ℚ) < (d + b).choose b := by exact_mod_cast Nat.choose_pos (by omega)
      have hfix : L1 * (d + b + 1) = (b + 1) * L0 := by
        rw [hL1, hL0]
        field_simp
        linarith
      have hnk : (n : ℚ) = d + k := by exact_mod_cast hn
      have e : reachAll n k (m + 1) (b + 1) - L1 =
          ((k - (b + 1)) / n) * (reachAll n k m (b + 1) - L1) + ((b + 1) / n) * (reachAll n k m b - L0) := by
        rw [reachAll]
        field_simp
        rw [hnk]
        linarith
      have hbk : (b : ℚ) + 1 ≤ k := by exact_mod_cast hb
      have hkn : (k : ℚ) ≤ n := by rw [hnk]; have : (0 : ℚ) ≤ d := by positivity
                                   linarith
      have r0 : (0 : ℚ) ≤ (k - (b + 1)) / n := div_nonneg (by linarith) (by linarith)
      have r1 : (k - (b + 1)) / n ≤ (1 : ℚ) - 1 / n := by
        rw [le_sub_iff_add_le, ← add_div, div_le_one (by linarith)]
        have : (0 : ℚ) ≤ b := by positivity
        linarith
      have s0 : (0 : ℚ) ≤ (b + 1) / n := by positivity
      have s1 : (b + 1) / n ≤ (1 : ℚ) := by rw [div_le_one (by linarith)]; linarith
      have y0 : (0 : ℚ) ≤ (1 - 1 / (2 * n)) ^ m := pow_nonneg hρ m
      rw [e]
      calc _ ≤ |((k - (b + 1)) / n) * (reachAll n k m (b + 1) - L1)| + |((b + 1) / n) * (reachAll n k m b - L0)| :=
            abs_add_le _ _
        _ ≤ (1 - 1 / n) * ((2 * n) ^ (b + 1) * (1 - 1 / (2 * n)) ^ m) + 1 * ((2 * n) ^ b * (1 - 1 / (2 * n)) ^ m) := by
          rw [abs_mul, abs_mul, abs_of_nonneg r0, abs_of_nonneg s0]
          gcongr
          linarith
        _ = (2 * n) ^ (b + 1) * (1 - 1 / (2 * n)) ^ (m + 1) := by
          rw [pow_succ _ b, pow_succ _ m]
          field_simp
          ring

/-- Probabilities that approach `p` at least as fast as a geometric sequence. -/
theorem limit_of_bound {f : Nat → Src α} {E : α → Bool} {p C ρ : ℚ} {q : Nat → ℚ} (h0 : 0 ≤ ρ) (h1 : ρ < 1)
    (hc : ∀ m, Chance (f m) E (q m)) (h : ∀ m, |q m - p| ≤ C * ρ ^ m) : ChanceLimit f E p := by
  intro ε hε
  have hC : 0 ≤ C := by
    have := (abs_nonneg _).trans (h 0)
    simpa using this
  obtain ⟨N, hN⟩ := exists_pow_lt_of_lt_one (show 0 < ε / (C + 1) by positivity) h1
  refine ⟨N, fun m hm => ⟨q m, hc m, ?_⟩⟩
  have h2 : ρ ^ m ≤ ρ ^ N := pow_le_pow_of_le_one h0 h1.le hm
  have h3 : ρ ^ m < ε / (C + 1) := lt_of_le_of_lt h2 hN
  rw [lt_div_iff₀ (by positivity)] at h3
  have h4 : 0 ≤ ρ ^ m := pow_nonneg h0 m
  have := h m
  nlinarith

/-! ### Any set of a given size -/

section
variable [LinearOrder α]

omit [LinearOrder α] in
theorem val_le {f g : α → ℚ} (h : ∀ a, f a ≤ g a) {e : Exp (Outcome α)} (he : e.Valid) :
    e.mean (val f) ≤ e.mean (val g) :=
  Exp.mean_le (fun o => by cases o <;> simp [val, h]) he

omit [LinearOrder α] in
/-- Finitely many positive numbers have a positive lower bound. -/
theorem lower_bound (U : List α) (P : α → ℚ) (h : ∀ u ∈ U, 0 < P u) : ∃ δ, 0 < δ ∧ δ ≤ 1 ∧ ∀ u ∈ U, δ ≤ P u := by
  induction U with
  | nil => exact ⟨1, by norm_num, le_rfl, by simp⟩
  | cons u U ih =>
    obtain ⟨δ, h0, h1, h2⟩ := ih fun v hv => h v (by simp [hv])
    refine ⟨min δ (P u), lt_min h0 (h u (by simp)), (min_le_left _ _).trans h1, fun v hv => ?_⟩
    rcases List.mem_cons.1 hv with rfl | hv
    · exact min_le_right _ _
    · exact (min_le_left _ _).trans (h2 v hv)

/-- The loop ends with probability 1 if enough values have a positive probability. -/
theorem fill_done (e : Exp (Outcome (Shr α))) (hv : e.Valid) (hret : e.mean (hit fun _ => true) = 1) (U : List α)
    (hU : U.Nodup) (δ : ℚ) (hδ : 0 < δ) (hδ1 : δ ≤ 1)
    (hp : ∀ u ∈ U, δ ≤ e.mean (hit fun t => decide (t.value = u)))
    (size : Nat) (hsize : size ≤ U.length) (m : Nat) (acc : List (Shr α)) (b : Nat) (hs : SortedBy Shr.value acc)
    (hb : acc.length + b = size) :
    1 - (2 / δ) ^ b * (1 - δ / 2) ^ m ≤ (fillExp e size m acc).mean (val fun _ => 1) := by
  have hρ : (0 : ℚ) ≤ 1 - δ / 2 := by linarith
  have h2δ : (1 : ℚ) ≤ 2 / δ := by rw [le_div_iff₀ hδ]; linarith
  induction m generalizing acc b with
  | zero =>
    unfold fillExp
    cases b with
    | zero => rw [if_neg (by omega)]; simp [Exp.mean, val]
    | succ b =>
      rw [if_pos (by omega)]
      have : (1 : ℚ) ≤ (2 / δ) ^ (b + 1) := one_le_pow₀ h2δ
      simp only [Exp.mean, val, pow_zero, mul_one]
      linarith
  | succ m ih =>
    unfold fillExp
    cases b with
    | zero =>
      rw [if_neg (by omega)]
      have : (0 : ℚ) ≤ (1 - δ / 2) ^ (m + 1) := pow_nonneg hρ _
      simp only [Exp.mean, val, pow_zero, one_mul]; linarith
    | succ b =>
      rw [if_pos (by omega), mean_andThen]
      have hm0 : (0 : ℚ) ≤ (1 - δ / 2) ^ m := pow_nonneg hρ m
      set y : ℚ := (1 - δ / 2) ^ m with hy
      set B : ℚ := (2 / δ) ^ b with hB
      have hB0 : 0 ≤ B := by positivity
      have hB1 : (2 / δ) ^ (b + 1) = 2 / δ * B := by rw [pow_succ]; ring
      -- a value that is not yet there
      obtain ⟨u, hu, hun⟩ : ∃ u ∈ U, u ∉ acc.map Shr.value := by
        by_contra hc
        push Not at hc
        have := (List.subperm_of_subset hU hc).length_le
        rw [List.length_map] at this
        omega
      have hin : e.mean (hit fun t => decide (t.value ∈ acc.map Shr.value)) ≤ 1 - δ := by
        have h1 : e.mean (hit fun t => decide (t.value ∈ acc.map Shr.value)) +
            e.mean (hit fun t => decide (t.value = u)) ≤ 1 := by
          rw [← Exp.mean_add, ← hret]
          refine Exp.mean_le (fun o => ?_) hv
          cases o with
          | ok x =>
            simp only [hit, if_true]
            by_cases h1 : x.value ∈ acc.map Shr.value
            · have h2 : x.value ≠ u := fun h => hun (h ▸ h1)
              simp [h1, h2]
            · simp only [h1, decide_false, Bool.false_eq_true, if_false, zero_add]
              split <;> norm_num
          | throws x => simp [hit]
          | ub => simp [hit]
          | diverges => simp [hit]
        have := hp u hu
        linarith
      have hlow : e.mean (val fun x => 1 - B * y - (if decide (x.value ∈ acc.map Shr.value) = true then (2 / δ * B - B) * y else 0)) ≤
          e.mean (val fun x => (fillExp e size m (insertBy Shr.value x acc)).mean (val fun _ => 1)) := by
        refine val_le (fun x => ?_) hv
        by_cases h1 : x.value ∈ acc.map Shr.value
        · obtain ⟨z, hz, e1⟩ := List.mem_map.1 h1
          rw [insertBy_present hs ⟨z, hz, e1⟩]
          have := ih acc (b + 1) hs hb
          rw [hB1] at this
          simp only [h1, decide_true, if_true]
          linarith
        · have hab : ∀ z ∈ acc, z.value ≠ x.value := fun z hz e1 => h1 (e1 ▸ List.mem_map_of_mem hz)
          have := ih (insertBy Shr.value x acc) b (sorted_insertBy hs) (by rw [(insertBy_absent hab).1]; omega)
          simp only [h1, decide_false, Bool.false_eq_true, if_false]
          linarith
      refine le_trans ?_ hlow
      have e2 : (val fun x : Shr α => 1 - B * y - (if decide (x.value ∈ acc.map Shr.value) = true then (2 / δ * B - B) * y else 0)) =
          fun o => (1 - B * y) * hit (fun _ => true) o + (-((2 / δ * B - B) * y)) * hit (fun t => decide (t.value ∈ acc.map Shr.value)) o := by
        funext o
        cases o with
        | ok x => simp only [val, hit]; split <;> simp; ring
        | throws x => simp [val, hit]
        | ub => simp [val, hit]
        | diverges => simp [val, hit]
      rw [e2, Exp.mean_add, Exp.mean_mul, Exp.mean_mul, hret, hB1, pow_succ, ← hy]
      have hD : 0 ≤ (2 / δ * B - B) * y := by
        refine mul_nonneg ?_ hm0
        nlinarith
      have h3 : (2 / δ * B - B) * y * e.mean (hit fun t => decide (t.value ∈ acc.map Shr.value)) ≤
          (2 / δ * B - B) * y * (1 - δ) := mul_le_mul_of_nonneg_left hin hD
      have h4 : (2 / δ * B - B) * y * (1 - δ) + B * y = (2 / δ * B) * (y * (1 - δ / 2)) - (1 - δ) * (B * y) := by
        field_simp
        ring
      have h5 : 0 ≤ (1 - δ) * (B * y) := mul_nonneg (by linarith) (mul_nonneg hB0 hm0)
      linarith

omit [LinearOrder α] in
theorem fill_le_one (e : Exp (Outcome (List (Shr α)))) (hv : e.Valid) : e.mean (val fun _ => 1) ≤ 1 := by
  refine le_of_le_of_eq (Exp.mean_le (g := fun _ => 1) (fun o => ?_) hv) (Exp.mean_const 1 hv)
  cases o <;> simp [val]

/-- A size, a set of that size, and what is made of it, for an event that only sets of size `k` can lead to. -/
theorem chance_filled {γ : Type} {g : Src (Shr α)} {e : Exp (Outcome (Shr α))} (he : Follows g e)
    (minSize maxSize : Nat) (hmax : maxSize < 2 ^ 32) (m : Nat)
    (cont : List (Shr α) → Src γ) (ce : List (Shr α) → Exp (Outcome γ)) (hc : ∀ xs, Follows (cont xs) (ce xs))
    (E : γ → Bool) (G : List (Shr α) → ℚ)
    (hG : ∀ xs, SortedBy Shr.value xs → minSize ≤ xs.length → (ce xs).mean (hit E) = G xs)
    (k : Nat) (h1 : minSize ≤ k) (h2 : k ≤ maxSize) (hk : ∀ xs, xs.length ≠ k → G xs = 0) :
    Chance (fun σ R s => do
      let (size, s) ← getRandomSize R minSize (maxSize + 1) s
      let (xs, s) ← fillSet (g σ R) size.toNat m [] s
      cont xs σ R s) E ((fillExp e k m []).mean (val G) / (maxSize - minSize + 1)) := by
  have hf : Follows (fun σ R s => (fun σ R s => (fillSet (g σ R) (R.draw s minSize maxSize).1.toNat m []
      (R.draw s minSize maxSize).2 >>= fun p => cont p.1 σ R p.2) : Src γ) σ R s)
      (.draw minSize maxSize fun v => (fillExp e v.toNat m []).andThen ce) :=
    Follows.draw (g := fun v σ R s => fillSet (g σ R) v.toNat m [] s >>= fun p => cont p.1 σ R p.2)
      (by omega) fun v => (follows_fill he v.toNat m []).bind hc
  refine ⟨_, hf.congr fun σ R s => ?_, ?_⟩
  · rw [getRandomSize_eq R s (by omega) (by omega)]
    have : ((maxSize + 1 : Nat) : Int) - 1 = maxSize := by omega
    rw [this, Outcome.ok_bind]
  · rw [Exp.mean]
    have key : ∀ v : Int, v ∈ Finset.Icc (minSize : Int) maxSize →
        ((fillExp e v.toNat m []).andThen ce).mean (hit E) = if v = k then (fillExp e k m []).mean (val G) else 0 := by
      intro v hv
      rw [Finset.mem_Icc] at hv
      have e1 : ((fillExp e v.toNat m []).andThen ce).mean (hit E) = (fillExp e v.toNat m []).mean (val G) := by
        rw [hit_eq, mean_andThen, ← hit_eq]
        refine Exp.mean_congr (fun o ho => ?_) (sat_fill e v.toNat m [] (by simp [SortedBy]) (by simp))
        cases o with
        | ok xs => exact hG xs ho.2 (by have := ho.1; omega)
        | throws x => rfl
        | ub => rfl
        | diverges => rfl
      rw [e1]
      split
      · next h => subst h; simp
      · next h =>
        have h0 := mean_and (fillExp e v.toNat m []) (fun _ => true) 0
        simp only [if_true, zero_mul] at h0
        rw [← h0]
        refine Exp.mean_congr (fun o ho => ?_) (sat_fill e v.toNat m [] (by simp [SortedBy]) (by simp))
        cases o with
        | ok xs => exact hk xs (by have := ho.1; omega)
        | throws x => rfl
        | ub => rfl
        | diverges => rfl
    rw [Finset.sum_congr rfl key, Finset.sum_ite_eq' (Finset.Icc (minSize : Int) maxSize) (k : Int),
      if_pos (Finset.mem_Icc.2 ⟨by omega, by omega⟩)]
    push_cast
    rfl

end

theorem sat_many (e : Exp (Outcome (Shr α))) (n : Nat) : (manyExp e n).Sat fun o => ∀ xs, o = .ok xs → xs.length = n := by
  induction n with
  | zero => rintro xs ⟨⟩; rfl
  | succ n ih =>
    refine Exp.sat_bind (Exp.sat_true e) fun o _ => ?_
    cases o with
    | ok x =>
      refine Exp.sat_bind ih fun o' ho => ?_
      cases o' with
      | ok xs =>
        rintro ys ⟨⟩
        simp [ho xs rfl]
      | throws x => rintro ys ⟨⟩
      | ub => rintro ys ⟨⟩
      | diverges => rintro ys ⟨⟩
    | throws x => rintro ys ⟨⟩
    | ub => rintro ys ⟨⟩
    | diverges => rintro ys ⟨⟩

end Verif
