import Verif.Props.ChanceDepLimit
/-
C147: `accumulate` of generators that have loops (filters, `oneOf`).
-/
namespace Verif
open Shr Random ListLike Comb Integral IntType Filter Topology
variable {α : Type}

/-- The later elements are generated at least as likely as each of them is. -/
theorem steppers_returns {g2 : α → Src (Shr α)} {e2 : α → Exp (Outcome (Shr α))} (he2 : ∀ v, Follows (g2 v) (e2 v)) (W : Finset α)
    (hW : ∀ v t, v ∈ W → (g2 v).Makes t → t.value ∈ W) (s : ℚ) (hs : 0 ≤ s)
    (hle : ∀ v ∈ W, s ≤ (e2 v).mean (hit fun _ => true)) (k : Nat) (t : Shr α) (ht : t.value ∈ W) :
    s ^ k ≤ (steppersExp e2 k t).mean (hit fun _ => true) := by
  induction k generalizing t with
  | zero => simp [steppersExp, Exp.mean, hit]
  | succ k ih =>
    rw [steppersExp, hit_eq, mean_andThen]
    have h1 : s ^ (k + 1) ≤ s ^ k * (e2 t.value).mean (hit fun _ => true) := by
      rw [pow_succ]
      exact mul_le_mul_of_nonneg_left (hle _ ht) (pow_nonneg hs k)
    refine h1.trans ?_
    rw [← mean_and]
    refine Exp.mean_leIn (fun o ho => ?_) (he2 t.value).made (he2 t.value).1
    cases o with
    | ok u =>
      simp only [val, if_true]
      refine (ih u (hW _ u ht (ho u rfl))).trans (le_of_eq ?_)
      rw [mean_andThen, hit_eq]
      rfl
    | throws x => exact le_rfl
    | ub => exact le_rfl
    | diverges => exact le_rfl

theorem acc_returns {g1 : Src (Shr α)} {e1 : Exp (Outcome (Shr α))} (he1 : Follows g1 e1) {g2 : α → Src (Shr α)}
    {e2 : α → Exp (Outcome (Shr α))} (he2 : ∀ v, Follows (g2 v) (e2 v)) (W : Finset α)
    (hW1 : ∀ t, g1.Makes t → t.value ∈ W) (hW2 : ∀ v t, v ∈ W → (g2 v).Makes t → t.value ∈ W) (s : ℚ) (hs : 0 ≤ s)
    (hle : ∀ v ∈ W, s ≤ (e2 v).mean (hit fun _ => true)) (minSize size : Nat) (h : minSize ≤ size) :
    e1.mean (hit fun _ => true) * s ^ (size - 1) ≤ (accExp e1 e2 minSize size).mean (hit fun _ => true) := by
  unfold accExp
  split
  · next h0 =>
    subst h0
    simpa [Exp.mean, hit] using hit_mean_le_one he1.1 fun _ => true
  · next h0 =>
    rw [hit_eq (fun _ : Shr (List α) => true), mean_andThen, mul_comm, ← mean_and]
    refine Exp.mean_leIn (fun o ho => ?_) he1.made he1.1
    cases o with
    | ok t =>
      simp only [val, if_true]
      refine (steppers_returns he2 W hW2 s hs hle (size - 1) t (hW1 t (ho t rfl))).trans (le_of_eq ?_)
      rw [mean_andThen, hit_eq]
      refine Exp.mean_congr (fun o ho => ?_) (sat_steppers e2 (size - 1) t)
      cases o with
      | ok ts =>
        have hl := ho ts rfl
        obtain ⟨r, hr⟩ := accList_ok (minSize := minSize) (ts := t :: ts) (by simp; omega)
        simp only [val, Exp.mean, hr, if_true]
      | throws x => rfl
      | ub => rfl
      | diverges => rfl
    | throws x => exact le_rfl
    | ub => exact le_rfl
    | diverges => exact le_rfl

/-- The lists of a size have this size. -/
theorem acc_sized (e1 : Exp (Outcome (Shr α))) (e2 : α → Exp (Outcome (Shr α))) (minSize n : Nat) :
    (accExp e1 e2 minSize n).mean (hit fun _ => true) = (accExp e1 e2 minSize n).mean (hit fun t => decide (t.value.length = n)) := by
  unfold accExp
  split
  · next h0 => simp [Exp.mean, hit, h0]
  · next h0 =>
    rw [hit_eq, hit_eq, mean_andThen, mean_andThen]
    congr 2
    funext t
    rw [mean_andThen, mean_andThen]
    refine Exp.mean_congr (fun o ho => ?_) (sat_steppers e2 (n - 1) t)
    cases o with
    | ok ts =>
      have hl := ho ts rfl
      simp only [val, Exp.mean]
      cases hr : accList minSize (t :: ts) with
      | ok r =>
        simp only [accList_value hr]
        rw [if_pos trivial, if_pos (by simp; omega)]
      | throws x => rfl
      | ub => rfl
      | diverges => rfl
    | throws x => rfl
    | ub => rfl
    | diverges => rfl

/-- An event of lists of size `n`, for generators with loops. -/
theorem limit_accumulate [DecidableEq α] (g1 : Nat → Src (Shr α)) (g2 : α → Nat → Src (Shr α))
    (o : ∀ σ : Type, Rng σ → σ → List Nat → σ) (minSize maxSize n : Nat) (hmax : maxSize < 2 ^ 64 - 1) (hn1 : minSize ≤ n)
    (hn2 : n ≤ maxSize) (F : List α → Bool) (hF : ∀ l, F l = true → l.length = n) (q : ℚ) (W : Finset α)
    (hW1 : ∀ m t, (g1 m).Makes t → t.value ∈ W) (hW2 : ∀ m v t, v ∈ W → (g2 v m).Makes t → t.value ∈ W)
    (e1 : Nat → Exp (Outcome (Shr α))) (he1 : ∀ m, Follows (g1 m) (e1 m)) (e2 : Nat → α → Exp (Outcome (Shr α)))
    (he2 : ∀ m v, Follows (g2 v m) (e2 m v))
    (t1 : Tendsto (fun m => (e1 m).mean (hit fun _ => true)) atTop (𝓝 1))
    (t2 : ∀ v ∈ W, Tendsto (fun m => (e2 m v).mean (hit fun _ => true)) atTop (𝓝 1))
    (tq : Tendsto (fun m => (accExp (e1 m) (e2 m) minSize n).mean (hit fun t => F t.value)) atTop (𝓝 q)) :
    ChanceLimit (fun m => valueOnly fun σ R s => accumulate R (g1 m σ R) (fun v => g2 v m σ R) minSize maxSize (o σ R s) s) F
      (q / (maxSize - minSize + 1)) := by
  have hlo : u64.lo = 0 := by decide
  have hhi : u64.hi = 2 ^ 64 - 1 := by decide
  have lift : ∀ (f : Src (Shr Int)) (F : Shr Int → Bool) p, Chance f F p → ChanceLimit (fun _ => f) F p := fun f F p h ε hε =>
    ⟨0, fun n _ => ⟨p, h, by simpa using hε⟩⟩
  have hi : ∀ E : Int → Bool, Chance (fun _ R s => interval R u64 minSize maxSize s) (fun t => E t.value)
      (((Finset.Icc (minSize : Int) maxSize).filter fun v => E v).card / ((maxSize : Int) - (minSize : Int) + 1)) := fun E =>
    C138_interval u64 (by decide) minSize maxSize (by omega) (by omega) (by omega) (by omega) E
  have hret : ∀ c : Int, minSize ≤ c.toNat →
      Tendsto (fun m => (accExp (e1 m) (e2 m) minSize c.toNat).mean (hit fun _ => true)) atTop (𝓝 1) := by
    intro c hc
    have tM : Tendsto (fun m => ∏ v ∈ W, (e2 m v).mean (hit fun _ => true)) atTop (𝓝 1) := by
      have := tendsto_finsetProd W fun v hv => t2 v hv
      simpa using this
    have low := t1.mul (tM.pow (c.toNat - 1))
    rw [one_pow, one_mul] at low
    refine tendsto_of_tendsto_of_tendsto_of_le_of_le low tendsto_const_nhds (fun m => ?_) fun m =>
      hit_mean_le_one (follows_acc (he1 m) (he2 m) minSize c.toNat).1 _
    have h01 : ∀ v, 0 ≤ (e2 m v).mean (hit fun _ => true) ∧ (e2 m v).mean (hit fun _ => true) ≤ 1 := fun v =>
      ⟨hit_mean_pos (he2 m v).1 _, hit_mean_le_one (he2 m v).1 _⟩
    exact acc_returns (he1 m) (he2 m) W (hW1 m) (hW2 m) _ (Finset.prod_nonneg fun v _ => (h01 v).1)
      (fun v hv => prod_le_factor W (fun v => (e2 m v).mean (hit fun _ => true)) (fun v _ => (h01 v).1) (fun v _ => (h01 v).2) hv)
      minSize c.toNat hc
  have := C147_nested_derive (fun _ _ R s => interval R u64 minSize maxSize s)
    (fun size m σ R s => accumulateSized (g1 m σ R) (fun v => g2 v m σ R) minSize size.toNat s) o F
    (Finset.Icc (minSize : Int) maxSize) (Finset.Icc (minSize : Int) maxSize)
    (fun _ => 1 / (maxSize - minSize + 1)) (fun v => if v = (n : Int) then q else 0)
    (fun m t ⟨σ, R, s, s', ht⟩ => by
      have hsz := size_range R (by omega) (by omega) ht (.self t)
      rw [Finset.mem_Icc]; omega)
    (fun m t ⟨σ, R, s, s', ht⟩ c hc => by
      have hsz := size_range R (by omega) (by omega) ht (.child (List.mem_of_mem_head? hc) (.self c))
      rw [Finset.mem_Icc]; omega)
    ⟨_, _, lift _ _ _ (hi fun _ => true)⟩
    (fun v hv => by
      have := lift _ _ _ (hi fun x => decide (x = v))
      have c1 : ((Finset.Icc (minSize : Int) maxSize).filter fun x => decide (x = v) = true).card = 1 := by
        rw [Finset.card_eq_one]
        refine ⟨v, ?_⟩
        rw [Finset.mem_Icc] at hv
        ext x
        simp only [Finset.mem_filter, Finset.mem_Icc, decide_eq_true_eq, Finset.mem_singleton]
        omega
      rw [c1] at this
      push_cast at this
      exact this)
    (fun v hv => by
      rw [Finset.mem_Icc] at hv
      by_cases hvn : v = (n : Int)
      · subst hvn
        rw [if_pos rfl]
        exact chanceLimit_iff.2 ⟨_, tq, .of_forall fun m => ⟨_, follows_acc (he1 m) (he2 m) minSize _, rfl⟩⟩
      · rw [if_neg hvn]
        refine chanceLimit_iff.2 ⟨fun _ => 0, tendsto_const_nhds, .of_forall fun m =>
          ⟨_, follows_acc (he1 m) (he2 m) minSize _, mean_acc_zero _ _ minSize v.toNat F n hF (by omega)⟩⟩)
    (fun m v => ⟨fun _ => true, _, _, follows_acc (he1 m) (he2 m) minSize _, rfl⟩)
    (fun c hc => by
      rw [Finset.mem_Icc] at hc
      exact chanceLimit_iff.2 ⟨_, hret c (by omega), .of_forall fun m => ⟨_, follows_acc (he1 m) (he2 m) minSize _, rfl⟩⟩)
  have hsum : ∑ v ∈ Finset.Icc (minSize : Int) maxSize, 1 / ((maxSize : ℚ) - minSize + 1) * (if v = (n : Int) then q else 0) =
      q / (maxSize - minSize + 1) := by
    rw [← Finset.mul_sum, Finset.sum_ite_eq', if_pos (by rw [Finset.mem_Icc]; omega)]
    ring
  rw [hsum] at this
  exact this

/-- C147. `accumulate`, with generators that have loops, all values being among finitely many: every size is equally
likely, and given the size the probability of a list is that of its first element times, for each later element, the
probability of this element given the one before it. -/
theorem C147_nested_accumulate [DecidableEq α] (g1 : Nat → Src (Shr α)) (g2 : α → Nat → Src (Shr α))
    (o : ∀ σ : Type, Rng σ → σ → List Nat → σ) (minSize maxSize : Nat) (hmax : maxSize < 2 ^ 64 - 1) (x : α) (rest : List α)
    (hn1 : minSize ≤ rest.length + 1) (hn2 : rest.length + 1 ≤ maxSize) (p : ℚ) (ps : List ℚ) (W : Finset α)
    (hW1 : ∀ m t, (g1 m).Makes t → t.value ∈ W) (hW2 : ∀ m v t, v ∈ W → (g2 v m).Makes t → t.value ∈ W)
    (h1 : ChanceLimit g1 (fun t => decide (t.value = x)) p)
    (h2 : List.Forall₂ (fun (y : α × α) p => ChanceLimit (g2 y.1) (fun t => decide (t.value = y.2)) p) ((x :: rest).zip rest) ps)
    (h3 : ChanceLimit g1 (fun _ => true) 1) (h4 : ∀ v ∈ W, ChanceLimit (g2 v) (fun _ => true) 1)
    (h5 : ∀ m, ∃ E p, Chance (g1 m) E p) (h6 : ∀ m v, ∃ E p, Chance (g2 v m) E p) :
    ChanceLimit (fun m => valueOnly fun σ R s => accumulate R (g1 m σ R) (fun v => g2 v m σ R) minSize maxSize (o σ R s) s)
      (fun l => decide (l = x :: rest)) (p * ps.prod / (maxSize - minSize + 1)) := by
  choose _ _ e1 he1 _ using h5
  choose _ _ e2 he2 _ using h6
  have tend : ∀ (g : Nat → Src (Shr α)) (e : Nat → Exp (Outcome (Shr α))) (_ : ∀ m, Follows (g m) (e m)) (E : Shr α → Bool) (p : ℚ),
      ChanceLimit g E p → Tendsto (fun m => (e m).mean (hit E)) atTop (𝓝 p) := by
    intro g e he E p h
    obtain ⟨q, hq, hc⟩ := chanceLimit_iff.1 h
    refine hq.congr' ?_
    filter_upwards [hc] with m hm
    exact chance_unique hm ⟨_, he m, rfl⟩
  refine limit_accumulate g1 g2 o minSize maxSize (rest.length + 1) hmax hn1 hn2 (fun l => decide (l = x :: rest))
    (fun l hl => by rw [of_decide_eq_true hl]; rfl) (p * ps.prod) W hW1 hW2 e1 he1 e2 he2 (tend _ _ he1 _ _ h3)
    (fun v hv => tend _ _ (fun m => he2 m v) _ _ (h4 v hv)) ?_
  have hprod : ∀ (zs : List (α × α)) (ps : List ℚ),
      List.Forall₂ (fun (y : α × α) p => ChanceLimit (g2 y.1) (fun t => decide (t.value = y.2)) p) zs ps →
      Tendsto (fun m => (zs.map fun y => (e2 m y.1).mean (hit fun t => decide (t.value = y.2))).prod) atTop (𝓝 ps.prod) := by
    intro zs ps h
    induction h with
    | nil => exact tendsto_const_nhds
    | cons hx _ ih =>
      simp only [List.map_cons, List.prod_cons]
      exact (tend _ _ (fun m => he2 m _) _ _ hx).mul ih
  refine ((tend _ _ he1 _ _ h1).mul (hprod _ _ h2)).congr fun m => ?_
  refine (mean_acc_list (e1 m) (e2 m) minSize x rest hn1 _ ?_).symm
  rw [List.forall₂_map_right_iff]
  exact List.forall₂_same.2 fun y _ => rfl

/-- What throws up to a bound are. -/
theorem throwUpTo_makes {m : Nat} {v : Int} {t : Shr Int} (h : Src.Makes (throwUpTo v m) t) : t.value ∈ Finset.Icc (1 : Int) 6 := by
  obtain ⟨σ, R, s, s', h⟩ := h
  obtain ⟨t0, ⟨s0, s0', h0⟩, -, hr⟩ := C36_sound (die σ R) (fun x => x ≤ v) m s s' t h
  obtain ⟨t1, s1, h1, hg⟩ := C17_interval R i32 (by decide) 1 6 s0 (by decide) (by decide) (by decide)
  have h0' : interval R i32 1 6 s0 = .ok (t0, s0') := h0
  rw [h0'] at h1
  cases h1
  have hin := hg.1 t.value (hr _ ⟨t, .refl t, rfl⟩).2
  rw [Finset.mem_Icc]
  omega

theorem throwUpTo_returns (v : Int) (hv : v ∈ Finset.Icc (1 : Int) 6) : ChanceLimit (throwUpTo v) (fun _ => true) 1 := by
  rw [Finset.mem_Icc] at hv
  have hne : ((Finset.Icc (1 : Int) 6).filter fun x => decide (x ≤ v) = true).card ≠ 0 := by
    refine Finset.card_ne_zero_of_mem (a := 1) ?_
    simp only [Finset.mem_filter, Finset.mem_Icc, decide_eq_true_eq]
    omega
  have := throwUpTo_chance v (fun _ => true) (((Finset.Icc (1 : Int) 6).filter fun x => decide (x ≤ v) = true).card) _ hne
    (by simp only [Bool.true_and]) rfl
  rwa [div_self (by exact_mod_cast hne)] at this

theorem evenThrow_follows (m : Nat) : ∃ E p, Chance (evenThrow m) E p := by
  obtain ⟨e, he, -⟩ := die_returns
  exact ⟨fun _ => true, _, _, follows_filter he _ m, rfl⟩

theorem evenThrow_makes (m : Nat) (t : Shr Int) (h : Src.Makes (evenThrow m) t) : t.value ∈ Finset.Icc (1 : Int) 6 := by
  have := evenThrow_reach h _ ⟨t, .refl t, rfl⟩
  simp only [Finset.mem_insert, Finset.mem_singleton] at this
  rw [Finset.mem_Icc]
  omega

/-- An even throw, and one or two more, each at most what was thrown before: 6, 3, 2 in 1 of 162 cases. -/
example (o : ∀ σ : Type, Rng σ → σ → List Nat → σ) :
    ChanceLimit (fun m => valueOnly fun σ R s => accumulate R (evenThrow m σ R) (fun v => throwUpTo v m σ R) 1 3 (o σ R s) s)
      (fun l => decide (l = [6, 3, 2])) (1 / 162) := by
  have a := throwUpTo_chance 6 (fun x => decide (x = 3)) 1 6 (by decide) (by decide) (by decide)
  have b := throwUpTo_chance 3 (fun x => decide (x = 2)) 1 3 (by decide) (by decide) (by decide)
  have := C147_nested_accumulate evenThrow throwUpTo o 1 3 (by norm_num) 6 [3, 2] (by simp) (by simp) (1 / 3) _
    (Finset.Icc 1 6) evenThrow_makes (fun _ _ _ _ h => throwUpTo_makes h) (evenThrow_each 6 (by decide))
    (.cons a (.cons b .nil)) (by simpa using evenThrow_chance (fun _ => true) 3 (by decide)) throwUpTo_returns
    evenThrow_follows throwUpTo_follows
  norm_num at this ⊢
  exact this

/-- C147. The sizes of `accumulate` alone, for generators with loops. -/
theorem C147_nested_sizes [DecidableEq α] (g1 : Nat → Src (Shr α)) (g2 : α → Nat → Src (Shr α))
    (o : ∀ σ : Type, Rng σ → σ → List Nat → σ) (minSize maxSize n : Nat) (hmax : maxSize < 2 ^ 64 - 1)
    (hn1 : minSize ≤ n) (hn2 : n ≤ maxSize) (W : Finset α)
    (hW1 : ∀ m t, (g1 m).Makes t → t.value ∈ W) (hW2 : ∀ m v t, v ∈ W → (g2 v m).Makes t → t.value ∈ W)
    (h3 : ChanceLimit g1 (fun _ => true) 1) (h4 : ∀ v ∈ W, ChanceLimit (g2 v) (fun _ => true) 1)
    (h5 : ∀ m, ∃ E p, Chance (g1 m) E p) (h6 : ∀ m v, ∃ E p, Chance (g2 v m) E p) :
    ChanceLimit (fun m => valueOnly fun σ R s => accumulate R (g1 m σ R) (fun v => g2 v m σ R) minSize maxSize (o σ R s) s)
      (fun l => decide (l.length = n)) (1 / (maxSize - minSize + 1)) := by
  choose _ _ e1 he1 _ using h5
  choose _ _ e2 he2 _ using h6
  have tend : ∀ (g : Nat → Src (Shr α)) (e : Nat → Exp (Outcome (Shr α))) (_ : ∀ m, Follows (g m) (e m)) (E : Shr α → Bool) (p : ℚ),
      ChanceLimit g E p → Tendsto (fun m => (e m).mean (hit E)) atTop (𝓝 p) := by
    intro g e he E p h
    obtain ⟨q, hq, hc⟩ := chanceLimit_iff.1 h
    refine hq.congr' ?_
    filter_upwards [hc] with m hm
    exact chance_unique hm ⟨_, he m, rfl⟩
  refine limit_accumulate g1 g2 o minSize maxSize n hmax hn1 hn2 (fun l => decide (l.length = n))
    (fun l hl => of_decide_eq_true hl) 1 W hW1 hW2 e1 he1 e2 he2 (tend _ _ he1 _ _ h3)
    (fun v hv => tend _ _ (fun m => he2 m v) _ _ (h4 v hv)) ?_
  have tM : Tendsto (fun m => ∏ v ∈ W, (e2 m v).mean (hit fun _ => true)) atTop (𝓝 1) := by
    have := tendsto_finsetProd W fun v hv => tend _ _ (fun m => he2 m v) _ _ (h4 v hv)
    simpa using this
  have low := (tend _ _ he1 _ _ h3).mul (tM.pow (n - 1))
  rw [one_pow, one_mul] at low
  refine tendsto_of_tendsto_of_tendsto_of_le_of_le low tendsto_const_nhds (fun m => ?_) fun m =>
    hit_mean_le_one (follows_acc (he1 m) (he2 m) minSize n).1 _
  have h01 : ∀ v, 0 ≤ (e2 m v).mean (hit fun _ => true) ∧ (e2 m v).mean (hit fun _ => true) ≤ 1 := fun v =>
    ⟨hit_mean_pos (he2 m v).1 _, hit_mean_le_one (he2 m v).1 _⟩
  refine (acc_returns (he1 m) (he2 m) W (hW1 m) (hW2 m) _ (Finset.prod_nonneg fun v _ => (h01 v).1)
    (fun v hv => prod_le_factor W (fun v => (e2 m v).mean (hit fun _ => true)) (fun v _ => (h01 v).1) (fun v _ => (h01 v).2) hv)
    minSize n hn1).trans (le_of_eq ?_)
  exact acc_sized (e1 m) (e2 m) minSize n

example (o : ∀ σ : Type, Rng σ → σ → List Nat → σ) :
    ChanceLimit (fun m => valueOnly fun σ R s => accumulate R (evenThrow m σ R) (fun v => throwUpTo v m σ R) 1 3 (o σ R s) s)
      (fun l => decide (l.length = 2)) (1 / 3) := by
  have := C147_nested_sizes evenThrow throwUpTo o 1 3 2 (by norm_num) (by norm_num) (by norm_num) (Finset.Icc 1 6)
    evenThrow_makes (fun _ _ _ _ h => throwUpTo_makes h) (by simpa using evenThrow_chance (fun _ => true) 3 (by decide))
    throwUpTo_returns evenThrow_follows throwUpTo_follows
  norm_num at this ⊢
  exact this

end Verif
