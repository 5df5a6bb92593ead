import Verif.Props.ChanceDep
import Verif.Props.ChanceSetLimit
import Verif.Lemmas.ChanceSetAny
/-
C147: generators that depend on generated values, of which the parts have loops (filters, `oneOf`).
-/
namespace Verif
open Shr Random ListLike Comb Integral IntType Filter Topology
variable {α β γ : Type}

theorem Exp.mean_leIn {P : α → Prop} {f g : α → ℚ} (h : ∀ a, P a → f a ≤ g a) {e : Exp α} (he : e.SatIn P) (hv : e.Valid) :
    e.mean f ≤ e.mean g := by
  induction e with
  | ret x => exact h x he
  | draw a b next ih =>
    have := Exp.size_pos hv.1
    simp only [Exp.mean]
    refine div_le_div_of_nonneg_right (Finset.sum_le_sum fun v hm => ?_) this.le
    have := Finset.mem_Icc.1 hm
    exact ih v (he v this.1 this.2) (hv.2 v this.1 this.2)

theorem hit_mean_le_one {e : Exp (Outcome α)} (he : e.Valid) (E : α → Bool) : e.mean (hit E) ≤ 1 := by
  refine le_of_le_of_eq (Exp.mean_le (g := fun _ => 1) (fun o => ?_) he) (Exp.mean_const 1 he)
  cases o with
  | ok x => simp only [hit]; split <;> norm_num
  | throws x => simp [hit]
  | ub => simp [hit]
  | diverges => simp [hit]

theorem hit_mean_pos {e : Exp (Outcome α)} (he : e.Valid) (E : α → Bool) : 0 ≤ e.mean (hit E) := by
  refine le_of_eq_of_le (Exp.mean_const 0 he).symm (Exp.mean_le (fun o => ?_) he)
  cases o with
  | ok x => simp only [hit]; split <;> norm_num
  | throws x => simp [hit]
  | ub => simp [hit]
  | diverges => simp [hit]

theorem mean_over_values [DecidableEq α] (e : Exp (Outcome (Shr α))) (S : Finset α) (F : Shr α → ℚ) (w : α → ℚ)
    (h1 : ∀ x : Shr α, x.value ∈ S → F x = w x.value) (h2 : ∀ x : Shr α, x.value ∉ S → F x = 0) :
    e.mean (val F) = ∑ u ∈ S, w u * e.mean (hit fun t => decide (t.value = u)) := by
  have : val F = fun o => ∑ u ∈ S, w u * hit (fun t => decide (t.value = u)) o := by
    funext o
    cases o with
    | ok x =>
      simp only [val, hit, decide_eq_true_eq, mul_ite, mul_one, mul_zero, Finset.sum_ite_eq]
      split
      · next h => exact h1 x h
      · next h => exact h2 x h
    | throws x => simp [val, hit]
    | ub => simp [val, hit]
    | diverges => simp [val, hit]
  have add : ∀ (T : Finset α) (g : α → Outcome (Shr α) → ℚ), (e.mean fun o => ∑ u ∈ T, g u o) = ∑ u ∈ T, e.mean (g u) := by
    intro T g
    induction T using Finset.induction_on with
    | empty =>
      have := Exp.mean_mul 0 (fun _ => 0) e
      simpa using this
    | insert a T ha ih => simp only [Finset.sum_insert ha, Exp.mean_add, ih]
  rw [this, add]
  simp only [Exp.mean_mul]

/-- The probability that looking whether there are shrinks returns. -/
def lookChance (e2 : α → Exp (Outcome (Shr β))) : List (Shr α) → ℚ
  | [] => 1
  | c :: _ => (e2 c.value).mean (hit fun _ => true)

theorem mean_peek_any (e2 : α → Exp (Outcome (Shr β))) (ss : List (Shr α)) (x : γ) (f : γ → ℚ) :
    ((peekExp e2 ss).andThen fun _ => .ret (.ok x)).mean (val f) = lookChance e2 ss * f x := by
  cases ss with
  | nil => simp [peekExp, Exp.andThen, Exp.bind, Exp.mean, val, lookChance]
  | cons c cs =>
    have := mean_and (e2 c.value) (fun _ => true) (f x)
    rw [lookChance, mul_comm, ← this, mean_andThen, peekExp, mean_andThen]
    simp [Exp.mean, val]

/-- The probability of a dependent generation. -/
theorem mean_depending (e1 : Exp (Outcome (Shr α))) (e2 : α → Exp (Outcome (Shr β))) (f : α → β → γ) (G : γ → Bool) :
    (e1.andThen fun t => (e2 t.value).andThen fun u => (peekExp e2 t.shrinks).andThen fun _ =>
      .ret (.ok (f t.value u.value))).mean (hit G) =
    e1.mean (val fun t => lookChance e2 t.shrinks * (e2 t.value).mean (hit fun u => G (f t.value u.value))) := by
  rw [hit_eq, mean_andThen]
  congr 2
  funext t
  rw [mean_andThen, ← Exp.mean_mul]
  congr 1
  funext o
  cases o with
  | ok u => simp only [val, mean_peek_any, hit]
  | throws x => simp [val, hit]
  | ub => simp [val, hit]
  | diverges => simp [val, hit]

theorem prod_le_factor {ι : Type} [DecidableEq ι] (C : Finset ι) (x : ι → ℚ) (h0 : ∀ c ∈ C, 0 ≤ x c) (h1 : ∀ c ∈ C, x c ≤ 1)
    {c : ι} (hc : c ∈ C) : ∏ i ∈ C, x i ≤ x c := by
  rw [← Finset.mul_prod_erase C x hc]
  exact mul_le_of_le_one_right (h0 c hc) (Finset.prod_le_one (fun i hi => h0 i (Finset.mem_of_mem_erase hi))
    fun i hi => h1 i (Finset.mem_of_mem_erase hi))

/-- Any of the generators that depend on a value: if the first values that matter are among `V` and the first shrinks
of first values are among `C`, the probability tends to the sum, over the first values, of the probability of the value
times that of the result given this value. -/
theorem limit_depending [DecidableEq α] (g1 : Nat → Src (Shr α)) (g2 : α → Nat → Src (Shr β)) (f : α → β → γ) (G : γ → Bool)
    (V C : Finset α) (P Q : α → ℚ) (res : Nat → Src γ)
    (hres : ∀ n (e1 : Exp (Outcome (Shr α))) (e2 : α → Exp (Outcome (Shr β))), Follows (g1 n) e1 → (∀ v, Follows (g2 v n) (e2 v)) →
      Follows (res n) (e1.andThen fun t => (e2 t.value).andThen fun u => (peekExp e2 t.shrinks).andThen fun _ =>
        .ret (.ok (f t.value u.value))))
    (hV : ∀ n t, (g1 n).Makes t → ∀ b, G (f t.value b) = true → t.value ∈ V)
    (hC : ∀ n t, (g1 n).Makes t → ∀ c ∈ t.shrinks.head?, c.value ∈ C)
    (h0 : ∃ E p, ChanceLimit g1 E p)
    (h1 : ∀ v ∈ V, ChanceLimit g1 (fun t => decide (t.value = v)) (P v))
    (h2 : ∀ v ∈ V, ChanceLimit (g2 v) (fun u => G (f v u.value)) (Q v))
    (h3 : ∀ n v, ∃ E p, Chance (g2 v n) E p)
    (h4 : ∀ c ∈ C, ChanceLimit (g2 c) (fun _ => true) 1) :
    ChanceLimit res G (∑ v ∈ V, P v * Q v) := by
  obtain ⟨e1, he1, ht1⟩ := experiments_of h0
  choose _ _ e2 he2 _ using h3
  have tend : ∀ v (E : Shr β → Bool) p, ChanceLimit (g2 v) E p → Tendsto (fun n => (e2 n v).mean (hit E)) atTop (𝓝 p) := by
    intro v E p h
    obtain ⟨q, hq, hc⟩ := chanceLimit_iff.1 h
    refine hq.congr' ?_
    filter_upwards [hc] with n hn
    exact chance_unique hn ⟨_, he2 n v, rfl⟩
  set B : Nat → ℚ := fun n => ∑ v ∈ V, (e2 n v).mean (hit fun u => G (f v u.value)) *
    (e1 n).mean (hit fun t => decide (t.value = v)) with hB
  set M : Nat → ℚ := fun n => ∏ c ∈ C, (e2 n c).mean (hit fun _ => true) with hM
  have tB : Tendsto B atTop (𝓝 (∑ v ∈ V, P v * Q v)) := by
    refine tendsto_finsetSum V fun v hv => ?_
    rw [mul_comm (P v)]
    exact (tend v _ _ (h2 v hv)).mul (ht1 _ _ (h1 v hv))
  have tM : Tendsto M atTop (𝓝 1) := by
    have := tendsto_finsetProd C fun c hc => tend c _ _ (h4 c hc)
    simpa using this
  have tMB : Tendsto (fun n => M n * B n) atTop (𝓝 (∑ v ∈ V, P v * Q v)) := by
    have := tM.mul tB
    rwa [one_mul] at this
  refine chanceLimit_iff.2 ⟨fun n => (e1 n).mean (val fun t => lookChance (e2 n) t.shrinks *
    (e2 n t.value).mean (hit fun u => G (f t.value u.value))), ?_, ?_⟩
  · have between : ∀ᶠ n in atTop, M n * B n ≤ (e1 n).mean (val fun t => lookChance (e2 n) t.shrinks *
        (e2 n t.value).mean (hit fun u => G (f t.value u.value))) ∧ (e1 n).mean (val fun t => lookChance (e2 n) t.shrinks *
        (e2 n t.value).mean (hit fun u => G (f t.value u.value))) ≤ B n := by
      filter_upwards [he1] with n hn
      have h01 : ∀ (v : α) (E : Shr β → Bool), 0 ≤ (e2 n v).mean (hit E) ∧ (e2 n v).mean (hit E) ≤ 1 := fun v E =>
        ⟨hit_mean_pos (he2 n v).1 E, hit_mean_le_one (he2 n v).1 E⟩
      have hBn : B n = (e1 n).mean (val fun t => if t.value ∈ V then
          (e2 n t.value).mean (hit fun u => G (f t.value u.value)) else 0) :=
        (mean_over_values (e1 n) V _ (fun v => (e2 n v).mean (hit fun u => G (f v u.value))) (fun x hx => if_pos hx)
          fun x hx => if_neg hx).symm
      have out : ∀ t, (g1 n).Makes t → t.value ∉ V → (e2 n t.value).mean (hit fun u => G (f t.value u.value)) = 0 := by
        intro t ht hv
        have hz : ∀ b, G (f t.value b) = false := fun b => by
          by_contra hc
          exact hv (hV n t ht b (by simpa using hc))
        simp only [hz]
        have := mean_and (e2 n t.value) (fun _ => true) 0
        simp only [if_true, zero_mul] at this
        rw [hit_eq]
        simpa using this
      have hlook : ∀ t, (g1 n).Makes t → M n ≤ lookChance (e2 n) t.shrinks ∧ lookChance (e2 n) t.shrinks ≤ 1 := by
        intro t ht
        cases hs : t.shrinks with
        | nil => exact ⟨Finset.prod_le_one (fun c _ => (h01 c _).1) fun c _ => (h01 c _).2, le_rfl⟩
        | cons c cs =>
          exact ⟨prod_le_factor C (fun c => (e2 n c).mean (hit fun _ => true)) (fun c _ => (h01 c _).1) (fun c _ => (h01 c _).2)
            (hC n t ht c (by rw [hs]; rfl)), (h01 _ _).2⟩
      rw [hBn, ← Exp.mean_mul]
      constructor
      · refine Exp.mean_leIn (fun o ho => ?_) hn.made hn.1
        cases o with
        | ok t =>
          simp only [val]
          split
          · exact mul_le_mul_of_nonneg_right (hlook t (ho t rfl)).1 (h01 _ _).1
          · next hv => rw [out t (ho t rfl) hv, mul_zero, mul_zero]
        | throws x => simp [val]
        | ub => simp [val]
        | diverges => simp [val]
      · refine Exp.mean_leIn (fun o ho => ?_) hn.made hn.1
        cases o with
        | ok t =>
          simp only [val]
          split
          · exact mul_le_of_le_one_left (h01 _ _).1 (hlook t (ho t rfl)).2
          · next hv => rw [out t (ho t rfl) hv, mul_zero]
        | throws x => simp [val]
        | ub => simp [val]
        | diverges => simp [val]
    exact tendsto_of_tendsto_of_tendsto_of_le_of_le' tMB tB (between.mono fun n h => h.1) (between.mono fun n h => h.2)
  · filter_upwards [he1] with n hn
    exact ⟨_, hres n _ _ hn (he2 n), mean_depending _ _ _ _⟩

/-- C147. `dependency`, `pairWith`, with generators that have loops (if the first values in question and the first
shrinks of first values are finitely many). -/
theorem C147_nested_dependency [DecidableEq α] (g1 : Nat → Src (Shr α)) (g2 : α → Nat → Src (Shr β))
    (o : ∀ σ : Type, Rng σ → σ → List Nat → σ) (G : α × β → Bool) (V C : Finset α) (P Q : α → ℚ)
    (hV : ∀ n t, (g1 n).Makes t → ∀ b, G (t.value, b) = true → t.value ∈ V)
    (hC : ∀ n t, (g1 n).Makes t → ∀ c ∈ t.shrinks.head?, c.value ∈ C)
    (h0 : ∃ E p, ChanceLimit g1 E p)
    (h1 : ∀ v ∈ V, ChanceLimit g1 (fun t => decide (t.value = v)) (P v))
    (h2 : ∀ v ∈ V, ChanceLimit (g2 v) (fun u => G (v, u.value)) (Q v))
    (h3 : ∀ n v, ∃ E p, Chance (g2 v n) E p)
    (h4 : ∀ c ∈ C, ChanceLimit (g2 c) (fun _ => true) 1) :
    ChanceLimit (fun n => valueOnly fun σ R s => dependency (g1 n σ R) (fun v => g2 v n σ R) (o σ R s) s) G
      (∑ v ∈ V, P v * Q v) :=
  limit_depending g1 g2 (fun a b => (a, b)) G V C P Q _ (fun n _ _ he1 he2 =>
    follows_dependent he1 he2 o (fun a b => (a, b)) (fun p => leaf (p.1, p.2.value)) (fun _ => rfl) _ (fun _ _ _ => rfl))
    hV hC h0 h1 h2 h3 h4

/-- Throws of a die until the number is at most `v`. -/
def throwUpTo (v : Int) (m : Nat) : Src (Shr Int) := fun σ R s => Comb.filter (die σ R) (fun x => x ≤ v) m s

theorem throwUpTo_chance (v : Int) (E : Int → Bool) (k l : Nat) (hl : l ≠ 0)
    (hk : ((Finset.Icc (1 : Int) 6).filter fun x => (E x && decide (x ≤ v)) = true).card = k)
    (hv : ((Finset.Icc (1 : Int) 6).filter fun x => decide (x ≤ v) = true).card = l) :
    ChanceLimit (throwUpTo v) (fun t => E t.value) (k / l) := by
  have lift : ∀ (F : Shr Int → Bool) p, Chance die F p → ChanceLimit (fun _ => die) F p := fun F p h ε hε =>
    ⟨0, fun n _ => ⟨p, h, by simpa using hε⟩⟩
  have hl' : (l : ℚ) ≠ 0 := by exact_mod_cast hl
  have := C142_nested_filter (fun _ => die) (fun x => x ≤ v) E _ _ (lift _ _ die_returns)
    (lift _ _ (die_chance (fun x => decide (x ≤ v)) l hv))
    (lift _ _ (die_chance (fun x => E x && decide (x ≤ v)) k hk)) (by positivity)
  refine cast (congrArg (fun x => ChanceLimit _ _ x) ?_) this
  field_simp

/-- What even throws and their shrinks are. -/
theorem evenThrow_reach {n : Nat} {t : Shr Int} (h : Src.Makes (evenThrow n) t) (v : Int) (hv : Reach t v) :
    v ∈ ({2, 4, 6} : Finset Int) := by
  obtain ⟨σ, R, s, s', h⟩ := h
  obtain ⟨t0, ⟨s0, s0', h0⟩, -, hr⟩ := C36_sound (die σ R) (fun v => v % 2 = 0) n s s' t h
  obtain ⟨t1, s1, h1, hg⟩ := C17_interval R i32 (by decide) 1 6 s0 (by decide) (by decide) (by decide)
  have h0' : interval R i32 1 6 s0 = .ok (t0, s0') := h0
  rw [h0'] at h1
  cases h1
  have hin := hg.1 v (hr v hv).2
  have hev : v % 2 = 0 := by simpa using (hr v hv).1
  simp only [Finset.mem_insert, Finset.mem_singleton]
  omega

/-- Such throws for even bounds. -/
theorem throwUpTo_even : ∀ v ∈ ({2, 4, 6} : Finset Int), ChanceLimit (throwUpTo v) (fun t => decide (t.value = v)) (1 / v) ∧
      ChanceLimit (throwUpTo v) (fun _ => true) 1 := by
  intro v hv
  simp only [Finset.mem_insert, Finset.mem_singleton] at hv
  rcases hv with rfl | rfl | rfl
  · have a := throwUpTo_chance 2 (fun x => decide (x = 2)) 1 2 (by decide) (by decide) (by decide)
    have b := throwUpTo_chance 2 (fun _ => true) 2 2 (by decide) (by decide) (by decide)
    norm_num at a b ⊢
    exact ⟨a, b⟩
  · have a := throwUpTo_chance 4 (fun x => decide (x = 4)) 1 4 (by decide) (by decide) (by decide)
    have b := throwUpTo_chance 4 (fun _ => true) 4 4 (by decide) (by decide) (by decide)
    norm_num at a b ⊢
    exact ⟨a, b⟩
  · have a := throwUpTo_chance 6 (fun x => decide (x = 6)) 1 6 (by decide) (by decide) (by decide)
    have b := throwUpTo_chance 6 (fun _ => true) 6 6 (by decide) (by decide) (by decide)
    norm_num at a b ⊢
    exact ⟨a, b⟩

theorem throwUpTo_one : ∀ v ∈ ({2, 4, 6} : Finset Int), ChanceLimit (throwUpTo v) (fun t => decide (t.value = 1)) (1 / v) := by
  intro v hv
  simp only [Finset.mem_insert, Finset.mem_singleton] at hv
  rcases hv with rfl | rfl | rfl
  · simpa using throwUpTo_chance 2 (fun x => decide (x = 1)) 1 2 (by decide) (by decide) (by decide)
  · simpa using throwUpTo_chance 4 (fun x => decide (x = 1)) 1 4 (by decide) (by decide) (by decide)
  · simpa using throwUpTo_chance 6 (fun x => decide (x = 1)) 1 6 (by decide) (by decide) (by decide)

theorem evenThrow_each : ∀ v ∈ ({2, 4, 6} : Finset Int), ChanceLimit evenThrow (fun t => decide (t.value = v)) (1 / 3) := by
  intro v hv
  simp only [Finset.mem_insert, Finset.mem_singleton] at hv
  rcases hv with rfl | rfl | rfl
  · simpa using evenThrow_chance (fun v => decide (v = 2)) 1 (by decide)
  · simpa using evenThrow_chance (fun v => decide (v = 4)) 1 (by decide)
  · simpa using evenThrow_chance (fun v => decide (v = 6)) 1 (by decide)

theorem throwUpTo_follows (n : Nat) (v : Int) : ∃ E p, Chance (throwUpTo v n) E p := by
  obtain ⟨e, he, -⟩ := die_returns
  exact ⟨fun _ => true, _, _, follows_filter he _ n, rfl⟩

/-- An even throw and a throw of at most as much: they are equal with the probability 1/3 · (1/2 + 1/4 + 1/6). -/
example (o : ∀ σ : Type, Rng σ → σ → List Nat → σ) :
    ChanceLimit (fun n => valueOnly fun σ R s => dependency (evenThrow n σ R) (fun v => throwUpTo v n σ R) (o σ R s) s)
      (fun x => decide (x.2 = x.1)) (11 / 36) := by
  have := C147_nested_dependency evenThrow throwUpTo o (fun x => decide (x.2 = x.1)) {2, 4, 6} {2, 4, 6} (fun _ => 1 / 3)
    (fun v => 1 / v) (fun n t ht _ _ => evenThrow_reach ht _ ⟨t, .refl t, rfl⟩)
    (fun n t ht c hc => evenThrow_reach ht _ ⟨c, .step (List.mem_of_mem_head? hc) (.refl c), rfl⟩)
    ⟨_, _, evenThrow_chance (fun _ => true) 3 (by decide)⟩
    evenThrow_each (fun v hv => (throwUpTo_even v hv).1) throwUpTo_follows
    (fun c hc => (throwUpTo_even c hc).2)
  norm_num [Finset.sum_insert] at this ⊢
  exact this

/-- C147. `chain`, `tupleWith`, with generators that have loops. -/
theorem C147_nested_chain [DecidableEq α] (cat : α → β → γ) (g1 : Nat → Src (Shr α)) (g2 : α → Nat → Src (Shr β))
    (o : ∀ σ : Type, Rng σ → σ → List Nat → σ) (G : γ → Bool) (V C : Finset α) (P Q : α → ℚ)
    (hV : ∀ n t, (g1 n).Makes t → ∀ b, G (cat t.value b) = true → t.value ∈ V)
    (hC : ∀ n t, (g1 n).Makes t → ∀ c ∈ t.shrinks.head?, c.value ∈ C)
    (h0 : ∃ E p, ChanceLimit g1 E p)
    (h1 : ∀ v ∈ V, ChanceLimit g1 (fun t => decide (t.value = v)) (P v))
    (h2 : ∀ v ∈ V, ChanceLimit (g2 v) (fun u => G (cat v u.value)) (Q v))
    (h3 : ∀ n v, ∃ E p, Chance (g2 v n) E p)
    (h4 : ∀ c ∈ C, ChanceLimit (g2 c) (fun _ => true) 1) :
    ChanceLimit (fun n => valueOnly fun σ R s => chain cat (g1 n σ R) (fun v => g2 v n σ R) (o σ R s) s) G
      (∑ v ∈ V, P v * Q v) :=
  limit_depending g1 g2 cat G V C P Q _ (fun n _ _ he1 he2 =>
    follows_dependent he1 he2 o cat (fun p => leaf (cat p.1 p.2.value)) (fun _ => rfl) _ (fun _ _ _ => rfl))
    hV hC h0 h1 h2 h3 h4

/-- The same as a tuple, in the other order. -/
example (o : ∀ σ : Type, Rng σ → σ → List Nat → σ) :
    ChanceLimit (fun n => valueOnly fun σ R s => chain (fun a b : Int => (b, a)) (evenThrow n σ R) (fun v => throwUpTo v n σ R)
      (o σ R s) s) (fun x => decide (x.1 = x.2)) (11 / 36) := by
  have := C147_nested_chain (fun a b : Int => (b, a)) evenThrow throwUpTo o (fun x => decide (x.1 = x.2)) {2, 4, 6} {2, 4, 6} (fun _ => 1 / 3)
    (fun v => 1 / v) (fun n t ht _ _ => evenThrow_reach ht _ ⟨t, .refl t, rfl⟩)
    (fun n t ht c hc => evenThrow_reach ht _ ⟨c, .step (List.mem_of_mem_head? hc) (.refl c), rfl⟩)
    ⟨_, _, evenThrow_chance (fun _ => true) 3 (by decide)⟩ evenThrow_each (fun v hv => (throwUpTo_even v hv).1) throwUpTo_follows
    (fun c hc => (throwUpTo_even c hc).2)
  norm_num [Finset.sum_insert] at this ⊢
  exact this

/-- C147. `derive`, `flatMap`, with generators that have loops. -/
theorem C147_nested_derive [DecidableEq α] (g1 : Nat → Src (Shr α)) (g2 : α → Nat → Src (Shr β))
    (o : ∀ σ : Type, Rng σ → σ → List Nat → σ) (F : β → Bool) (V C : Finset α) (P Q : α → ℚ)
    (hV : ∀ n t, (g1 n).Makes t → t.value ∈ V)
    (hC : ∀ n t, (g1 n).Makes t → ∀ c ∈ t.shrinks.head?, c.value ∈ C)
    (h0 : ∃ E p, ChanceLimit g1 E p)
    (h1 : ∀ v ∈ V, ChanceLimit g1 (fun t => decide (t.value = v)) (P v))
    (h2 : ∀ v ∈ V, ChanceLimit (g2 v) (fun u => F u.value) (Q v))
    (h3 : ∀ n v, ∃ E p, Chance (g2 v n) E p)
    (h4 : ∀ c ∈ C, ChanceLimit (g2 c) (fun _ => true) 1) :
    ChanceLimit (fun n => valueOnly fun σ R s => derive (g1 n σ R) (fun v => g2 v n σ R) (o σ R s) s) F
      (∑ v ∈ V, P v * Q v) :=
  limit_depending g1 g2 (fun _ b => b) F V C P Q _ (fun n _ _ he1 he2 =>
    follows_dependent he1 he2 o (fun _ b => b) (fun p => p.2) (fun _ => rfl) _ (fun _ _ _ => rfl))
    (fun n t ht _ _ => hV n t ht) hC h0 h1 h2 h3 h4

/-- The second throw alone: it is 1 with the probability 1/3 · (1/2 + 1/4 + 1/6). -/
example (o : ∀ σ : Type, Rng σ → σ → List Nat → σ) :
    ChanceLimit (fun n => valueOnly fun σ R s => derive (evenThrow n σ R) (fun v => throwUpTo v n σ R) (o σ R s) s)
      (fun x => decide (x = 1)) (11 / 36) := by
  have := C147_nested_derive evenThrow throwUpTo o (fun x => decide (x = 1)) {2, 4, 6} {2, 4, 6} (fun _ => 1 / 3)
    (fun v => 1 / v) (fun n t ht => evenThrow_reach ht _ ⟨t, .refl t, rfl⟩)
    (fun n t ht c hc => evenThrow_reach ht _ ⟨c, .step (List.mem_of_mem_head? hc) (.refl c), rfl⟩)
    ⟨_, _, evenThrow_chance (fun _ => true) 3 (by decide)⟩ evenThrow_each (fun v hv => throwUpTo_one v hv) throwUpTo_follows
    (fun c hc => (throwUpTo_even c hc).2)
  norm_num [Finset.sum_insert] at this ⊢
  exact this

end Verif
