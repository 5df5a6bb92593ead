import Verif.Lemmas.ChanceSetLimit
import Verif.Props.ChanceSet
import Verif.Props.ChanceCombLimit
/-
C145: sets and maps whose elements come from generators that have loops themselves (an `oneOf`, a filter).
-/
namespace Verif
open Shr Random ListLike Containers Comb Integral IntType Filter Topology
variable {α β : Type}

/-- The experiments of a generator with a loop, and the probabilities in them. -/
theorem experiments_of {g : Nat → Src (Shr α)} (hg : ∃ E p, ChanceLimit g E p) :
    ∃ e : Nat → Exp (Outcome (Shr α)), (∀ᶠ n in atTop, Follows (g n) (e n)) ∧
      ∀ E p, ChanceLimit g E p → Tendsto (fun n => (e n).mean (hit E)) atTop (𝓝 p) := by
  classical
  obtain ⟨E, p, h⟩ := hg
  obtain ⟨q, -, hq⟩ := chanceLimit_iff.1 h
  refine ⟨fun n => if hn : ∃ e, Follows (g n) e then hn.choose else .ret .diverges, ?_, fun E' p' h' => ?_⟩
  · filter_upwards [hq] with n hn
    obtain ⟨e, he, -⟩ := hn
    have hx : ∃ e, Follows (g n) e := ⟨e, he⟩
    rw [dif_pos hx]
    exact hx.choose_spec
  · obtain ⟨q', ht, hq'⟩ := chanceLimit_iff.1 h'
    refine ht.congr' ?_
    filter_upwards [hq'] with n hn
    obtain ⟨e, he, h2⟩ := hn
    have hx : ∃ e, Follows (g n) e := ⟨e, he⟩
    rw [dif_pos hx]
    exact chance_unique ⟨e, he, h2⟩ ⟨_, hx.choose_spec, rfl⟩

/-- C145. Sets of values of a generator with loops that gives each element of `S` with probability `1/N`: the set `S`
is generated with probability one over the number of sizes and the number of ways to choose that many out of `N`. -/
theorem C145_nested_set [LinearOrder α] (g : Nat → Src (Shr α)) (minSize maxSize : Nat) (hmax : maxSize < 2 ^ 32)
    (S : List α) (hS : S.Pairwise (· < ·)) (h1 : minSize ≤ S.length) (h2 : S.length ≤ maxSize)
    (N : Nat) (hN : S.length ≤ N) (hg : ChanceLimit g (fun _ => true) 1)
    (hp : ∀ v ∈ S, ChanceLimit g (fun t => decide (t.value = v)) (1 / N)) :
    ChanceLimit (fun m σ R s => arbiSet R (g m σ R) minSize maxSize m s) (fun t => decide (t.value = S))
      (1 / ((maxSize - minSize + 1) * N.choose S.length)) := by
  obtain ⟨e, he, ht⟩ := experiments_of ⟨_, _, hg⟩
  have key := tendsto_fill (he.mono fun n h => h.1) S hS N hN fun v hv => ht _ _ (hp v hv)
  refine chanceLimit_iff.2
    ⟨fun n => (fillExp (e n) S.length n []).mean (val (gain S 1)) / (maxSize - minSize + 1), ?_, ?_⟩
  · have := key.div_const ((maxSize : ℚ) - minSize + 1)
    rwa [div_div, mul_comm (N.choose S.length : ℚ)] at this
  · filter_upwards [he] with n hn
    exact chance_filled hn minSize maxSize hmax n
      (fun xs σ R s => (shrinkSet xs minSize).bind fun t => .ok (t, s)) (fun xs => .ret (shrinkSet xs minSize))
      (fun xs => Follows.const _) (fun t => decide (t.value = S)) (gain S 1)
      (fun xs hs hl => by
        obtain ⟨t, e1, e2⟩ := set_value hs hl
        simp [Exp.mean, e1, hit, e2, gain])
      S.length h1 h2 (fun xs hl => by
        unfold gain
        rw [if_neg fun h => hl (by rw [← h, List.length_map])])

/-- Throws of a die until the number is even. -/
def evenThrow (m : Nat) : Src (Shr Int) := fun σ R s => Comb.filter (die σ R) (fun v => v % 2 = 0) m s

theorem evenThrow_chance (E : Int → Bool) (k : Nat)
    (hk : ((Finset.Icc (1 : Int) 6).filter fun v => (E v && decide (v % 2 = 0)) = true).card = k) :
    ChanceLimit evenThrow (fun t => E t.value) (k / 3) := by
  have lift : ∀ (F : Shr Int → Bool) p, Chance die F p → ChanceLimit (fun _ => die) F p := fun F p h ε hε =>
    ⟨0, fun n _ => ⟨p, h, by simpa using hε⟩⟩
  have := C142_nested_filter (fun _ => die) (fun v => v % 2 = 0) E _ _ (lift _ _ die_returns)
    (lift _ _ (die_chance (fun v => decide (v % 2 = 0)) 3 (by decide)))
    (lift _ _ (die_chance (fun v => E v && decide (v % 2 = 0)) k hk)) (by norm_num)
  refine cast (congrArg (fun x => ChanceLimit _ _ x) ?_) this
  push_cast
  ring

/-- Sets of at most two even throws: {2, 6} is one of three sets of two. -/
example : ChanceLimit (fun m σ R s => arbiSet R (evenThrow m σ R) 0 2 m s) (fun t => decide (t.value = [2, 6])) (1 / 9) := by
  have := C145_nested_set evenThrow 0 2 (by norm_num) [2, 6] (by simp) (by simp) (by simp) 3 (by simp)
    (by simpa using evenThrow_chance (fun _ => true) 3 (by decide)) (by
      intro v hv
      simp only [List.mem_cons, List.not_mem_nil, or_false] at hv
      rcases hv with rfl | rfl
      · simpa using evenThrow_chance (fun v => decide (v = 2)) 1 (by decide)
      · simpa using evenThrow_chance (fun v => decide (v = 6)) 1 (by decide))
  norm_num [Nat.choose] at this ⊢
  exact this

/-- C145. The sizes alone: all permitted sizes are equally likely for every generator of elements with loops that
gives at least as many different values as are wanted with positive probabilities, however different. -/
theorem C145_nested_sizes [LinearOrder α] (g : Nat → Src (Shr α)) (minSize maxSize k : Nat) (hmax : maxSize < 2 ^ 32)
    (h1 : minSize ≤ k) (h2 : k ≤ maxSize) (hg : ChanceLimit g (fun _ => true) 1) (U : List α) (hU : U.Nodup)
    (hk : k ≤ U.length) (hp : ∀ u ∈ U, ∃ p, 0 < p ∧ ChanceLimit g (fun t => decide (t.value = u)) p) :
    ChanceLimit (fun m σ R s => arbiSet R (g m σ R) minSize maxSize m s) (fun t => decide (t.value.length = k))
      (1 / (maxSize - minSize + 1)) := by
  classical
  obtain ⟨e, he, ht⟩ := experiments_of ⟨_, _, hg⟩
  obtain ⟨δ, hδ, hδ1, hlow⟩ := lower_bound U (fun u => if h : ∃ p, 0 < p ∧ ChanceLimit g (fun t => decide (t.value = u)) p
    then h.choose else 0) fun u hu => by rw [dif_pos (hp u hu)]; exact (hp u hu).choose_spec.1
  have hev : ∀ᶠ n in atTop, ∀ u ∈ U, δ / 2 ≤ (e n).mean (hit fun t => decide (t.value = u)) := by
    have : ∀ u ∈ U.toFinset, ∀ᶠ n in atTop, δ / 2 ≤ (e n).mean (hit fun t => decide (t.value = u)) := by
      intro u hu
      have hu' := List.mem_toFinset.1 hu
      have hl := hlow u hu'
      rw [dif_pos (hp u hu')] at hl
      filter_upwards [(ht _ _ (hp u hu').choose_spec.2).eventually_const_lt (show δ / 2 < _ by linarith)] with n h
      exact h.le
    filter_upwards [(Filter.eventually_all_finset _).2 this] with n hn u hu
    exact hn u (List.mem_toFinset.2 hu)
  have key := tendsto_fill_done (he.mono fun n h => h.1) (ht _ _ hg) U hU (δ / 2) (by positivity) (by linarith) hev k hk
  refine chanceLimit_iff.2 ⟨_, key.div_const _, ?_⟩
  filter_upwards [he] with n hn
  have := chance_filled hn minSize maxSize hmax n
    (fun xs σ R s => (shrinkSet xs minSize).bind fun t => .ok (t, s)) (fun xs => .ret (shrinkSet xs minSize))
    (fun xs => Follows.const _) (fun t => decide (t.value.length = k)) (fun xs => if xs.length = k then 1 else 0)
    (fun xs hs hl => by
      obtain ⟨t, e1, e2⟩ := set_value hs hl
      simp [Exp.mean, e1, hit, e2])
    k h1 h2 (fun xs hl => if_neg hl)
  have e1 : (fillExp (e n) k n []).mean (val fun xs => if xs.length = k then (1 : ℚ) else 0) =
      (fillExp (e n) k n []).mean (val fun _ => 1) := by
    refine Exp.mean_congr (fun o ho => ?_) (sat_fill (e n) k n [] (by simp [SortedBy]) (by simp))
    cases o with
    | ok xs => simp [val, ho.1]
    | throws x => rfl
    | ub => rfl
    | diverges => rfl
  rw [e1] at this
  exact this

/-- Sets of numbers of which 1 and 2 are twice as likely as the others: all sizes are equally likely. -/
example : ChanceLimit (fun m σ R s => arbiSet R (sixNumbers m σ R) 0 3 m s) (fun t => decide (t.value.length = 3)) (1 / 4) := by
  have := C145_nested_sizes sixNumbers 0 3 3 (by norm_num) (by norm_num) le_rfl
    (by simpa using sixNumbers_chance fun _ => true) [1, 3, 5] (by simp) (by simp) (by
      intro u hu
      refine ⟨_, ?_, sixNumbers_chance fun v => decide (v = u)⟩
      simp only [List.mem_cons, List.not_mem_nil, or_false] at hu
      rcases hu with rfl | rfl | rfl <;> norm_num [List.countP_cons])
  norm_num at this ⊢
  exact this

/-- C145. Maps, of which the generators of keys and of values have loops: the sets of keys are like generated sets,
and the values are independent of the keys and of each other. -/
theorem C145_nested_map [LinearOrder α] (g : Nat → Src (Shr α)) (h : Nat → Src (Shr β)) (minSize maxSize : Nat)
    (hmax : maxSize < 2 ^ 32) (S : List α) (hS : S.Pairwise (· < ·)) (h1 : minSize ≤ S.length) (h2 : S.length ≤ maxSize)
    (N : Nat) (hN : S.length ≤ N) (hg : ChanceLimit g (fun _ => true) 1)
    (hp : ∀ v ∈ S, ChanceLimit g (fun t => decide (t.value = v)) (1 / N)) (hh : ChanceLimit h (fun _ => true) 1)
    (Es : List (β → Bool)) (ps : List ℚ) (hl : Es.length = S.length)
    (hps : List.Forall₂ (fun E p => ChanceLimit h (fun t => E t.value) p) Es ps) :
    ChanceLimit (fun m σ R s => arbiMap R (g m σ R) (h m σ R) minSize maxSize m s)
      (fun t => decide (t.value.map Prod.fst = S) && fits Es (t.value.map Prod.snd))
      (ps.prod / ((maxSize - minSize + 1) * N.choose S.length)) := by
  obtain ⟨e, he, ht⟩ := experiments_of ⟨_, _, hg⟩
  obtain ⟨e2, he2, ht2⟩ := experiments_of ⟨_, _, hh⟩
  have key := tendsto_fill (he.mono fun n h => h.1) S hS N hN fun v hv => ht _ _ (hp v hv)
  have hprod : Tendsto (fun n => (Es.map fun E => (e2 n).mean (hit fun t => E t.value)).prod) atTop (𝓝 ps.prod) := by
    clear hl
    induction hps with
    | nil => exact tendsto_const_nhds
    | cons hx _ ih =>
      simp only [List.map_cons, List.prod_cons]
      exact (ht2 _ _ hx).mul ih
  refine chanceLimit_iff.2 ⟨fun n => (Es.map fun E => (e2 n).mean (hit fun t => E t.value)).prod *
      (fillExp (e n) S.length n []).mean (val (gain S 1)) / (maxSize - minSize + 1), ?_, ?_⟩
  · have := (hprod.mul key).div_const ((maxSize : ℚ) - minSize + 1)
    rwa [mul_one_div, div_div, mul_comm (N.choose S.length : ℚ)] at this
  · filter_upwards [he, he2] with n hn hn2
    set P := (Es.map fun E => (e2 n).mean (hit fun t => E t.value)).prod with hP
    have := chance_filled hn minSize maxSize hmax n _ _ (follows_entries hn2 minSize)
      (fun t => decide (t.value.map Prod.fst = S) && fits Es (t.value.map Prod.snd)) (gain S P)
      (fun xs hs hx => by
        rw [mean_entries (e2 n) minSize hs hx fun ks vs => decide (ks = S) && fits Es vs]
        unfold gain
        split
        · next heq =>
          have hxl : xs.length = Es.length := by rw [hl, ← heq, List.length_map]
          have hm := mean_many (e2 n) Es xs.length
          rw [if_pos hxl] at hm
          rw [hP, ← hm, hit_eq]
          simp only [heq, decide_true, Bool.true_and]
        · next hne =>
          have h0 := mean_and (manyExp (e2 n) xs.length) (fun _ => true) 0
          simp only [if_true, zero_mul] at h0
          rw [← h0, hit_eq]
          simp only [hne, decide_false, Bool.false_and, Bool.false_eq_true, if_false])
      S.length h1 h2 (fun xs hx => by
        unfold gain
        rw [if_neg fun h => hx (by rw [← h, List.length_map])])
    have hgain : (val (gain S P) : Outcome (List (Shr α)) → ℚ) = fun o => P * val (gain S 1) o := by
      funext o
      cases o with
      | ok xs => simp only [val, gain]; split <;> simp
      | throws x => simp [val]
      | ub => simp [val]
      | diverges => simp [val]
    rw [hgain, Exp.mean_mul] at this
    exact this

/-- Maps from even throws to such numbers. -/
example : ChanceLimit (fun m σ R s => arbiMap R (evenThrow m σ R) (sixNumbers m σ R) 0 2 m s)
    (fun t => decide (t.value.map Prod.fst = [2, 6]) && fits [fun v => v = 1, fun v => v = 5] (t.value.map Prod.snd))
    (1 / 288) := by
  have := C145_nested_map evenThrow sixNumbers 0 2 (by norm_num) [2, 6] (by simp) (by simp) (by simp) 3 (by simp)
    (by simpa using evenThrow_chance (fun _ => true) 3 (by decide)) (by
      intro v hv
      simp only [List.mem_cons, List.not_mem_nil, or_false] at hv
      rcases hv with rfl | rfl
      · simpa using evenThrow_chance (fun v => decide (v = 2)) 1 (by decide)
      · simpa using evenThrow_chance (fun v => decide (v = 6)) 1 (by decide))
    (by simpa using sixNumbers_chance fun _ => true) [fun v => v = 1, fun v => v = 5] _ (by simp)
    (.cons (sixNumbers_chance fun v => v = 1) (.cons (sixNumbers_chance fun v => v = 5) .nil))
  norm_num [Nat.choose, List.countP_cons] at this ⊢
  exact this

end Verif
