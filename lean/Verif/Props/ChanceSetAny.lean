import Verif.Lemmas.ChanceSetAny
import Verif.Props.ChanceSetLimit
/-
C145: sets and maps whose elements have different probabilities.
-/
namespace Verif
open Shr Random ListLike Containers Comb Integral IntType Filter Topology
variable {α β : Type}

/-- C145. Sets of values of a generator, with or without loops, that gives the elements of `S` with any positive
probabilities: the set `S` is generated with the probability of drawing its elements one after the other, values that
were drawn before being drawn again. -/
theorem C145_any_set [LinearOrder α] (g : Nat → Src (Shr α)) (minSize maxSize : Nat) (hmax : maxSize < 2 ^ 32)
    (S : List α) (hS : S.Pairwise (· < ·)) (h1 : minSize ≤ S.length) (h2 : S.length ≤ maxSize)
    (P : α → ℚ) (hg : ChanceLimit g (fun _ => true) 1)
    (hp : ∀ v ∈ S, 0 < P v ∧ ChanceLimit g (fun t => decide (t.value = v)) (P v)) :
    ChanceLimit (fun m σ R s => arbiSet R (g m σ R) minSize maxSize m s) (fun t => decide (t.value = S))
      (successive P S.length S.toFinset 0 / (maxSize - minSize + 1)) := by
  obtain ⟨e, he, ht⟩ := experiments_of ⟨_, _, hg⟩
  have key := tendsto_fill_any (he.mono fun n h => h.1) S hS P (fun v hv => (hp v hv).1) fun v hv => ht _ _ (hp v hv).2
  refine chanceLimit_iff.2
    ⟨fun n => (fillExp (e n) S.length n []).mean (val (gain S 1)) / (maxSize - minSize + 1), key.div_const _, ?_⟩
  filter_upwards [he] with n hn
  exact chance_filled hn minSize maxSize hmax n
    (fun xs σ R s => (shrinkSet xs minSize).bind fun t => .ok (t, s)) (fun xs => .ret (shrinkSet xs minSize))
    (fun xs => Follows.const _) (fun t => decide (t.value = S)) (gain S 1)
    (fun xs hs hl => by
      obtain ⟨t, e1, e2⟩ := set_value hs hl
      simp [Exp.mean, e1, hit, e2, gain])
    S.length h1 h2 (fun xs hl => by
      unfold gain
      rw [if_neg fun h => hl (by rw [← h, List.length_map])])

/-- The sets of one and of two elements: of two elements, either comes first. -/
theorem successive_pair [LinearOrder α] (P : α → ℚ) {u v : α} (h : u ≠ v) :
    successive P 2 {u, v} 0 = P u * (P v / (1 - P u)) + P v * (P u / (1 - P v)) := by
  have e1 : ({u, v} : Finset α).erase u = {v} := by
    ext x; simp only [Finset.mem_erase, Finset.mem_insert, Finset.mem_singleton]
    constructor
    · rintro ⟨a, b | b⟩ <;> [exact absurd b a; exact b]
    · rintro rfl; exact ⟨h.symm, .inr rfl⟩
  have e2 : ({u, v} : Finset α).erase v = {u} := by
    ext x; simp only [Finset.mem_erase, Finset.mem_insert, Finset.mem_singleton]
    constructor
    · rintro ⟨a, b | b⟩ <;> [exact b; exact absurd b a]
    · rintro rfl; exact ⟨h, .inl rfl⟩
  simp [successive, Finset.sum_pair h, e1, e2]

/-- Sets of numbers of which 1 is twice as likely as 3. -/
example : ChanceLimit (fun m σ R s => arbiSet R (sixNumbers m σ R) 0 3 m s) (fun t => decide (t.value = [1, 3]))
    ((1 / 4 * (1 / 8 / (3 / 4)) + 1 / 8 * (1 / 4 / (7 / 8))) / 4) := by
  have := C145_any_set sixNumbers 0 3 (by norm_num) [1, 3] (by simp) (by simp) (by simp)
    (fun v => if v = 1 then 1 / 4 else 1 / 8) (by simpa using sixNumbers_chance fun _ => true) (by
      intro v hv
      simp only [List.mem_cons, List.not_mem_nil, or_false] at hv
      have := sixNumbers_chance fun x => decide (x = v)
      rcases hv with rfl | rfl
      · norm_num [List.countP_cons] at this ⊢
        exact this
      · norm_num [List.countP_cons] at this ⊢
        exact this)
  simp only [List.toFinset_cons, List.toFinset_nil, insert_empty_eq, List.length_cons, List.length_nil] at this
  rw [successive_pair _ (by decide)] at this
  norm_num at this ⊢
  exact this

/-- C145. Maps whose keys have different probabilities: the sets of keys are like generated sets, and the values are
independent of the keys and of each other. -/
theorem C145_any_map [LinearOrder α] (g : Nat → Src (Shr α)) (h : Nat → Src (Shr β)) (minSize maxSize : Nat)
    (hmax : maxSize < 2 ^ 32) (S : List α) (hS : S.Pairwise (· < ·)) (h1 : minSize ≤ S.length) (h2 : S.length ≤ maxSize)
    (P : α → ℚ) (hg : ChanceLimit g (fun _ => true) 1)
    (hp : ∀ v ∈ S, 0 < P v ∧ ChanceLimit g (fun t => decide (t.value = v)) (P v)) (hh : ChanceLimit h (fun _ => true) 1)
    (Es : List (β → Bool)) (ps : List ℚ) (hl : Es.length = S.length)
    (hps : List.Forall₂ (fun E p => ChanceLimit h (fun t => E t.value) p) Es ps) :
    ChanceLimit (fun m σ R s => arbiMap R (g m σ R) (h m σ R) minSize maxSize m s)
      (fun t => decide (t.value.map Prod.fst = S) && fits Es (t.value.map Prod.snd))
      (ps.prod * successive P S.length S.toFinset 0 / (maxSize - minSize + 1)) := by
  obtain ⟨e, he, ht⟩ := experiments_of ⟨_, _, hg⟩
  obtain ⟨e2, he2, ht2⟩ := experiments_of ⟨_, _, hh⟩
  have key := tendsto_fill_any (he.mono fun n h => h.1) S hS P (fun v hv => (hp v hv).1) fun v hv => ht _ _ (hp v hv).2
  have hprod : Tendsto (fun n => (Es.map fun E => (e2 n).mean (hit fun t => E t.value)).prod) atTop (𝓝 ps.prod) := by
    clear hl
    induction hps with
    | nil => exact tendsto_const_nhds
    | cons hx _ ih =>
      simp only [List.map_cons, List.prod_cons]
      exact (ht2 _ _ hx).mul ih
  refine chanceLimit_iff.2 ⟨fun n => (Es.map fun E => (e2 n).mean (hit fun t => E t.value)).prod *
      (fillExp (e n) S.length n []).mean (val (gain S 1)) / (maxSize - minSize + 1),
    (hprod.mul key).div_const ((maxSize : ℚ) - minSize + 1), ?_⟩
  filter_upwards [he, he2] with n hn hn2
  set Q := (Es.map fun E => (e2 n).mean (hit fun t => E t.value)).prod with hQ
  have := chance_filled hn minSize maxSize hmax n _ _ (follows_entries hn2 minSize)
    (fun t => decide (t.value.map Prod.fst = S) && fits Es (t.value.map Prod.snd)) (gain S Q)
    (fun xs hs hx => by
      rw [mean_entries (e2 n) minSize hs hx fun ks vs => decide (ks = S) && fits Es vs]
      unfold gain
      split
      · next heq =>
        have hxl : xs.length = Es.length := by rw [hl, ← heq, List.length_map]
        have hm := mean_many (e2 n) Es xs.length
        rw [if_pos hxl] at hm
        rw [hQ, ← hm, hit_eq]
        simp only [heq, decide_true, Bool.true_and]
      · next hne =>
        have h0 := mean_and (manyExp (e2 n) xs.length) (fun _ => true) 0
        simp only [if_true, zero_mul] at h0
        rw [← h0, hit_eq]
        simp only [hne, decide_false, Bool.false_and, Bool.false_eq_true, if_false])
    S.length h1 h2 (fun xs hx => by
      unfold gain
      rw [if_neg fun h => hx (by rw [← h, List.length_map])])
  have hgain : (val (gain S Q) : Outcome (List (Shr α)) → ℚ) = fun o => Q * val (gain S 1) o := by
    funext o
    cases o with
    | ok xs => simp only [val, gain]; split <;> simp
    | throws x => simp [val]
    | ub => simp [val]
    | diverges => simp [val]
  rw [hgain, Exp.mean_mul] at this
  exact this

/-- Maps from such numbers to even throws. -/
example : ChanceLimit (fun m σ R s => arbiMap R (sixNumbers m σ R) (evenThrow m σ R) 0 3 m s)
    (fun t => decide (t.value.map Prod.fst = [1, 3]) && fits [fun v => v = 2, fun v => v = 6] (t.value.map Prod.snd))
    (1 / 9 * (1 / 4 * (1 / 8 / (3 / 4)) + 1 / 8 * (1 / 4 / (7 / 8))) / 4) := by
  have := C145_any_map sixNumbers evenThrow 0 3 (by norm_num) [1, 3] (by simp) (by simp) (by simp)
    (fun v => if v = 1 then 1 / 4 else 1 / 8) (by simpa using sixNumbers_chance fun _ => true) (by
      intro v hv
      simp only [List.mem_cons, List.not_mem_nil, or_false] at hv
      have := sixNumbers_chance fun x => decide (x = v)
      rcases hv with rfl | rfl
      · norm_num [List.countP_cons] at this ⊢
        exact this
      · norm_num [List.countP_cons] at this ⊢
        exact this)
    (by simpa using evenThrow_chance (fun _ => true) 3 (by decide)) [fun v => v = 2, fun v => v = 6] _ (by simp)
    (.cons (evenThrow_chance (fun v => v = 2) 1 (by decide)) (.cons (evenThrow_chance (fun v => v = 6) 1 (by decide)) .nil))
  simp only [List.toFinset_cons, List.toFinset_nil, insert_empty_eq, List.length_cons, List.length_nil] at this
  rw [successive_pair _ (by decide)] at this
  norm_num at this ⊢
  exact this

end Verif
