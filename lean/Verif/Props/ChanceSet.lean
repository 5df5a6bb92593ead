import Verif.Lemmas.ChanceSet
import Verif.Props.ChanceComb
import Verif.Props.Containers
/-
C145: how likely the results of generators of sets and maps are (Spec/Chance.lean).
-/
namespace Verif
open Shr Random ListLike Containers Comb Integral IntType
variable {α β : Type}

theorem set_value [LinearOrder α] {xs : List (Shr α)} (hs : SortedBy Shr.value xs) {minSize : Nat}
    (h : minSize ≤ xs.length) : ∃ t, shrinkSet xs minSize = .ok t ∧ t.value = xs.map Shr.value := by
  obtain ⟨t0, h0⟩ := (C24_defined xs minSize).1.2 h
  have h1 : ∃ t, shrinkSet xs minSize = .ok t := by
    unfold shrinkSet
    rw [h0]
    exact ⟨_, rfl⟩
  obtain ⟨t, h1⟩ := h1
  obtain ⟨t1, h4, rfl⟩ := shrinkSet_eq (List.pairwise_map.2 hs) h1
  exact ⟨_, h1, by rw [value_map, (C24_defined _ _).2 t1 h4]⟩

/-- C145. If the element generator gives each element of `S` with probability `1/n`, then the set `S` is generated
with probability one over the number of sizes and the number of ways to choose that many out of `n`: every size is
equally likely, and all sets of a size are equally likely. (A set is its strictly increasing list of elements.) -/
theorem C145_set [LinearOrder α] (g : Src (Shr α)) (minSize maxSize : Nat) (hmax : maxSize < 2 ^ 32)
    (S : List α) (hS : S.Pairwise (· < ·)) (h1 : minSize ≤ S.length) (h2 : S.length ≤ maxSize)
    (n : Nat) (hn : S.length ≤ n) (hg : ∃ E p, Chance g E p)
    (hp : ∀ v ∈ S, Chance g (fun t => decide (t.value = v)) (1 / n)) :
    ChanceLimit (fun m σ R s => arbiSet R (g σ R) minSize maxSize m s) (fun t => decide (t.value = S))
      (1 / ((maxSize - minSize + 1) * n.choose S.length)) := by
  obtain ⟨_, _, e, he, -⟩ := hg
  have hp' : ∀ v ∈ S, e.mean (hit fun t => decide (t.value = v)) = 1 / n :=
    fun v hv => (chance_unique (hp v hv) ⟨e, he, rfl⟩).symm
  have hN : (1 : ℚ) ≤ maxSize - minSize + 1 := by
    have : (minSize : ℚ) ≤ maxSize := by exact_mod_cast (h1.trans h2)
    linarith
  have hc : ∀ m, Chance (fun σ R s => arbiSet R (g σ R) minSize maxSize m s) (fun t => decide (t.value = S))
      (reachAll n S.length m S.length / (maxSize - minSize + 1)) := by
    intro m
    have := chance_filled he minSize maxSize hmax m
      (fun xs σ R s => (shrinkSet xs minSize).bind fun t => .ok (t, s)) (fun xs => .ret (shrinkSet xs minSize))
      (fun xs => Follows.const _) (fun t => decide (t.value = S)) (gain S 1)
      (fun xs hs hl => by
        obtain ⟨t, e1, e2⟩ := set_value hs hl
        simp [Exp.mean, e1, hit, e2, gain])
      S.length h1 h2 (fun xs hl => by
        unfold gain
        rw [if_neg fun h => hl (by rw [← h, List.length_map])])
    rw [mean_fill e S hS 1 n hp' m [] S.length (by simp [SortedBy]) (by simp) (by simp), one_mul] at this
    exact this
  obtain ⟨d, hd⟩ : ∃ d, n = d + S.length := ⟨n - S.length, by omega⟩
  rcases Nat.eq_zero_or_pos n with h0 | hpos
  · have hS0 : S.length = 0 := by omega
    intro ε hε
    refine ⟨0, fun m _ => ⟨_, hc m, ?_⟩⟩
    rw [hS0]
    cases m <;> simpa [reachAll] using hε
  · have hnq : (1 : ℚ) ≤ n := by exact_mod_cast hpos
    have i1 : 0 < 1 / (2 * n : ℚ) := by positivity
    have i2 : 1 / (2 * n : ℚ) ≤ 1 := by rw [div_le_one (by linarith)]; linarith
    refine limit_of_bound (C := (2 * n) ^ S.length) (ρ := 1 - 1 / (2 * n)) (by linarith) (by linarith) hc fun m => ?_
    have hb := reach_bound n S.length d hd m S.length le_rfl
    rw [← hd] at hb
    have e1 : reachAll n S.length m S.length / (maxSize - minSize + 1) - 1 / ((maxSize - minSize + 1) * n.choose S.length) =
        (reachAll n S.length m S.length - 1 / n.choose S.length) / (maxSize - minSize + 1 : ℚ) := by
      rw [sub_div, div_div, mul_comm (n.choose S.length : ℚ)]
    rw [e1, abs_div, abs_of_pos (by linarith : (0 : ℚ) < maxSize - minSize + 1)]
    exact (div_le_self (abs_nonneg _) hN).trans hb

/-- Sets of at most three throws of a die: {2, 5} is one of 15 sets of two throws. -/
example : ChanceLimit (fun m σ R s => arbiSet R (die σ R) 0 3 m s) (fun t => decide (t.value = [2, 5])) (1 / 60) := by
  have := C145_set die 0 3 (by norm_num) [2, 5] (by simp) (by simp) (by simp) 6 (by simp) ⟨_, _, die_returns⟩ (by
    intro v hv
    simp only [List.mem_cons, List.not_mem_nil, or_false] at hv
    rcases hv with rfl | rfl
    · have := die_chance (fun v => decide (v = 2)) 1 (by decide)
      norm_num at this ⊢
      exact this
    · have := die_chance (fun v => decide (v = 5)) 1 (by decide)
      norm_num at this ⊢
      exact this)
  norm_num [Nat.choose] at this ⊢
  exact this

/-- C145. The sizes alone, for an element generator that always returns and gives at least as many different values
as are wanted with positive probabilities (however different): every size is equally likely. -/
theorem C145_sizes [LinearOrder α] (g : Src (Shr α)) (minSize maxSize k : Nat) (hmax : maxSize < 2 ^ 32)
    (h1 : minSize ≤ k) (h2 : k ≤ maxSize) (hg : Chance g (fun _ => true) 1) (U : List α) (hU : U.Nodup)
    (hk : k ≤ U.length) (hp : ∀ u ∈ U, ∃ p, 0 < p ∧ Chance g (fun t => decide (t.value = u)) p) :
    ChanceLimit (fun m σ R s => arbiSet R (g σ R) minSize maxSize m s) (fun t => decide (t.value.length = k))
      (1 / (maxSize - minSize + 1)) := by
  obtain ⟨e, he, hret⟩ := hg
  obtain ⟨δ, hδ, hδ1, hp'⟩ := lower_bound U (fun u => e.mean (hit fun t => decide (t.value = u))) fun u hu => by
    obtain ⟨p, h0, hc⟩ := hp u hu
    rwa [chance_unique hc ⟨e, he, rfl⟩] at h0
  have hN : (1 : ℚ) ≤ maxSize - minSize + 1 := by
    have : (minSize : ℚ) ≤ maxSize := by exact_mod_cast (h1.trans h2)
    linarith
  have hc : ∀ m, Chance (fun σ R s => arbiSet R (g σ R) minSize maxSize m s) (fun t => decide (t.value.length = k))
      ((fillExp e k m []).mean (val fun _ => 1) / (maxSize - minSize + 1)) := by
    intro m
    have := chance_filled he minSize maxSize hmax m
      (fun xs σ R s => (shrinkSet xs minSize).bind fun t => .ok (t, s)) (fun xs => .ret (shrinkSet xs minSize))
      (fun xs => Follows.const _) (fun t => decide (t.value.length = k)) (fun xs => if xs.length = k then 1 else 0)
      (fun xs hs hl => by
        obtain ⟨t, e1, e2⟩ := set_value hs hl
        simp [Exp.mean, e1, hit, e2])
      k h1 h2 (fun xs hl => if_neg hl)
    have e1 : (fillExp e k m []).mean (val fun xs => if xs.length = k then (1 : ℚ) else 0) =
        (fillExp e k m []).mean (val fun _ => 1) := by
      refine Exp.mean_congr (fun o ho => ?_) (sat_fill e k m [] (by simp [SortedBy]) (by simp))
      cases o with
      | ok xs => simp [val, ho.1]
      | throws x => rfl
      | ub => rfl
      | diverges => rfl
    rw [e1] at this
    exact this
  refine limit_of_bound (C := (2 / δ) ^ k) (ρ := 1 - δ / 2) (by linarith) (by linarith) hc fun m => ?_
  have l1 := fill_done e he.1 hret U hU δ hδ hδ1 hp' k hk m [] k (by simp [SortedBy]) (by simp)
  have l2 := fill_le_one (fillExp e k m []) (follows_fill he k m []).1
  rw [← sub_div, abs_div, abs_of_pos (by linarith : (0 : ℚ) < maxSize - minSize + 1)]
  refine (div_le_self (abs_nonneg _) hN).trans ?_
  rw [abs_le]
  constructor <;> linarith

/-- Sets of whole type integers: the values are not equally likely (C138), all sizes are. -/
example : ChanceLimit (fun m σ R s => arbiSet R (fun s => arbiInt R i8 s) 0 3 m s) (fun t => decide (t.value.length = 2))
    (1 / 4) := by
  have hret := C138_whole_type i8 (by decide) fun _ => true
  have e1 : (boundaryValues i8).countP (fun _ => true) = (boundaryValues i8).length := by simp
  have e2 : ((Finset.Icc i8.lo i8.hi).filter fun v => (fun _ : Int => true) v = true).card = 256 := by decide +kernel
  have e3 : ((boundaryValues i8).length : ℚ) ≠ 0 := by
    have : (boundaryValues i8).length ≠ 0 := by decide
    exact_mod_cast this
  have e4 : i8.bits = 8 := rfl
  rw [e1, e2, div_self e3, e4] at hret
  norm_num at hret
  have := C145_sizes (fun _ R s => arbiInt R i8 s) 0 3 2 (by norm_num) (by norm_num) (by norm_num) hret [3, 77] (by simp)
    (by simp) (by
      intro u hu
      obtain ⟨p, hp, hl, -⟩ := C138_every_value i8 (by decide) u
        (by simp only [List.mem_cons, List.not_mem_nil, or_false] at hu; rcases hu with rfl | rfl <;> decide)
        (by simp only [List.mem_cons, List.not_mem_nil, or_false] at hu; rcases hu with rfl | rfl <;> decide)
      refine ⟨p, lt_of_lt_of_le ?_ hl, hp⟩
      norm_num [e4])
  norm_num at this ⊢
  exact this

/-! ### Maps -/

theorem map_value [LinearOrder α] {keys : List (Shr α)} (hs : SortedBy Shr.value keys) {elems : List (Shr β)}
    (hl : elems.length = keys.length) {minSize : Nat} (h : minSize ≤ keys.length) :
    (shrinkMap (insertAll (fun e => e.1.value) (keys.zip elems)) minSize).value =
      (keys.map Shr.value).zip (elems.map Shr.value) := by
  have hz : ((keys.zip elems).map fun e => e.1.value) = keys.map Shr.value := by
    rw [show (fun e : Shr α × Shr β => e.1.value) = Shr.value ∘ Prod.fst from rfl, ← List.map_map,
      List.map_fst_zip (by omega)]
  have hsz : ((keys.zip elems).map fun e => e.1.value).Pairwise (· < ·) := by
    rw [hz]; exact List.pairwise_map.mpr hs
  rw [insertAll_sorted (List.pairwise_map.mp hsz), shrinkMap_eq hsz, value_map]
  unfold mapSizes
  have hlz : (keys.zip elems).length = keys.length := by simp [hl]
  rw [if_pos (by omega), sizeRange, value_map, BinSearch.bsNat_value, List.take_of_length_le (by simp; omega)]
  rw [List.zip_map]
  rfl

/-- What is done with the keys of a map. -/
theorem follows_entries [LinearOrder α] {h : Src (Shr β)} {e : Exp (Outcome (Shr β))} (he : Follows h e) (minSize : Nat)
    (keys : List (Shr α)) :
    Follows (fun σ R s => drawMany (h σ R) keys.length s >>= fun p =>
        .ok (shrinkMap (insertAll (fun e => e.1.value) (keys.zip p.1)) minSize, p.2))
      ((manyExp e keys.length).andThen fun elems =>
        .ret (.ok (shrinkMap (insertAll (fun e => e.1.value) (keys.zip elems)) minSize))) :=
  (follows_many he keys.length).bind fun elems => Follows.pure _

theorem mean_entries [LinearOrder α] (e : Exp (Outcome (Shr β))) (minSize : Nat) {keys : List (Shr α)}
    (hs : SortedBy Shr.value keys) (hl : minSize ≤ keys.length) (E : List α → List β → Bool) :
    ((manyExp e keys.length).andThen fun elems =>
      .ret (.ok (shrinkMap (insertAll (fun e => e.1.value) (keys.zip elems)) minSize))).mean
        (hit fun t => E (t.value.map Prod.fst) (t.value.map Prod.snd)) =
      (manyExp e keys.length).mean (hit fun elems => E (keys.map Shr.value) (elems.map Shr.value)) := by
  rw [hit_eq, mean_andThen]
  refine Exp.mean_congr (fun o ho => ?_) (sat_many e keys.length)
  cases o with
  | ok elems =>
    have hle := ho elems rfl
    simp only [val, Exp.mean, hit, map_value hs hle hl]
    rw [List.map_fst_zip (by simp [hle]), List.map_snd_zip (by simp [hle])]
  | throws x => rfl
  | ub => rfl
  | diverges => rfl

/-- C145. Maps: the sets of keys are like generated sets, and the values of the entries are independent of the keys
and of each other. -/
theorem C145_map [LinearOrder α] (g : Src (Shr α)) (h : Src (Shr β)) (minSize maxSize : Nat) (hmax : maxSize < 2 ^ 32)
    (S : List α) (hS : S.Pairwise (· < ·)) (h1 : minSize ≤ S.length) (h2 : S.length ≤ maxSize)
    (n : Nat) (hn : S.length ≤ n) (hg : ∃ E p, Chance g E p)
    (hp : ∀ v ∈ S, Chance g (fun t => decide (t.value = v)) (1 / n)) (hh : ∃ E p, Chance h E p)
    (Es : List (β → Bool)) (ps : List ℚ) (hl : Es.length = S.length)
    (hps : List.Forall₂ (fun E p => Chance h (fun t => E t.value) p) Es ps) :
    ChanceLimit (fun m σ R s => arbiMap R (g σ R) (h σ R) minSize maxSize m s)
      (fun t => decide (t.value.map Prod.fst = S) && fits Es (t.value.map Prod.snd))
      (ps.prod / ((maxSize - minSize + 1) * n.choose S.length)) := by
  obtain ⟨_, _, e, he, -⟩ := hg
  obtain ⟨_, _, e2, he2, -⟩ := hh
  have hpp : ps = Es.map fun E => e2.mean (hit fun t => E t.value) := by
    clear hl
    induction hps with
    | nil => rfl
    | cons hx _ ih =>
      rw [List.map_cons, ← ih]
      congr 1
      exact chance_unique hx ⟨e2, he2, rfl⟩
  have hp' : ∀ v ∈ S, e.mean (hit fun t => decide (t.value = v)) = 1 / n :=
    fun v hv => (chance_unique (hp v hv) ⟨e, he, rfl⟩).symm
  have hN : (1 : ℚ) ≤ maxSize - minSize + 1 := by
    have : (minSize : ℚ) ≤ maxSize := by exact_mod_cast (h1.trans h2)
    linarith
  have hc : ∀ m, Chance (fun σ R s => arbiMap R (g σ R) (h σ R) minSize maxSize m s)
      (fun t => decide (t.value.map Prod.fst = S) && fits Es (t.value.map Prod.snd))
      (ps.prod * reachAll n S.length m S.length / (maxSize - minSize + 1)) := by
    intro m
    have := chance_filled he minSize maxSize hmax m _ _ (follows_entries he2 minSize)
      (fun t => decide (t.value.map Prod.fst = S) && fits Es (t.value.map Prod.snd)) (gain S ps.prod)
      (fun xs hs hx => by
        rw [mean_entries e2 minSize hs hx fun ks vs => decide (ks = S) && fits Es vs]
        unfold gain
        split
        · next heq =>
          have hxl : xs.length = Es.length := by rw [hl, ← heq, List.length_map]
          have hm := mean_many e2 Es xs.length
          rw [if_pos hxl, ← hpp] at hm
          rw [← hm, hit_eq]
          simp only [heq, decide_true, Bool.true_and]
        · next hne =>
          have h0 := mean_and (manyExp e2 xs.length) (fun _ => true) 0
          simp only [if_true, zero_mul] at h0
          rw [← h0, hit_eq]
          simp only [hne, decide_false, Bool.false_and, Bool.false_eq_true, if_false])
      S.length h1 h2 (fun xs hx => by
        unfold gain
        rw [if_neg fun h => hx (by rw [← h, List.length_map])])
    rw [mean_fill e S hS ps.prod n hp' m [] S.length (by simp [SortedBy]) (by simp) (by simp)] at this
    exact this
  obtain ⟨d, hd⟩ : ∃ d, n = d + S.length := ⟨n - S.length, by omega⟩
  rcases Nat.eq_zero_or_pos n with h0 | hpos
  · have hS0 : S.length = 0 := by omega
    intro ε hε
    refine ⟨0, fun m _ => ⟨_, hc m, ?_⟩⟩
    rw [hS0]
    cases m <;> simpa [reachAll] using hε
  · have hnq : (1 : ℚ) ≤ n := by exact_mod_cast hpos
    have i1 : 0 < 1 / (2 * n : ℚ) := by positivity
    have i2 : 1 / (2 * n : ℚ) ≤ 1 := by rw [div_le_one (by linarith)]; linarith
    refine limit_of_bound (C := |ps.prod| * (2 * n) ^ S.length) (ρ := 1 - 1 / (2 * n)) (by linarith) (by linarith) hc
      fun m => ?_
    have hb := reach_bound n S.length d hd m S.length le_rfl
    rw [← hd] at hb
    have e1 : ps.prod * reachAll n S.length m S.length / (maxSize - minSize + 1) -
        ps.prod / ((maxSize - minSize + 1) * n.choose S.length) =
        ps.prod * (reachAll n S.length m S.length - 1 / n.choose S.length) / (maxSize - minSize + 1 : ℚ) := by
      rw [mul_sub, sub_div, mul_one_div, div_div, mul_comm (n.choose S.length : ℚ)]
    rw [e1, abs_div, abs_of_pos (by linarith : (0 : ℚ) < maxSize - minSize + 1), abs_mul, mul_assoc]
    exact (div_le_self (by positivity) hN).trans (mul_le_mul_of_nonneg_left hb (abs_nonneg _))

/-- Maps from throws of a die to throws of a die, with up to three entries: the keys are 2 and 5, the value of 2 is
a six. -/
example : ChanceLimit (fun m σ R s => arbiMap R (die σ R) (die σ R) 0 3 m s)
    (fun t => decide (t.value.map Prod.fst = [2, 5]) && fits [fun v => v = 6, fun _ => true] (t.value.map Prod.snd))
    (1 / 360) := by
  have := C145_map die die 0 3 (by norm_num) [2, 5] (by simp) (by simp) (by simp) 6 (by simp) ⟨_, _, die_returns⟩ (by
    intro v hv
    simp only [List.mem_cons, List.not_mem_nil, or_false] at hv
    rcases hv with rfl | rfl
    · have := die_chance (fun v => decide (v = 2)) 1 (by decide)
      norm_num at this ⊢
      exact this
    · have := die_chance (fun v => decide (v = 5)) 1 (by decide)
      norm_num at this ⊢
      exact this) ⟨_, _, die_returns⟩ [fun v => v = 6, fun _ => true] [(1 : Nat) / 6, 1] (by simp)
    (.cons (die_chance (fun v => v = 6) 1 (by decide)) (.cons die_returns .nil))
  norm_num [Nat.choose] at this ⊢
  exact this

end Verif
