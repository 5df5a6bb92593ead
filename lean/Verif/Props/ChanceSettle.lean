import Verif.Props.ChanceTestLimit
import Verif.Props.ChanceActions
import Verif.Props.ChanceSetLimit
/-
C189: more generators that return or go on forever, so that the probabilities of Props/ChanceTestLimit.lean apply to
tests with sets, maps, strings and alternatives within alternatives.
-/
namespace Verif
namespace Engine
open Shr Random ListLike Containers Comb PairTuple Integral IntType Filter Topology
variable {α β : Type}

theorem settles_many {g : Src (Shr α)} (hg : Settles g) {σ : Type} (R : Rng σ) (n : Nat) (s : σ) :
    (∃ r, drawMany (g σ R) n s = .ok r) ∨ drawMany (g σ R) n s = .diverges := by
  induction n generalizing s with
  | zero => exact .inl ⟨_, rfl⟩
  | succ n ih =>
    rcases hg σ R s with ⟨⟨x, s1⟩, e1⟩ | e1
    · rcases ih s1 with ⟨⟨xs, s2⟩, e2⟩ | e2
      · exact .inl ⟨(x :: xs, s2), by simp only [drawMany, e1, e2, Outcome.ok_bind]; rfl⟩
      · exact .inr (by simp only [drawMany, e1, e2, Outcome.ok_bind]; rfl)
    · exact .inr (by simp only [drawMany, e1]; rfl)

theorem settles_fill [LinearOrder α] {g : Src (Shr α)} (hg : Settles g) {σ : Type} (R : Rng σ) (size m : Nat)
    (acc : List (Shr α)) (s : σ) :
    (∃ r, fillSet (g σ R) size m acc s = .ok r) ∨ fillSet (g σ R) size m acc s = .diverges := by
  induction m generalizing acc s with
  | zero =>
    unfold fillSet
    split
    · exact .inr rfl
    · exact .inl ⟨_, rfl⟩
  | succ m ih =>
    unfold fillSet
    split
    · rcases hg σ R s with ⟨⟨x, s1⟩, e1⟩ | e1
      · simp only [e1, Outcome.ok_bind]
        exact ih _ _
      · exact .inr (by simp only [e1]; rfl)
    · exact .inl ⟨_, rfl⟩

/-- C189. Sets of values of a generator that returns or goes on forever. -/
theorem C189_settles_set [LinearOrder α] {g : Src (Shr α)} (hg : Settles g) (minSize maxSize : Nat) (h : minSize ≤ maxSize)
    (hb : maxSize < 2 ^ 32) (m : Nat) : Settles (fun σ R s => arbiSet R (g σ R) minSize maxSize m s) := by
  intro σ R s
  obtain ⟨v, s1, e1, h1, h2, hd⟩ := getRandomSize_draw R s h hb
  rcases settles_fill hg R v.toNat m [] s1 with ⟨⟨xs, s2⟩, e2⟩ | e2
  · obtain ⟨e3, e4⟩ := fillSet_ok _ _ _ _ _ _ _ e2 (by simp [SortedBy]) (by simp)
    obtain ⟨t, e5, -⟩ := set_value e4 (minSize := minSize) (by omega)
    refine .inl ⟨(t, s2), ?_⟩
    simp [arbiSet, e1, e2, e5]
  · refine .inr ?_
    simp only [arbiSet, e1, e2, Outcome.ok_bind]
    rfl

/-- C189. Maps. -/
theorem C189_settles_map [LinearOrder α] {g : Src (Shr α)} {h : Src (Shr β)} (hg : Settles g) (hh : Settles h)
    (minSize maxSize : Nat) (hm : minSize ≤ maxSize) (hb : maxSize < 2 ^ 32) (m : Nat) :
    Settles (fun σ R s => arbiMap R (g σ R) (h σ R) minSize maxSize m s) := by
  intro σ R s
  obtain ⟨v, s1, e1, h1, h2, hd⟩ := getRandomSize_draw R s hm hb
  rcases settles_fill hg R v.toNat m [] s1 with ⟨⟨xs, s2⟩, e2⟩ | e2
  · rcases settles_many hh R xs.length s2 with ⟨⟨ys, s3⟩, e3⟩ | e3
    · refine .inl ⟨(shrinkMap (insertAll (fun e => e.1.value) (xs.zip ys)) minSize, s3), ?_⟩
      simp [arbiMap, e1, e2, e3]
    · refine .inr ?_
      simp only [arbiMap, e1, e2, e3, Outcome.ok_bind]
      rfl
  · refine .inr ?_
    simp only [arbiMap, e1, e2, Outcome.ok_bind]
    rfl

/-- C189. Strings. -/
theorem C189_settles_string {g : Src (Shr α)} (hg : Settles g) (minSize maxSize : Nat) (h : minSize ≤ maxSize)
    (hb : maxSize < 2 ^ 32) : Settles (fun σ R s => arbiString R (g σ R) minSize maxSize s) := by
  intro σ R s
  obtain ⟨v, s1, e1, h1, h2, hd⟩ := getRandomSize_draw R s h hb
  rcases settles_many hg R v.toNat s1 with ⟨⟨xs, s2⟩, e2⟩ | e2
  · refine .inl ⟨(shrinkString (xs.map Shr.value) minSize, s2), ?_⟩
    simp [arbiString, e1, e2]
  · refine .inr ?_
    simp only [arbiString, e1, e2, Outcome.ok_bind]
    rfl

/-- C189. Transformed values. -/
theorem C189_settles_transform {g : Src (Shr α)} (hg : Settles g) (f : α → β) :
    Settles (fun σ R s => transform (g σ R) f s) := by
  intro σ R s
  rcases hg σ R s with ⟨⟨x, s1⟩, e1⟩ | e1
  · exact .inl ⟨(x.map f, s1), by simp [transform, e1]⟩
  · exact .inr (by simp only [transform, e1]; rfl)

/-- C189. `oneOf` of generators that have loops themselves. -/
theorem C189_settles_nested (alts : List ((Nat → Src (Shr α)) × Dbl)) (qs : List ℚ) (hw : alts.map (·.2) = qs.map Dbl.fin)
    (ws : List Dbl) (hok : assignWeights (alts.map (·.2)) = .ok ws) (hne : alts ≠ []) (hlen : alts.length ≤ 2 ^ 32)
    (h : ∀ a ∈ alts, ∀ m, Settles (a.1 m)) (m : Nat) : Settles (oneOfNested alts m) := by
  have e : (cutAlts alts m).map (·.2) = alts.map (·.2) := by simp [cutAlts]
  refine C189_settles_oneOf (cutAlts alts m) qs (e.trans hw) ws (by rw [e]; exact hok) (by simpa [cutAlts] using hne)
    (by simpa [cutAlts] using hlen) (fun a ha => ?_) m
  obtain ⟨b, hb, rfl⟩ := List.mem_map.1 ha
  exact h b hb m

/-- Alternatives: an even throw, or twice an even throw; as elements of sets. -/
example (m : Nat) : Settles (fun σ R s => arbiSet R (oneOfNested [(evenThrow, .fin (1 / 4)),
    (fun m σ R s => transform (evenThrow m σ R) (· * 2) s, .fin 0)] m σ R) 0 10 m s) := by
  have hd : ∀ m, Settles (evenThrow m) := fun m => C189_settles_filter (fun σ R s => .inl (die_total R s)) _ m
  refine C189_settles_set (C189_settles_nested _ [1 / 4, 0] rfl [.fin (1 / 4), .fin (3 / 4)] (by decide +kernel) (by simp) (by simp)
    ?_ m) 0 10 (by norm_num) (by norm_num) m
  intro a ha k
  simp only [List.mem_cons, List.not_mem_nil, or_false] at ha
  rcases ha with rfl | rfl
  · exact hd k
  · exact C189_settles_transform (hd k) _

/-- Strings of even throws, and maps between them. -/
example (m : Nat) : Settles (fun σ R s => arbiString R (evenThrow m σ R) 1 5 s) ∧
    Settles (fun σ R s => arbiMap R (evenThrow m σ R) (evenThrow m σ R) 1 3 m s) :=
  have hd : Settles (evenThrow m) := C189_settles_filter (fun σ R s => .inl (die_total R s)) _ m
  ⟨C189_settles_string hd 1 5 (by norm_num) (by norm_num), C189_settles_map hd hd 1 3 (by norm_num) (by norm_num) m⟩

/-! ### A test of a set -/

/-- C145. A set is generated with probability 1 if the generator of elements, which may have loops, gives at least as
many different values as are wanted with positive probabilities. -/
theorem C145_nested_returns [LinearOrder α] (g : Nat → Src (Shr α)) (minSize maxSize : Nat) (hm : minSize ≤ maxSize)
    (hmax : maxSize < 2 ^ 32) (hg : ChanceLimit g (fun _ => true) 1) (U : List α) (hU : U.Nodup) (hk : maxSize ≤ U.length)
    (hp : ∀ u ∈ U, ∃ p, 0 < p ∧ ChanceLimit g (fun t => decide (t.value = u)) p) :
    ChanceLimit (fun m σ R s => arbiSet R (g m σ R) minSize maxSize m s) (fun _ => true) 1 := by
  have hle : (minSize : ℚ) ≤ maxSize := by exact_mod_cast hm
  have h1 : ∀ l ∈ Finset.Icc minSize maxSize, ChanceLimit (fun m σ R s => arbiSet R (g m σ R) minSize maxSize m s)
      (fun t => decide (t.value.length = l)) (1 / (maxSize - minSize + 1)) := by
    intro l hl
    rw [Finset.mem_Icc] at hl
    exact C145_nested_sizes g minSize maxSize l hmax hl.1 hl.2 hg U hU (hl.2.trans hk) hp
  have h2 := Stateful.limit_sum (fun l (t : Shr (List α)) => decide (t.value.length = l)) (fun _ => 1 / ((maxSize : ℚ) - minSize + 1))
    (Finset.Icc minSize maxSize) (fun i _ j _ b hi hj => by
      simp only [decide_eq_true_eq] at hi hj
      omega) ⟨_, _, h1 maxSize (by simp [hm])⟩ h1
  rw [Finset.sum_const, Nat.card_Icc, nsmul_eq_mul] at h2
  have e : ((maxSize + 1 - minSize : Nat) : ℚ) * (1 / (maxSize - minSize + 1)) = 1 := by
    rw [Nat.cast_sub (by omega)]
    push_cast
    have : (maxSize : ℚ) - minSize + 1 ≠ 0 := by linarith
    field_simp
    ring
  rw [e] at h2
  intro ε hε
  obtain ⟨N, h⟩ := h2 ε hε
  refine ⟨N, fun n hn => ?_⟩
  obtain ⟨q, ⟨e, he, hq⟩, hq'⟩ := h n hn
  refine ⟨_, ⟨e, he, rfl⟩, ?_⟩
  have a1 : q ≤ e.mean (hit fun _ => true) := by
    rw [← hq]
    refine Exp.mean_le (fun o => ?_) he.1
    cases o with
    | ok x => simp only [hit, if_true]; split <;> norm_num
    | throws x => exact le_rfl
    | ub => exact le_rfl
    | diverges => exact le_rfl
  have a2 : e.mean (hit fun _ => true) ≤ 1 := by
    rw [← Exp.mean_const 1 he.1]
    refine Exp.mean_le (fun o => ?_) he.1
    cases o <;> simp [hit]
  rw [abs_lt] at hq' ⊢
  constructor <;> linarith [hq'.1, hq'.2]

/-- Sets of at most three numbers, 1 and 2 being twice as likely as the others. -/
example : ChanceLimit (fun m σ R s => arbiSet R (sixNumbers m σ R) 0 3 m s) (fun _ => true) 1 :=
  C145_nested_returns sixNumbers 0 3 (by norm_num) (by norm_num)
    (by simpa using sixNumbers_chance fun _ => true) [1, 3, 5] (by simp) (by simp) (by
      intro u hu
      refine ⟨_, ?_, sixNumbers_chance fun v => decide (v = u)⟩
      simp only [List.mem_cons, List.not_mem_nil, or_false] at hu
      rcases hu with rfl | rfl | rfl <;> norm_num [List.countP_cons])

/-- C189. A test of `N` runs with a set as its argument, of elements of which `n` are equally likely (from a generator
that may have loops), that fails for exactly one set of `k` elements: it is found with the probability that one of `N`
sets out of the (sizes) · (n choose k) equally likely ones is this one. -/
theorem C189_set_found [LinearOrder α] (g : Nat → Src (Shr α)) (hg : ChanceLimit g (fun _ => true) 1)
    (minSize maxSize : Nat) (hmax : maxSize < 2 ^ 32) (S : List α) (hS : S.Pairwise (· < ·)) (h1 : minSize ≤ S.length)
    (h2 : S.length ≤ maxSize) (n : Nat) (hn : maxSize ≤ n) (U : List α) (hU : U.Nodup) (hUn : U.length = n)
    (hp : ∀ v ∈ U, ChanceLimit g (fun t => decide (t.value = v)) (1 / n)) (hSU : ∀ v ∈ S, v ∈ U)
    (c : Nat → AnyTest (fun _ : Fin 1 => List α)) (f : List α → Ev Bool) (N : Nat)
    (hc : ∀ m, Searching (c m) (fun a => f (a 0)) N)
    (hgens : ∀ m σ R, (c m σ R).orderRun = [0] ∧ (c m σ R).gens = fun _ s => arbiSet R (g m σ R) minSize maxSize m s)
    (hf : ∀ xs, (f xs).Fails ↔ xs = S) (hnd : ∀ xs, (f xs).discarded = false) :
    ChanceLimit (fun m => forAllCall (c m) m) (fun r => r.isSome)
      (1 - (1 - 1 / ((maxSize - minSize + 1) * n.choose S.length)) ^ N) := by
  have args : ∀ (E : List α → Bool) (p : ℚ),
      ChanceLimit (fun m σ R s => arbiSet R (g m σ R) minSize maxSize m s) (fun t => E t.value) p →
      ChanceLimit (fun m => argsDraw (c m)) (fun a => decide (∀ i : Fin 1, E (a i) = true)) p := by
    intro E p h
    have := C189_arguments c [0] (by decide) (by decide) (fun m _ σ R s => arbiSet R (g m σ R) minSize maxSize m s) hgens
      (fun _ => E) (fun _ => p) (fun _ => h)
    simpa using this
  have hpos : ∀ u ∈ U, ∃ p, 0 < p ∧ ChanceLimit g (fun t => decide (t.value = u)) p := fun u hu => by
    refine ⟨_, ?_, hp u hu⟩
    have : 0 < U.length := List.length_pos_of_mem hu
    have : (0 : ℚ) < n := by rw [← hUn]; exact_mod_cast this
    positivity
  have hret := args (fun _ => true) 1 (C145_nested_returns g minSize maxSize (h1.trans h2) hmax hg U hU (by omega) hpos)
  have hhit := args (fun xs => decide (xs = S)) _ (C145_nested_set g minSize maxSize hmax S hS h1 h2 n (by omega) hg
    fun v hv => hp v (hSU v hv))
  have hdis := args (fun _ => false) 0 (by
    have h0 := C145_nested_sizes g minSize maxSize S.length hmax h1 h2 hg U hU (by omega) hpos
    intro ε hε
    obtain ⟨M, hM⟩ := h0 ε hε
    refine ⟨M, fun m hm => ?_⟩
    obtain ⟨q, ⟨e, he, -⟩, -⟩ := hM m hm
    refine ⟨0, ⟨e, he, ?_⟩, by simpa using hε⟩
    rw [← Exp.mean_const 0 he.1]
    congr 1
    funext o
    cases o <;> simp [hit])
  have := C189_found hc (fails := fun a => decide (∀ i : Fin 1, decide (a i = S) = true)) (fun a => by simp [hf])
    (p := 1 / ((maxSize - minSize + 1) * n.choose S.length)) (d := 0) (by simpa using hret) hhit (by simpa [hnd] using hdis)
    (by norm_num)
  simpa using this

/-- A test of a set of at most two even throws, for the example. -/
def setTest (N : Nat) (f : List Int → Ev Bool) (m : Nat) : AnyTest (fun _ : Fin 1 => List Int) := fun σ R =>
  { gens := fun _ s => arbiSet R (evenThrow m σ R) 0 2 m s
    orderRun := [0]
    orderShrink := [0]
    orderEach := [0]
    thrown := id
    func := fun _ a => f (a 0)
    startup := none
    cleanup := none
    numRuns := N
    maxDurationMs := 0
    clock := fun _ => 0 }

/-- A function that fails for {2, 6} is found out in 10 runs with probability 1 - (8/9)^10. -/
example : ChanceLimit (fun m => forAllCall (setTest 10 (fun xs => returns (decide (xs ≠ [2, 6]))) m) m) (fun r => r.isSome)
    (1 - (8 / 9) ^ 10) := by
  have hs : ∀ m, Settles (fun σ R s => arbiSet R (evenThrow m σ R) 0 2 m s) := fun m =>
    C189_settles_set (C189_settles_filter (fun σ R s => .inl (die_total R s)) _ m) 0 2 (by norm_num) (by norm_num) m
  have hd : ∀ m σ R s, _ := fun m => C189_settles (setTest 10 (fun xs => returns (decide (xs ≠ [2, 6]))) m)
    (fun _ => fun σ R s => arbiSet R (evenThrow m σ R) 0 2 m s) [0] (by decide) (fun _ _ => ⟨rfl, rfl⟩) fun _ => hs m
  have := C189_set_found evenThrow (by simpa using evenThrow_chance (fun _ => true) 3 (by decide)) 0 2 (by norm_num) [2, 6]
    (by simp) (by simp) (by simp) 3 (by norm_num) [2, 4, 6] (by simp) (by simp) (by
      intro v hv
      simp only [List.mem_cons, List.not_mem_nil, or_false] at hv
      rcases hv with rfl | rfl | rfl
      · simpa using evenThrow_chance (fun v => decide (v = 2)) 1 (by decide)
      · simpa using evenThrow_chance (fun v => decide (v = 4)) 1 (by decide)
      · simpa using evenThrow_chance (fun v => decide (v = 6)) 1 (by decide)) (by simp)
    (setTest 10 (fun xs => returns (decide (xs ≠ [2, 6])))) (fun xs => returns (decide (xs ≠ [2, 6]))) 10
    (fun m =>
      { setting := fun σ R => ⟨⟨fun _ h => (by cases h), fun _ h => (by cases h)⟩, rfl, by simp [setTest], fun s => by
          rcases hd m σ R s with ⟨r, hr⟩ | hr <;> rw [hr] <;> simp⟩
        draws := hd m
        pure := fun _ _ _ _ => rfl
        out := fun a => .inl ⟨_, rfl⟩
        quiet := fun a h => by simp [returns] at h
        runs := fun _ _ => rfl
        noLimit := fun _ _ => rfl })
    (fun _ _ _ => ⟨rfl, rfl⟩) (fun xs => by simp [returns, Ev.Fails]) (fun xs => by simp [returns, Ev.discarded])
  norm_num [Nat.choose] at this ⊢
  exact this

end Engine
end Verif
