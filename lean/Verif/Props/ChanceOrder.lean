import Verif.Lemmas.ChanceOrder
import Verif.Props.ChanceTestLimit
/-
C205: neither the order in which the arguments are generated nor arguments that are not used change a probability.
-/
namespace Verif
namespace Engine
open PairTuple Integral IntType Filter Topology
variable {n : Nat} {A : Fin n → Type}

theorem chance_iff {α β : Type} {f : Src α} {g : Src β} {E : α → Bool} {E' : β → Bool} {q : ℚ} (hf : Chance f E q)
    (hg : Chance g E' q) (p : ℚ) : Chance f E p ↔ Chance g E' p :=
  ⟨fun h => chance_unique h hf ▸ hg, fun h => chance_unique h hg ▸ hf⟩

section
variable (gens : (i : Fin n) → Src (Shr (A i))) (hg : ∀ i, ∃ E p, Chance (gens i) E p)
  (order order' : List (Fin n)) (hnd : order.Nodup) (hall : ∀ i, i ∈ order) (hnd' : order'.Nodup) (hall' : ∀ i, i ∈ order')
include hg hnd hall hnd' hall'

/-- C205. The components of a tuple may be generated in any order (C++ does not say in which): every event, also one
about several components, has the same probability. -/
theorem C205_tuple (E : ((i : Fin n) → A i) → Bool) (p : ℚ) :
    Chance (fun σ R s => tupleOf order (fun i => gens i σ R) s) (fun t => E t.value) p ↔
      Chance (fun σ R s => tupleOf order' (fun i => gens i σ R) s) (fun t => E t.value) p := by
  choose _ _ es hes _ using hg
  have key : ∀ o : List (Fin n), Chance (fun σ R s => tupleOf o (fun i => gens i σ R) s) (fun t => E t.value)
      ((intoExp es o fun _ => none).mean (val (atAll fun a => if E a then 1 else 0))) := by
    intro o
    refine ⟨(intoExp es o fun _ => none).andThen fun acc =>
      .ret (if h : ∀ i, (acc i).isSome then .ok (shrinkTuple fun i => (acc i).get (h i)) else .ub), ?_, ?_⟩
    · refine ((follows_into hes o _).bind (g := fun acc _ _ s =>
        (if h : ∀ i, (acc i).isSome then Outcome.ok (shrinkTuple fun i => (acc i).get (h i)) else .ub).bind fun a => .ok (a, s))
        fun acc => Follows.const _).congr fun σ R s => ?_
      show (Gen.drawTuple _ o s >>= _) = _
      rw [Gen.drawTuple]
      cases Gen.drawInto (fun i => gens i σ R) o (fun _ => none) s with
      | ok r =>
        obtain ⟨acc, s'⟩ := r
        simp only [Outcome.ok_bind]
        by_cases h : ∀ i, (acc i).isSome = true
        · rw [dif_pos h, dif_pos h]; rfl
        · rw [dif_neg h, dif_neg h]; rfl
      | throws x => rfl
      | ub => rfl
      | diverges => rfl
    · rw [hit_eq, mean_andThen]
      congr 2
      funext acc
      unfold atAll
      by_cases h : ∀ i, (acc i).isSome = true
      · rw [dif_pos h, dif_pos h]
        have : (shrinkTuple fun i => (acc i).get (h i)).value = fun i => ((acc i).get (h i)).value :=
          funext fun i => C23_tuple_value _ i
        simp only [Exp.mean, val, this]
      · rw [dif_neg h, dif_neg h]; rfl
  refine chance_iff (key order) ?_ p
  rw [mean_into_perm es _ ((List.perm_ext_iff_of_nodup hnd hnd').2 fun i => by simp [hall i, hall' i]) hnd]
  exact key order'

variable {c c' : AnyTest A} (hc : ∀ σ R, (c σ R).orderRun = order ∧ (c σ R).gens = fun i => gens i σ R)
  (hc' : ∀ σ R, (c' σ R).orderRun = order' ∧ (c' σ R).gens = fun i => gens i σ R)
include hc hc'

/-- C205. So may the arguments of a test. -/
theorem C205_arguments (E : Args A → Bool) (p : ℚ) : Chance (argsDraw c) E p ↔ Chance (argsDraw c') E p := by
  choose _ _ es hes _ using hg
  refine chance_iff ⟨_, follows_args hc hes, rfl⟩ ⟨_, follows_args hc' hes, ?_⟩ p
  rw [hit_eq, mean_argsExp, mean_argsExp]
  exact (mean_into_perm es _ ((List.perm_ext_iff_of_nodup hnd hnd').2 fun i => by simp [hall i, hall' i]) hnd _).symm

/-- C205. Two tests of the same function with the same generators that generate their arguments in different orders
report the same, with the same probability: a failure or none, in which run, with which arguments. -/
theorem C205_test {f : Args A → Ev Bool} {N : Nat} (h : Searching c f N) (h' : Searching c' f N) (fuel : Nat)
    (G : Option (Nat × Args A) → Bool) (p : ℚ) : Chance (forAllCall c fuel) G p ↔ Chance (forAllCall c' fuel) G p := by
  choose _ _ es hes _ using hg
  refine chance_iff ⟨_, follows_forAll' h (follows_args hc hes) fuel, rfl⟩
    ⟨_, follows_forAll' h' (follows_args hc' hes) fuel, ?_⟩ p
  rw [hit_eq]
  refine Eq.symm (Eq.trans ?_ (mean_testExp_pull f id (e := argsExp es order) (e' := argsExp es order') (fun F => ?_)
    fuel N 0 fun r => if G r then 1 else 0))
  · congr 2
    funext r
    cases r <;> rfl
  · rw [mean_argsExp, mean_argsExp]
    exact mean_into_perm es _ ((List.perm_ext_iff_of_nodup hnd hnd').2 fun i => by simp [hall i, hall' i]) hnd _

end

/-- C205. The same where generators have loops (which give up after `fuel` rounds), in the limit. -/
theorem C205_limit (gens : Nat → (i : Fin n) → Src (Shr (A i))) (hg : ∀ k i, ∃ E p, Chance (gens k i) E p)
    (order order' : List (Fin n)) (hnd : order.Nodup) (hall : ∀ i, i ∈ order) (hnd' : order'.Nodup)
    (hall' : ∀ i, i ∈ order') {c c' : Nat → AnyTest A}
    (hc : ∀ k σ R, (c k σ R).orderRun = order ∧ (c k σ R).gens = fun i => gens k i σ R)
    (hc' : ∀ k σ R, (c' k σ R).orderRun = order' ∧ (c' k σ R).gens = fun i => gens k i σ R)
    {f : Args A → Ev Bool} {N : Nat} (h : ∀ k, Searching (c k) f N) (h' : ∀ k, Searching (c' k) f N)
    (G : Option (Nat × Args A) → Bool) (p : ℚ) :
    ChanceLimit (fun k => forAllCall (c k) k) G p ↔ ChanceLimit (fun k => forAllCall (c' k) k) G p := by
  have key : ∀ k q, Chance (forAllCall (c k) k) G q ↔ Chance (forAllCall (c' k) k) G q := fun k q =>
    C205_test (gens k) (hg k) order order' hnd hall hnd' hall' (hc k) (hc' k) (h k) (h' k) k G q
  simp only [ChanceLimit, key]

section
variable {m : Nat} {ι : Fin m → Fin n} (hι : Function.Injective ι) (gens : (i : Fin n) → Src (Shr (A i)))
  (hg : ∀ j, ∃ E p, Chance (gens (ι j)) E p) (h1 : ∀ i, (∀ j, ι j ≠ i) → Chance (gens i) (fun _ => true) 1)
  (order : List (Fin n)) (hnd : order.Nodup) (hall : ∀ i, i ∈ order)
  (order' : List (Fin m)) (hnd' : order'.Nodup) (hall' : ∀ j, j ∈ order')
  {c : AnyTest A} (hc : ∀ σ R, (c σ R).orderRun = order ∧ (c σ R).gens = fun i => gens i σ R)
  {c' : AnyTest fun j => A (ι j)} (hc' : ∀ σ R, (c' σ R).orderRun = order' ∧ (c' σ R).gens = fun j => gens (ι j) σ R)
include hι hg h1 hnd hall hnd' hall' hc hc'

theorem pulled : ∃ (e : Exp (Outcome (Args A))) (e' : Exp (Outcome (Args fun j => A (ι j)))),
    Follows (argsDraw c) e ∧ Follows (argsDraw c') e' ∧
      ∀ F : (Args fun j => A (ι j)) → ℚ, e.mean (val fun a => F fun j => a (ι j)) = e'.mean (val F) := by
  have hes : ∀ i, ∃ e, Follows (gens i) e ∧ ((∀ j, ι j ≠ i) → e.mean (hit fun _ => true) = 1) := by
    intro i
    by_cases hi : ∃ j, ι j = i
    · obtain ⟨j, rfl⟩ := hi
      obtain ⟨_, _, e, he, _⟩ := hg j
      exact ⟨e, he, fun h => absurd rfl (h j)⟩
    · obtain ⟨e, he, hm⟩ := h1 i fun j hj => hi ⟨j, hj⟩
      exact ⟨e, he, fun _ => hm⟩
  choose es hes hm using hes
  refine ⟨argsExp es order, argsExp (A := fun j => A (ι j)) (fun j => es (ι j)) order', follows_args hc hes,
    follows_args hc' fun j => hes (ι j), fun F => ?_⟩
  rw [mean_argsExp, mean_argsExp]
  rw [mean_into_pull hι es F hnd hall hnd' hall', List.prod_eq_one, one_mul]
  intro x hx
  obtain ⟨i, hi, rfl⟩ := List.mem_map.1 hx
  exact hm i (of_decide_eq_true (List.mem_filter.1 hi).2)

/-- C205. Arguments that an event says nothing about do not change its probability, if their generators return:
generating only some of the arguments (those with the indices `ι j`), in any order, gives the same. -/
theorem C205_unused_arguments (E : (Args fun j => A (ι j)) → Bool) (p : ℚ) :
    Chance (argsDraw c) (fun a => E fun j => a (ι j)) p ↔ Chance (argsDraw c') E p := by
  obtain ⟨e, e', he, he', hF⟩ := pulled hι gens hg h1 order hnd hall order' hnd' hall' hc hc'
  refine chance_iff ⟨e, he, rfl⟩ ⟨e', he', ?_⟩ p
  rw [hit_eq, hit_eq]
  exact (hF fun a => if E a then 1 else 0).symm

/-- C205. A test with further arguments that the function ignores finds the same as the test without them, with the
same probability. -/
theorem C205_unused_test {f : (Args fun j => A (ι j)) → Ev Bool} {N : Nat} (h : Searching c (fun a => f fun j => a (ι j)) N)
    (h' : Searching c' f N) (fuel : Nat) (G : Option (Nat × Args fun j => A (ι j)) → Bool) (p : ℚ) :
    Chance (forAllCall c fuel) (fun r => G (r.map fun x => (x.1, fun j => x.2 (ι j)))) p ↔
      Chance (forAllCall c' fuel) G p := by
  obtain ⟨e, e', he, he', hF⟩ := pulled hι gens hg h1 order hnd hall order' hnd' hall' hc hc'
  refine chance_iff ⟨_, follows_forAll' h he fuel, rfl⟩ ⟨_, follows_forAll' h' he' fuel, ?_⟩ p
  rw [hit_eq, hit_eq]
  exact (mean_testExp_pull f (fun a j => a (ι j)) hF fuel N 0 fun r => if G r then 1 else 0).symm

end

/-- C205. Generators with loops: arguments that are not used and return with probability 1, if not after a fixed number of
draws, do not change the probabilities either. (What a test finds follows by C189.) -/
theorem C205_unused_limit {m : Nat} {ι : Fin m → Fin n} (hι : Function.Injective ι) (gens : Nat → (i : Fin n) → Src (Shr (A i)))
    (hg : ∀ k j, ∃ E p, Chance (gens k (ι j)) E p)
    (h1 : ∀ i, (∀ j, ι j ≠ i) → ChanceLimit (fun k => gens k i) (fun _ => true) 1)
    (order : List (Fin n)) (hnd : order.Nodup) (hall : ∀ i, i ∈ order)
    (order' : List (Fin m)) (hnd' : order'.Nodup) (hall' : ∀ j, j ∈ order')
    {c : Nat → AnyTest A} (hc : ∀ k σ R, (c k σ R).orderRun = order ∧ (c k σ R).gens = fun i => gens k i σ R)
    {c' : Nat → AnyTest fun j => A (ι j)}
    (hc' : ∀ k σ R, (c' k σ R).orderRun = order' ∧ (c' k σ R).gens = fun j => gens k (ι j) σ R)
    (E : (Args fun j => A (ι j)) → Bool) (p : ℚ) (hp : ChanceLimit (fun k => argsDraw (c' k)) E p) :
    ChanceLimit (fun k => argsDraw (c k)) (fun a => E fun j => a (ι j)) p := by
  obtain ⟨q, hq, hqc⟩ := chanceLimit_iff.1 hp
  have h2 : ∀ i, ∃ r : Nat → ℚ, (∀ j, ι j ≠ i) → Tendsto r atTop (𝓝 1) ∧
      ∀ᶠ k in atTop, Chance (gens k i) (fun _ => true) (r k) := by
    intro i
    by_cases hi : ∀ j, ι j ≠ i
    · obtain ⟨r, hr⟩ := chanceLimit_iff.1 (h1 i hi)
      exact ⟨r, fun _ => hr⟩
    · exact ⟨fun _ => 1, fun h => absurd h hi⟩
  choose r hr using h2
  refine chanceLimit_iff.2 ⟨fun k => ((order.filter fun i => decide (∀ j, ι j ≠ i)).map fun i => r i k).prod * q k, ?_, ?_⟩
  · have : Tendsto (fun k => ((order.filter fun i => decide (∀ j, ι j ≠ i)).map fun i => r i k).prod) atTop
        (𝓝 ((order.filter fun i => decide (∀ j, ι j ≠ i)).map fun _ => (1 : ℚ)).prod) :=
      tendsto_list_prod _ fun i hi => (hr i (of_decide_eq_true (List.mem_filter.1 hi).2)).1
    simpa using this.mul hq
  · have all : ∀ᶠ k in atTop, ∀ i, (∀ j, ι j ≠ i) → Chance (gens k i) (fun _ => true) (r i k) :=
      eventually_all.2 fun i => by
        by_cases hi : ∀ j, ι j ≠ i
        · filter_upwards [(hr i hi).2] with k hk _ using hk
        · exact Eventually.of_forall fun k h => absurd h hi
    filter_upwards [all, hqc] with k hk hqk
    have hes : ∀ i, ∃ e, Follows (gens k i) e ∧ ((∀ j, ι j ≠ i) → e.mean (hit fun _ => true) = r i k) := by
      intro i
      by_cases hi : ∃ j, ι j = i
      · obtain ⟨j, rfl⟩ := hi
        obtain ⟨_, _, e, he, _⟩ := hg k j
        exact ⟨e, he, fun h => absurd rfl (h j)⟩
      · obtain ⟨e, he, hm⟩ := hk i fun j hj => hi ⟨j, hj⟩
        exact ⟨e, he, fun _ => hm⟩
    choose es hes hm using hes
    refine ⟨argsExp es order, follows_args (hc k) hes, ?_⟩
    have hq' : Chance (argsDraw (c' k)) E ((argsExp (A := fun j => A (ι j)) (fun j => es (ι j)) order').mean (hit E)) :=
      ⟨_, follows_args (hc' k) fun j => hes (ι j), rfl⟩
    rw [chance_unique hqk hq', hit_eq, hit_eq, mean_argsExp, mean_argsExp]
    rw [mean_into_pull hι es (fun a => if E a then 1 else 0) hnd hall hnd' hall']
    congr 2
    refine List.map_congr_left fun i hi => hm i (of_decide_eq_true (List.mem_filter.1 hi).2)

/-! ### Examples -/

/-- A test of throws of a die in a given order, `N` runs, for the examples. -/
def throwsIn {n : Nat} (order : List (Fin n)) (N : Nat) (f : Args (fun _ : Fin n => Int) → Ev Bool) :
    AnyTest (fun _ : Fin n => Int) := fun σ R =>
  { gens := fun _ => die σ R
    orderRun := order
    orderShrink := order
    orderEach := List.finRange n
    thrown := id
    func := fun _ a => f a
    startup := none
    cleanup := none
    numRuns := N
    maxDurationMs := 0
    clock := fun _ => 0 }

theorem throws_into {n : Nat} {σ : Type} (R : Rng σ) (order : List (Fin n)) :
    ∀ (acc : (i : Fin n) → Option (Shr Int)) (s : σ), ∃ acc' s',
      Gen.drawInto (A := fun _ => Int) (fun _ => die σ R) order acc s = .ok (acc', s') ∧
        ∀ i, i ∈ order ∨ (acc i).isSome → (acc' i).isSome := by
  induction order with
  | nil => exact fun acc s => ⟨acc, s, rfl, fun i h => by simpa using h⟩
  | cons i is ih =>
    intro acc s
    obtain ⟨⟨t, s1⟩, hr⟩ := die_total R s
    obtain ⟨acc', s', h1, h2⟩ := ih (fun j => if i = j then some t else acc j) s1
    refine ⟨acc', s', by simpa [Gen.drawInto, hr, Outcome.ok_bind] using h1, fun j hj => h2 j ?_⟩
    by_cases h : i = j
    · subst h; exact .inr (by simp)
    · rcases hj with hj | hj
      · exact .inl ((List.mem_cons.1 hj).resolve_left (Ne.symm h))
      · exact .inr (by simpa [h] using hj)

theorem throws_searches {n : Nat} {order : List (Fin n)} (hall : ∀ i, i ∈ order) (N : Nat)
    (P : Args (fun _ : Fin n => Int) → Bool) : Searches (throwsIn order N fun a => returns (P a)) (fun a => returns (P a)) N := by
  have ok : ∀ σ (R : Rng σ) s, ∃ r, Gen.drawTuple (A := fun _ : Fin n => Int) (fun _ => die σ R) order s = .ok r := by
    intro σ R s
    obtain ⟨acc, s', h1, h2⟩ := throws_into R order (fun _ => none) s
    rw [Gen.drawTuple, h1]
    simp only [Outcome.ok_bind]
    rw [dif_pos fun i => h2 i (.inl (hall i))]
    exact ⟨_, rfl⟩
  exact {
    setting := fun σ R => ⟨⟨fun _ h => (by cases h), fun _ h => (by cases h)⟩, rfl, List.nodup_finRange n, fun s => by
      obtain ⟨r, hr⟩ := ok σ R s
      show Gen.drawTuple (A := fun _ : Fin n => Int) (fun _ => die σ R) order s ≠ _
      rw [hr]
      simp⟩
    total := fun σ R s => ok σ R s
    pure := fun _ _ _ _ => rfl
    out := fun a => .inl ⟨_, rfl⟩
    quiet := fun a _ => rfl
    runs := fun _ _ => rfl
    noLimit := fun _ _ => rfl }

theorem throws_searching {n : Nat} {order : List (Fin n)} (hall : ∀ i, i ∈ order) (N : Nat)
    (P : Args (fun _ : Fin n => Int) → Bool) : Searching (throwsIn order N fun a => returns (P a)) (fun a => returns (P a)) N :=
  have h := throws_searches hall N P
  ⟨h.setting, fun σ R s => .inl (h.total σ R s), h.pure, h.out, h.quiet, h.runs, h.noLimit⟩

theorem die_some : ∃ E p, Chance die E p := ⟨_, _, die_returns⟩

/-- "The first throw is less than the second" is as likely in either order, in the draw and as what a test finds. -/
example (N : Nat) (p : ℚ) :
    (Chance (argsDraw (throwsIn (n := 2) [0, 1] N fun a => returns (decide (a 0 < a 1)))) (fun a => decide (a 0 < a 1)) p ↔
      Chance (argsDraw (throwsIn (n := 2) [1, 0] N fun a => returns (decide (a 0 < a 1)))) (fun a => decide (a 0 < a 1)) p) ∧
    (Chance (forAllCall (throwsIn (n := 2) [0, 1] N fun a => returns (decide (a 0 < a 1))) 1) (fun r => r.isSome) p ↔
      Chance (forAllCall (throwsIn (n := 2) [1, 0] N fun a => returns (decide (a 0 < a 1))) 1) (fun r => r.isSome) p) ∧
    (Chance (fun σ R s => tupleOf (A := fun _ : Fin 2 => Int) [0, 1] (fun _ => die σ R) s) (fun t => decide (t.value 0 < t.value 1)) p ↔
      Chance (fun σ R s => tupleOf (A := fun _ : Fin 2 => Int) [1, 0] (fun _ => die σ R) s) (fun t => decide (t.value 0 < t.value 1)) p) :=
  ⟨C205_arguments (fun _ => die) (fun _ => die_some) [0, 1] [1, 0] (by decide) (by decide) (by decide) (by decide)
      (fun _ _ => ⟨rfl, rfl⟩) (fun _ _ => ⟨rfl, rfl⟩) _ p,
    C205_test (fun _ => die) (fun _ => die_some) [0, 1] [1, 0] (by decide) (by decide) (by decide) (by decide)
      (fun _ _ => ⟨rfl, rfl⟩) (fun _ _ => ⟨rfl, rfl⟩) (throws_searching (by decide) N _) (throws_searching (by decide) N _) 1 _ p,
    C205_tuple (fun _ => die) (fun _ => die_some) [0, 1] [1, 0] (by decide) (by decide) (by decide) (by decide)
      (fun a => decide (a 0 < a 1)) p⟩

example (N : Nat) (p : ℚ) :
    ChanceLimit (fun k => forAllCall (throwsIn (n := 2) [0, 1] N fun a => returns (decide (a 0 < a 1))) k) (fun r => r.isSome) p ↔
      ChanceLimit (fun k => forAllCall (throwsIn (n := 2) [1, 0] N fun a => returns (decide (a 0 < a 1))) k) (fun r => r.isSome) p :=
  C205_limit (c := fun _ => throwsIn (n := 2) [0, 1] N fun a => returns (decide (a 0 < a 1)))
    (c' := fun _ => throwsIn (n := 2) [1, 0] N fun a => returns (decide (a 0 < a 1)))
    (fun _ _ => die) (fun _ _ => die_some) [0, 1] [1, 0] (by decide) (by decide) (by decide) (by decide)
    (fun _ _ _ => ⟨rfl, rfl⟩) (fun _ _ _ => ⟨rfl, rfl⟩) (fun _ => throws_searching (by decide) N _)
    (fun _ => throws_searching (by decide) N _) _ p

/-- A six is thrown with probability 1/6 also as the last of three throws, and a test that fails on it and ignores
the other two finds it in 10 runs as often as the test of one throw. -/
example : Chance (argsDraw (throwsIn (n := 3) [1, 2, 0] 10 fun a => returns (a 2 != 6))) (fun a => a 2 == 6) (1 / 6) ∧
    Chance (forAllCall (throwsIn (n := 3) [1, 2, 0] 10 fun a => returns (a 2 != 6)) 1) (fun r => r.isSome) (1 - (1 - 1 / 6) ^ 10) := by
  have hι : Function.Injective fun _ : Fin 1 => (2 : Fin 3) := fun a b _ => Subsingleton.elim a b
  have h1 : Chance (argsDraw (throwsIn (n := 1) [0] 10 fun a => returns (a 0 != 6))) (fun a => a 0 == 6) (1 / 6) := by
    have := C148_arguments (throwsIn (n := 1) [0] 10 fun a => returns (a 0 != 6)) [0] (by decide) (by decide)
      (fun _ => die) (fun _ _ => ⟨rfl, rfl⟩) (fun _ v => v == 6) (fun _ => 1 / 6)
      (fun _ => by simpa using die_chance (fun v => v == 6) 1 (by decide))
    refine cast (congrArg₂ (fun E p => Chance _ E p) ?_ (by simp)) this
    funext a
    simp
    rfl
  refine ⟨(C205_unused_arguments hι (fun _ => die) (fun _ => die_some) (fun _ _ => die_returns) [1, 2, 0] (by decide)
    (by decide) [0] (by decide) (by decide) (fun _ _ => ⟨rfl, rfl⟩) (fun _ _ => ⟨rfl, rfl⟩) (fun a => a 0 == 6) _).2 h1, ?_⟩
  have h2 : Chance (forAllCall (throwsIn (n := 1) [0] 10 fun a => returns (a 0 != 6)) 1) (fun r => r.isSome)
      (1 - (1 - 1 / 6) ^ 10) := by
    refine C148_found (throws_searches (n := 1) (order := [0]) (by decide) 10 fun a => a 0 != 6) (fun a => ?_) h1
      (fun a => rfl) 1 (by decide)
    simp [returns, Ev.Fails]
  have := (C205_unused_test hι (fun _ => die) (fun _ => die_some) (fun _ _ => die_returns) [1, 2, 0] (by decide)
    (by decide) [0] (by decide) (by decide) (fun _ _ => ⟨rfl, rfl⟩) (fun _ _ => ⟨rfl, rfl⟩)
    (throws_searching (n := 3) (by decide) 10 fun a => a 2 != 6) (throws_searching (n := 1) (by decide) 10 fun a => a 0 != 6)
    1 (fun r => r.isSome) _).2 h2
  simpa using this

/-- A die of which only even numbers count shows a six with probability 1/3 also if the second argument of the test is
drawn before it, by `elementOf`. -/
example (f : Int → Int → Ev Bool) : ChanceLimit (fun k => argsDraw (evenTest 4 f k)) (fun a => a 0 == 6) (1 / 3) := by
  refine C205_unused_limit (ι := fun _ : Fin 1 => (0 : Fin 2)) (fun a b _ => Subsingleton.elim a b) evenGens (fun k _ => ?_)
    (fun i hi => ?_) [1, 0] (by decide) (by decide) [0] (by decide) (by decide) (fun _ _ _ => ⟨rfl, rfl⟩)
    (c' := fun k σ R => { throwsIn (n := 1) [0] 4 (fun a => f (a 0) 0) σ R with gens := fun _ => evenGens k 0 σ R })
    (fun _ _ _ => ⟨rfl, rfl⟩) (fun a => a 0 == 6) _ ?_
  · obtain ⟨_, _, e, he, _⟩ := die_some
    exact ⟨fun _ => true, _, _, follows_filter he _ k, rfl⟩
  · have h1 : i = 1 := by
      have := hi 0
      fin_cases i
      · exact absurd rfl this
      · rfl
    subst h1
    have := C140_elementOf_even [(1 : Int), 4, 6] (by simp) (by simp) fun _ => true
    simpa [evenGens] using this
  · have h6 := C142_filter die (fun v => decide (v % 2 = 0)) (fun v => v == 6) ((3 : Nat) / 6) ((1 : Nat) / 6) die_returns
      (die_chance (fun v => decide (v % 2 = 0)) 3 (by decide))
      (die_chance (fun v => (v == 6) && decide (v % 2 = 0)) 1 (by decide)) (by norm_num)
    have := C189_arguments
      (fun k σ R => { throwsIn (n := 1) [0] 4 (fun a => f (a 0) 0) σ R with gens := fun _ => evenGens k 0 σ R })
      [0] (by decide) (by decide) (fun k _ => evenGens k 0) (fun _ _ _ => ⟨rfl, rfl⟩) (fun _ v => v == 6) (fun _ => 1 / 3)
      (fun _ => by
        have e : ((1 : Nat) : ℚ) / 6 / ((3 : Nat) / 6) = 1 / 3 := by norm_num
        rw [e] at h6
        exact h6)
    refine cast (congrArg₂ (fun E p => ChanceLimit _ E p) ?_ (by simp)) this
    funext a
    simp
    rfl

end Engine
end Verif
