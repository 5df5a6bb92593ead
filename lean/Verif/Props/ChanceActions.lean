import Verif.Props.ChanceTestLimit
import Verif.Props.ChanceComb
import Verif.Lemmas.ChanceUnicode
import Verif.Model.Stateful
import Verif.Props.Support
import Verif.Props.ListLike
import Mathlib.Algebra.BigOperators.Field
/-
C190: how likely a stateful test tries a sequence of actions.
-/
namespace Verif
namespace Stateful
open PairTuple Integral IntType Filter Topology Comb Engine ListLike
variable {α β : Type}

/-- Events of which no two happen together. -/
theorem limit_sum {f : Nat → Src β} {ι : Type} [DecidableEq ι] (E : ι → β → Bool) (p : ι → ℚ) (S : Finset ι)
    (hdis : ∀ i ∈ S, ∀ j ∈ S, ∀ b, E i b = true → E j b = true → i = j) (h0 : ∃ F q, ChanceLimit f F q)
    (h : ∀ i ∈ S, ChanceLimit f (E i) (p i)) :
    ChanceLimit f (fun b => decide (∃ i ∈ S, E i b = true)) (∑ i ∈ S, p i) := by
  have hpt : ∀ T ⊆ S, ∀ e : Exp (Outcome β), e.mean (hit fun b => decide (∃ i ∈ T, E i b = true)) = ∑ i ∈ T, e.mean (hit (E i)) := by
    intro T
    induction T using Finset.induction_on with
    | empty =>
      intro _ e
      have : (hit fun b : β => decide (∃ i ∈ (∅ : Finset ι), E i b = true)) = fun o => 0 * hit (fun _ => true) o := by
        funext o; cases o <;> simp [hit]
      rw [this, Exp.mean_mul]
      simp
    | insert i T hi ih =>
      intro hT e
      rw [Finset.sum_insert hi, ← ih (fun x hx => hT (Finset.mem_insert_of_mem hx)), ← Exp.mean_add]
      congr 1
      funext o
      cases o with
      | ok b =>
        simp only [hit, Finset.mem_insert, exists_eq_or_imp]
        cases hb : E i b with
        | false => simp
        | true =>
          have : ¬ ∃ j ∈ T, E j b = true := fun ⟨j, hj, hb'⟩ => hi (by
            rw [hdis i (hT (Finset.mem_insert_self _ _)) j (hT (Finset.mem_insert_of_mem hj)) b hb hb']; exact hj)
          simp [this]
      | throws x => simp [hit]
      | ub => simp [hit]
      | diverges => simp [hit]
  obtain ⟨F, q, h0⟩ := h0
  obtain ⟨q', -, h0⟩ := chanceLimit_iff.1 h0
  have h' : ∀ i : S, _ := fun i => chanceLimit_iff.1 (h i.1 i.2)
  choose r hr hc using h'
  refine chanceLimit_iff.2 ⟨fun m => ∑ i : S, r i m, ?_, ?_⟩
  · rw [← Finset.sum_coe_sort S]
    exact tendsto_finset_sum _ fun i _ => hr i
  · filter_upwards [h0, eventually_all.2 hc] with m h0 hc
    obtain ⟨e, he, -⟩ := h0
    refine ⟨e, he, ?_⟩
    rw [hpt S (fun _ h => h), ← Finset.sum_coe_sort S]
    exact Finset.sum_congr rfl fun i _ => chance_unique ⟨e, he, rfl⟩ (hc i)

/-- The complement. -/
theorem limit_not {f : Nat → Src β} {E : β → Bool} {p r : ℚ} (hr : ChanceLimit f (fun _ => true) r) (h : ChanceLimit f E p) :
    ChanceLimit f (fun b => !E b) (r - p) := by
  obtain ⟨r', hr', hr⟩ := chanceLimit_iff.1 hr
  obtain ⟨p', hp', hp⟩ := chanceLimit_iff.1 h
  refine chanceLimit_iff.2 ⟨fun m => r' m - p' m, hr'.sub hp', ?_⟩
  filter_upwards [hr, hp] with m hr hp
  obtain ⟨e, he, hr⟩ := hr
  refine ⟨e, he, ?_⟩
  rw [← hr, ← chance_unique ⟨e, he, rfl⟩ hp, eq_sub_iff_add_eq, ← Exp.mean_add]
  congr 1
  funext o
  cases o with
  | ok b => cases h : E b <;> simp [hit, h]
  | throws x => simp [hit]
  | ub => simp [hit]
  | diverges => simp [hit]

/-- Events that are equal up to something of probability 0. -/
theorem limit_congr {f : Nat → Src β} {E E' G : β → Bool} {p : ℚ} (hr : ChanceLimit f (fun _ => true) 1)
    (hG : ChanceLimit f G 1) (hE : ∀ b, G b = true → E b = E' b) (h : ChanceLimit f E p) : ChanceLimit f E' p := by
  intro ε hε
  obtain ⟨N1, h1⟩ := hr (ε / 3) (by linarith)
  obtain ⟨N2, h2⟩ := hG (ε / 3) (by linarith)
  obtain ⟨N3, h3⟩ := h (ε / 3) (by linarith)
  refine ⟨N1 + N2 + N3, fun n hn => ?_⟩
  obtain ⟨r, ⟨e, he, rfl⟩, hr⟩ := h1 n (by omega)
  obtain ⟨q, hq, hq'⟩ := h2 n (by omega)
  obtain ⟨x, hx, hx'⟩ := h3 n (by omega)
  rw [← chance_unique ⟨e, he, rfl⟩ hq] at hq'
  rw [← chance_unique ⟨e, he, rfl⟩ hx] at hx'
  refine ⟨_, ⟨e, he, rfl⟩, ?_⟩
  have a1 := Exp.mean_le (f := fun o => hit E' o + hit G o) (g := fun o => hit E o + hit (fun _ => true) o) (fun o => by
    cases o with
    | ok b =>
      have := hE b
      revert this
      simp only [hit]
      cases G b <;> cases E b <;> cases E' b <;> simp
    | throws x => simp [hit]
    | ub => simp [hit]
    | diverges => simp [hit]) he.1
  have a2 := Exp.mean_le (f := fun o => hit E o + hit G o) (g := fun o => hit E' o + hit (fun _ => true) o) (fun o => by
    cases o with
    | ok b =>
      have := hE b
      revert this
      simp only [hit]
      cases G b <;> cases E b <;> cases E' b <;> simp
    | throws x => simp [hit]
    | ub => simp [hit]
    | diverges => simp [hit]) he.1
  rw [Exp.mean_add, Exp.mean_add] at a1 a2
  rw [abs_lt] at *
  constructor <;> linarith [hr.1, hr.2, hq'.1, hq'.2, hx'.1, hx'.2]

theorem fits_append {Es Fs : List (α → Bool)} {xs : List α} :
    fits (Es ++ Fs) xs = (fits Es (xs.take Es.length) && fits Fs (xs.drop Es.length)) := by
  induction Es generalizing xs with
  | nil => simp [fits]
  | cons E Es ih =>
    cases xs with
    | nil => simp [fits]
    | cons x xs => simp [fits, ih, Bool.and_assoc]

theorem fits_replicate (E : α → Bool) (n : Nat) (xs : List α) :
    fits (List.replicate n E) xs = (decide (xs.length = n) && xs.all E) := by
  induction n generalizing xs with
  | zero => cases xs <;> simp [fits]
  | succ n ih =>
    cases xs with
    | nil => simp [fits]
    | cons x xs =>
      simp only [List.replicate_succ, fits, ih, List.length_cons, add_left_inj, List.all_cons]
      cases E x <;> simp

section
variable {g : Nat → Src (Shr α)} {minSize maxSize : Nat} (hmax : maxSize < 2 ^ 32)
  (hg : ChanceLimit g (fun _ => true) 1)
include hmax hg

/-- C190. The generator of an action being one that draws again until it succeeds (such as `oneOf`): the probability
that the list has exactly as many actions as kinds are given, and they are of these kinds, is the product of the
probabilities of the kinds, divided by the number of possible lengths. -/
theorem C190_exact (Es : List (α → Bool)) (ps : List ℚ) (h1 : minSize ≤ Es.length) (h2 : Es.length ≤ maxSize)
    (hp : List.Forall₂ (fun E p => ChanceLimit g (fun t => E t.value) p) Es ps) :
    ChanceLimit (fun m σ R s => arbiVector R (g m σ R) minSize maxSize s) (fun t => fits Es t.value)
      (ps.prod / (maxSize - minSize + 1)) := by
  have hle : (minSize : ℚ) ≤ maxSize := by exact_mod_cast h1.trans h2
  refine limit_prod (g := g) (maxSize - minSize + 1 : ℚ) (by linarith) (Es.map fun E t => E t.value) ps ?_
    (List.forall₂_map_left_iff.2 hp)
  obtain ⟨q', -, h0⟩ := chanceLimit_iff.1 hg
  obtain ⟨M, hM⟩ := eventually_atTop.1 h0
  refine ⟨M, fun m hm qs hq => ?_⟩
  exact C141_vector (g m) minSize maxSize hmax Es qs h1 h2 ⟨_, _, hM m hm⟩ (List.forall₂_map_left_iff.1 hq)

/-- The list has one of the lengths. -/
theorem lengths_limit (hm : minSize ≤ maxSize) :
    ChanceLimit (fun m σ R s => arbiVector R (g m σ R) minSize maxSize s)
      (fun t => decide (∃ l ∈ Finset.Icc minSize maxSize, fits (List.replicate l fun _ => true) t.value = true)) 1 := by
  have hle : (minSize : ℚ) ≤ maxSize := by exact_mod_cast hm
  have h1 : ∀ l ∈ Finset.Icc minSize maxSize, ChanceLimit (fun m σ R s => arbiVector R (g m σ R) minSize maxSize s)
      (fun t => fits (List.replicate l fun _ => true) t.value) (1 / (maxSize - minSize + 1)) := by
    intro l hl
    rw [Finset.mem_Icc] at hl
    have := C190_exact hmax hg (List.replicate l fun _ => true) (List.replicate l 1) (by simpa using hl.1) (by simpa using hl.2)
      (by
        clear hl
        induction l with
        | zero => exact .nil
        | succ l ih => exact .cons hg ih)
    simpa using this
  have h2 := limit_sum (fun l (t : Shr (List α)) => fits (List.replicate l fun _ => true) t.value) (fun _ => 1 / (maxSize - minSize + 1))
    (Finset.Icc minSize maxSize) (fun i _ j _ b hi hj => by
      simp only [fits_replicate, Bool.and_eq_true, decide_eq_true_eq] at hi hj
      omega) ⟨_, _, h1 maxSize (by simp [hm])⟩ h1
  rw [Finset.sum_const, Nat.card_Icc, nsmul_eq_mul] at h2
  have e : ((maxSize + 1 - minSize : Nat) : ℚ) * (1 / (maxSize - minSize + 1)) = 1 := by
    rw [Nat.cast_sub (by omega)]
    push_cast
    have : (maxSize : ℚ) - minSize + 1 ≠ 0 := by linarith
    field_simp
    ring
  rwa [e] at h2

/-- C190. A list is generated with probability 1. -/
theorem C190_returns (hm : minSize ≤ maxSize) :
    ChanceLimit (fun m σ R s => arbiVector R (g m σ R) minSize maxSize s) (fun _ => true) 1 := by
  have h := lengths_limit hmax hg hm
  intro ε hε
  obtain ⟨N, h⟩ := h ε hε
  refine ⟨N, fun n hn => ?_⟩
  obtain ⟨q, ⟨e, he, hq⟩, hq'⟩ := h n hn
  refine ⟨_, ⟨e, he, rfl⟩, ?_⟩
  have a1 : q ≤ e.mean (hit fun _ => true) := by
    rw [← hq]
    refine Exp.mean_le (fun o => ?_) he.1
    cases o with
    | ok b => simp only [hit]; split_ifs <;> norm_num
    | throws x => simp [hit]
    | ub => simp [hit]
    | diverges => simp [hit]
  have a2 : e.mean (hit fun _ => true) ≤ 1 := by
    rw [← Exp.mean_const 1 he.1]
    refine Exp.mean_le (fun o => ?_) he.1
    cases o <;> simp [hit]
  rw [abs_lt] at *
  constructor <;> linarith [hq'.1]

/-- What happens with each length of the list. -/
theorem by_length (hm : minSize ≤ maxSize) (F : Nat → List (α → Bool)) (E : List α → Bool) (p : Nat → ℚ)
    (k : Nat) (hk : minSize ≤ k) (hk' : k ≤ maxSize) (hF : ∀ l ∈ Finset.Icc k maxSize, (F l).length = l)
    (hE : ∀ xs : List α, xs.length ∈ Finset.Icc minSize maxSize → (E xs = true ↔ k ≤ xs.length ∧ fits (F xs.length) xs = true))
    (hp : ∀ l ∈ Finset.Icc k maxSize, ∃ ps : List ℚ, ps.prod = p l ∧
      List.Forall₂ (fun E p => ChanceLimit g (fun t => E t.value) p) (F l) ps) :
    ChanceLimit (fun m σ R s => arbiVector R (g m σ R) minSize maxSize s) (fun t => E t.value)
      ((∑ l ∈ Finset.Icc k maxSize, p l) / (maxSize - minSize + 1)) := by
  have h1 : ∀ l ∈ Finset.Icc k maxSize, ChanceLimit (fun m σ R s => arbiVector R (g m σ R) minSize maxSize s)
      (fun t => fits (F l) t.value) (p l / (maxSize - minSize + 1)) := by
    intro l hl
    obtain ⟨ps, e, hps⟩ := hp l hl
    have hlen := hF l hl
    rw [Finset.mem_Icc] at hl
    rw [← e]
    exact C190_exact hmax hg (F l) ps (by omega) (by omega) hps
  have h2 := limit_sum (fun l (t : Shr (List α)) => fits (F l) t.value) (fun l => p l / (maxSize - minSize + 1))
    (Finset.Icc k maxSize) (fun i hi j hj b hbi hbj => by
      have a := fits_length hbi
      have b := fits_length hbj
      rw [hF i hi] at a
      rw [hF j hj] at b
      omega) ⟨_, _, C190_returns hmax hg hm⟩ h1
  rw [← Finset.sum_div] at h2
  refine limit_congr (C190_returns hmax hg hm) (lengths_limit hmax hg hm) (fun t ht => ?_) h2
  simp only [fits_replicate, decide_eq_true_eq, Bool.and_eq_true] at ht
  obtain ⟨l, hl, rfl, -⟩ := ht
  rw [Bool.eq_iff_iff, hE _ hl, decide_eq_true_eq]
  rw [Finset.mem_Icc] at hl
  constructor
  · rintro ⟨i, hi, hf⟩
    have := fits_length hf
    rw [hF i hi] at this
    subst this
    exact ⟨(Finset.mem_Icc.1 hi).1, hf⟩
  · rintro ⟨a, b⟩
    exact ⟨_, Finset.mem_Icc.2 ⟨a, hl.2⟩, b⟩

/-- C190. The probability that the list begins with actions of given kinds. -/
theorem C190_begins (Es : List (α → Bool)) (ps : List ℚ) (h1 : minSize ≤ Es.length) (h2 : Es.length ≤ maxSize)
    (hp : List.Forall₂ (fun E p => ChanceLimit g (fun t => E t.value) p) Es ps) :
    ChanceLimit (fun m σ R s => arbiVector R (g m σ R) minSize maxSize s) (fun t => fits Es (t.value.take Es.length))
      (ps.prod * (maxSize - Es.length + 1) / (maxSize - minSize + 1)) := by
  have := by_length hmax hg (h1.trans h2) (fun l => Es ++ List.replicate (l - Es.length) fun _ => true)
    (fun xs => fits Es (xs.take Es.length)) (fun _ => ps.prod) Es.length h1 h2
    (fun l hl => by
      have := Finset.mem_Icc.1 hl
      simp only [List.length_append, List.length_replicate]
      omega)
    (fun xs hx => by
      simp only [fits_append, fits_replicate, Bool.and_eq_true, decide_eq_true_eq, List.length_drop]
      constructor
      · intro h
        have := fits_length h
        rw [List.length_take] at this
        exact ⟨by omega, h, by simp⟩
      · exact fun h => h.2.1)
    (fun l _ => ⟨ps ++ List.replicate (l - Es.length) 1, by simp, List.rel_append hp (by
      generalize l - Es.length = d
      induction d with
      | zero => exact .nil
      | succ d ih => exact .cons hg ih)⟩)
  rw [Finset.sum_const, Nat.card_Icc, nsmul_eq_mul, Nat.cast_sub (by omega)] at this
  refine cast (congrArg (fun x => ChanceLimit _ _ x) ?_) this
  push_cast
  ring

/-- C190. The probability that no action of the list is of a given kind: for the list of length `l`, (1-p)^l; all
lengths being equally likely. -/
theorem C190_none (E : α → Bool) (p : ℚ) (hm : minSize ≤ maxSize) (hp : ChanceLimit g (fun t => E t.value) p) :
    ChanceLimit (fun m σ R s => arbiVector R (g m σ R) minSize maxSize s) (fun t => t.value.all fun a => !E a)
      ((∑ l ∈ Finset.Icc minSize maxSize, (1 - p) ^ l) / (maxSize - minSize + 1)) := by
  have hn := limit_not hg hp
  exact by_length hmax hg hm (fun l => List.replicate l fun a => !E a) (fun xs => xs.all fun a => !E a) (fun l => (1 - p) ^ l)
    minSize le_rfl hm (fun l _ => by simp)
    (fun xs hx => by
      rw [Finset.mem_Icc] at hx
      simp only [fits_replicate, decide_true, Bool.true_and]
      exact ⟨fun h => ⟨hx.1, h⟩, fun h => h.2⟩)
    (fun l hl => ⟨List.replicate l (1 - p), by simp, by
      clear hl
      induction l with
      | zero => exact .nil
      | succ d ih => exact .cons hn ih⟩)

/-- C190. The probability that some action is of a given kind. -/
theorem C190_some (E : α → Bool) (p : ℚ) (hm : minSize ≤ maxSize) (hp : ChanceLimit g (fun t => E t.value) p) :
    ChanceLimit (fun m σ R s => arbiVector R (g m σ R) minSize maxSize s) (fun t => t.value.any E)
      (1 - (∑ l ∈ Finset.Icc minSize maxSize, (1 - p) ^ l) / (maxSize - minSize + 1)) := by
  have := limit_not (C190_returns hmax hg hm) (C190_none hmax hg E p hm hp)
  simpa [List.all_eq_not_any_not] using this

end

/-! ### Tests -/

/-- C190. A list of values of a generator that returns or goes on forever. -/
theorem settles_vector {g : Src (Shr α)} (hg : Settles g) (minSize maxSize : Nat) (h : minSize ≤ maxSize) (hb : maxSize < 2 ^ 32) :
    Settles (fun σ R s => arbiVector R (g σ R) minSize maxSize s) := by
  intro σ R s
  have many : ∀ n s, (∃ r, drawMany (g σ R) n s = .ok r ∧ r.1.length = n) ∨ drawMany (g σ R) n s = .diverges := by
    intro n
    induction n with
    | zero => intro s; exact .inl ⟨_, rfl, rfl⟩
    | succ n ih =>
      intro s
      rcases hg σ R s with ⟨⟨x, s1⟩, e1⟩ | e1
      · rcases ih s1 with ⟨⟨xs, s2⟩, e2, e3⟩ | e2
        · exact .inl ⟨(x :: xs, s2), by simp only [drawMany, e1, e2, Outcome.ok_bind]; rfl, by simpa using e3⟩
        · exact .inr (by simp only [drawMany, e1, e2, Outcome.ok_bind]; rfl)
      · exact .inr (by simp only [drawMany, e1]; rfl)
  obtain ⟨v, s1, e1, h1, h2, hd⟩ := getRandomSize_draw R s h hb
  rcases many v.toNat s1 with ⟨⟨xs, s2⟩, e2, e4⟩ | e2
  · obtain ⟨t, e3⟩ := (C24_defined xs minSize).1.mpr (by simp only at e4; omega)
    refine .inl ⟨((t.andThen elementwise).flatMap fun v => Shr.leaf (v.map Shr.value), s2), ?_⟩
    simp [arbiVector, listLike, e1, e2, e3]
  · refine .inr ?_
    simp only [arbiVector, e1, e2, Outcome.ok_bind]
    rfl

section
variable {O M : Type}

/-- What `Env` says apart from the engine and its construction from a seed, for every engine: the order in which the
arguments are drawn and shrunk, what a throwing generator does to the engine, and the clock. -/
structure Around (O M : Type) where
  globalSeed : Nat
  defaultNumRuns : Nat
  defaultMaxDurationMs : Nat
  orderRun : List (Fin 2)
  orderShrink : List (Fin 2)
  orderEach : List (Fin 2)
  thrown : ∀ σ : Type, σ → σ
  clock : Trace (Two O (List (Act O M))) → Nat

/-- The environment with an engine. -/
def Around.env (e : Around O M) {σ : Type} (R : Rng σ) (seeded : Nat → σ) : Env σ O (List (Act O M)) :=
  ⟨R, seeded, e.globalSeed, e.defaultNumRuns, e.defaultMaxDurationMs, e.orderRun, e.orderShrink, e.orderEach, e.thrown σ, e.clock⟩

/-- The test that `go` of a stateful property does, for every engine (see `stateful_config`). The generators may be ones
that draw again until they succeed (`m` is the number of draws after which the model gives up). -/
def statefulTest (P : Nat → ∀ σ, Rng σ → Prop' σ O M) (e : Around O M) (m : Nat) :
    AnyTest (Two O (List (Act O M))) := fun σ R =>
  { gens := twoGens (callGen (P m σ R).initialGen) (ListLike.arbiVector R (P m σ R).actionGen 0 200)
    orderRun := e.orderRun
    orderShrink := e.orderShrink
    orderEach := e.orderEach
    thrown := e.thrown σ
    func := fun _ args => func (callFactory (P m σ R).modelFactory) (P m σ R).postCheck (args 0) (args 1)
    startup :=
      match (P m σ R).onCleanup with
      | some h => some h
      | none => (P m σ R).onStartup
    cleanup := none
    numRuns := if (P m σ R).numRuns ≠ uint32Max then (P m σ R).numRuns else e.defaultNumRuns
    maxDurationMs := if (P m σ R).maxDurationMs ≠ uint32Max then (P m σ R).maxDurationMs else e.defaultMaxDurationMs
    clock := e.clock }

/-- C190. This is the test done by `go`, whichever seed is in force. -/
theorem C190_go (P : Nat → ∀ σ, Rng σ → Prop' σ O M) (e : Around O M) (m : Nat) (σ : Type) (R : Rng σ) (seeded : Nat → σ)
    (fuel : Nat) (tr : Trace (Two O (List (Act O M)))) :
    ((P m σ R).go (e.env R seeded) fuel tr).1 =
      forAll (statefulTest P e m σ R) fuel ((P m σ R).seedUsed (e.env R seeded)) tr := rfl

/-- A stateful property with the given generators of objects and of actions and the given factory, of `N` runs, without
hooks and post check; an environment in which the arguments are drawn in the given order. -/
structure Stage (P : Nat → ∀ σ, Rng σ → Prop' σ O M) (env : Around O M) (order : List (Fin 2))
    (ig : Nat → Src (Shr O)) (ag : Nat → Src (Shr (Act O M))) (factory : O → Ev (O × M)) (N : Nat) : Prop where
  initial : ∀ m σ R, (P m σ R).initialGen = some (ig m σ R)
  model : ∀ m σ R, (P m σ R).modelFactory = some factory
  actions : ∀ m σ R, (P m σ R).actionGen = ag m σ R
  post : ∀ m σ R, (P m σ R).postCheck = none
  startup : ∀ m σ R, (P m σ R).onStartup = none
  cleanup : ∀ m σ R, (P m σ R).onCleanup = none
  runs : ∀ m σ R, (P m σ R).numRuns = N
  notDefault : N ≠ uint32Max
  time : ∀ m σ R, (P m σ R).maxDurationMs = 0
  orders : env.orderRun = order ∧ env.orderShrink = order ∧ env.orderEach.Nodup
  nodup : order.Nodup
  all : ∀ i, i ∈ order

variable {P : Nat → ∀ σ, Rng σ → Prop' σ O M} {env : Around O M} {order : List (Fin 2)}
  {ig : Nat → Src (Shr O)} {ag : Nat → Src (Shr (Act O M))} {factory : O → Ev (O × M)} {N : Nat}
  (hS : Stage P env order ig ag factory N)
include hS

/-- The two generators. -/
theorem stage_gens (m : Nat) (σ : Type) (R : Rng σ) : (statefulTest P env m σ R).orderRun = order ∧
    (statefulTest P env m σ R).gens = fun i => twoGens (ig m σ R) (fun s => arbiVector R (ag m σ R) 0 200 s) i := by
  refine ⟨hS.orders.1, ?_⟩
  simp only [statefulTest, hS.initial, hS.actions, callGen]

/-- C190. Object and actions are drawn independently. -/
theorem C190_arguments (D : O → Bool) (F : List (Act O M) → Bool) (p q : ℚ)
    (hp : ChanceLimit ig (fun t => D t.value) p)
    (hq : ChanceLimit (fun m σ R s => arbiVector R (ag m σ R) 0 200 s) (fun t => F t.value) q) :
    ChanceLimit (fun m => argsDraw (statefulTest P env m)) (fun a => D (a 0) && F (a 1)) (p * q) := by
  have := C189_arguments (A := Two O (List (Act O M))) (statefulTest P env) order hS.nodup hS.all
    (fun m i σ R s => twoGens (ig m σ R) (fun s => arbiVector R (ag m σ R) 0 200 s) i s) (fun m σ R => stage_gens hS m σ R)
    (fun i => match i with | 0 => D | 1 => F) (fun i => match i with | 0 => p | 1 => q) (fun i => by
      match i with
      | 0 => exact hp
      | 1 => exact hq)
  rw [Fin.prod_univ_two] at this
  refine cast (congrArg (fun E => ChanceLimit _ E _) ?_) this
  funext a
  rw [Bool.eq_iff_iff, decide_eq_true_eq, Fin.forall_fin_two, Bool.and_eq_true]

omit hS in
/-- The elements of a generated or shrunk list can be generated. -/
theorem possible_elements {g : Src (Shr α)} {σ : Type} {R : Rng σ} {xs : List α}
    (h : Possible (fun s => arbiVector R (g σ R) 0 200 s) xs) : ∀ x ∈ xs, Possible (g σ R) x := by
  obtain ⟨t, ⟨s, s', ht⟩, hr⟩ := h
  obtain ⟨ts, s₁, -, hd, -, -, -, h1, -⟩ := C27_vector R (g σ R) 0 200 (by omega) (by omega) s s' t ht
  obtain ⟨-, -, zs, hsub, hf⟩ := h1 xs hr
  have hmk : ∀ u ∈ ts, Gen.Makes (g σ R) u := by
    clear h1 ht hr hsub
    induction hd with
    | nil => simp
    | cons e _ ih =>
      intro u hu
      rcases List.mem_cons.1 hu with rfl | hu
      · exact ⟨_, _, e⟩
      · exact ih u hu
  intro x hx
  obtain ⟨hl, hh⟩ := List.forall₂_iff_get.1 hf
  obtain ⟨j, hj, rfl⟩ := List.mem_iff_getElem.1 hx
  exact ⟨_, hmk _ (hsub.mem (List.getElem_mem _)), hh j (by omega) hj⟩

/-- C190. A stateful test of `N` runs: for objects and actions that can be generated (objects in `H`, actions in `G`),
running the actions ends normally or with a std::exception other than those of PROP_DISCARD and PROP_SUCCESS, and shows
a failure exactly for the lists of actions in `F`. If lists in `F` are generated with probability `q`, the test finds a
failure with probability 1 - (1-q)^N. -/
theorem C190_found (H : O → Prop) (G : Act O M → Prop) (hH : ∀ m σ R v, Possible (ig m σ R) v → H v)
    (hG : ∀ m σ R v, Possible (ag m σ R) v → G v) (F : List (Act O M) → Bool)
    (hout : ∀ o as, H o → (∀ a ∈ as, G a) → (∃ b, (func factory none o as).out = .ok b) ∨
      ∃ e, (func factory none o as).out = .throws e ∧ e.isStd = true ∧ e ≠ .discard ∧ e ≠ .success)
    (hF : ∀ o as, H o → (∀ a ∈ as, G a) → (F as = true ↔ (func factory none o as).Fails))
    (hsi : ∀ m, Settles (ig m)) (hi : ChanceLimit ig (fun _ => true) 1)
    (hsa : ∀ m, Settles (ag m)) (q : ℚ) (ha : ChanceLimit ag (fun _ => true) 1)
    (hq : ChanceLimit (fun m σ R s => arbiVector R (ag m σ R) 0 200 s) (fun t => F t.value) q) :
    ChanceLimit (fun m => forAllCall (statefulTest P env m) m) (fun r => r.isSome) (1 - (1 - q) ^ N) := by
  classical
  let Good : O → List (Act O M) → Prop := fun o as => H o ∧ ∀ x ∈ as, G x
  let f' : Args (Two O (List (Act O M))) → Ev Bool := fun a =>
    if Good (a 0) (a 1) then func factory none (a 0) (a 1) else returns (!F (a 1))
  let c' : Nat → AnyTest (Two O (List (Act O M))) := fun m σ R => { statefulTest P env m σ R with func := fun _ => f' }
  have hsame : ∀ m fuel, forAllCall (statefulTest P env m) fuel = forAllCall (c' m) fuel := by
    intro m fuel
    funext σ R seed
    unfold forAllCall
    have := runForAll_possible (statefulTest P env m σ R) (fun _ => f') (fun tr a hpos => by
      have h0 := hpos 0
      have h1 := hpos 1
      rw [(stage_gens hS m σ R).2] at h0 h1
      have e : (statefulTest P env m σ R).func tr a = func factory none (a 0) (a 1) := by
        simp only [statefulTest, hS.model, hS.post, callFactory]
      rw [e]
      exact (if_pos ⟨hH m σ R _ h0, fun x hx => hG m σ R x (possible_elements h1 x hx)⟩).symm) fuel
    rw [this]
  have hf' : ∀ a, (F (a 1) = true ↔ (f' a).Fails) ∧ (f' a).out ≠ .throws .discard ∧ (f' a).out ≠ .throws .success ∧
      ((∃ b, (f' a).out = .ok b) ∨ ∃ e, (f' a).out = .throws e ∧ e.isStd = true) := by
    intro a
    by_cases hg : Good (a 0) (a 1)
    · have e : f' a = func factory none (a 0) (a 1) := if_pos hg
      rw [e]
      refine ⟨hF _ _ hg.1 hg.2, ?_⟩
      rcases hout _ _ hg.1 hg.2 with ⟨b, h⟩ | ⟨e, h, h1, h2, h3⟩
      · rw [h]; simp
      · rw [h]
        exact ⟨by simpa using h2, by simpa using h3, .inr ⟨e, rfl, h1⟩⟩
    · have e : f' a = returns (!F (a 1)) := if_neg hg
      rw [e]
      refine ⟨?_, by simp [returns], by simp [returns], .inl ⟨_, rfl⟩⟩
      cases hb : F (a 1) <;> simp [returns, Ev.Fails]
  have hdraws : ∀ m σ R s, (∃ r, Gen.drawTuple (statefulTest P env m σ R).gens (statefulTest P env m σ R).orderRun s = .ok r) ∨
      Gen.drawTuple (statefulTest P env m σ R).gens (statefulTest P env m σ R).orderRun s = .diverges := fun m σ R s =>
    C189_settles (A := Two O (List (Act O M))) (statefulTest P env m)
      (fun i σ R s => twoGens (ig m σ R) (fun s => arbiVector R (ag m σ R) 0 200 s) i s) order hS.all
      (fun σ R => stage_gens hS m σ R) (fun i => by
        match i with
        | 0 => exact hsi m
        | 1 => exact settles_vector (hsa m) 0 200 (by omega) (by omega)) σ R s
  have hsearch : ∀ m, Searching (c' m) f' N := fun m =>
    { setting := fun σ R => ⟨⟨fun k h => by simp [c', statefulTest, hS.startup, hS.cleanup] at h,
          fun k h => by simp [c', statefulTest] at h⟩,
        (hS.orders.2.1.trans hS.orders.1.symm), hS.orders.2.2, fun s => by
          have : Gen.drawTuple (c' m σ R).gens (c' m σ R).orderRun s =
            Gen.drawTuple (statefulTest P env m σ R).gens (statefulTest P env m σ R).orderRun s := rfl
          rcases hdraws m σ R s with ⟨r, hr⟩ | hr <;> rw [this, hr] <;> simp⟩
      draws := hdraws m
      pure := fun _ _ _ _ => rfl
      out := fun a => (hf' a).2.2.2
      quiet := fun a h => by
        rcases h with h | h
        · exact absurd h (hf' a).2.2.1
        · exact absurd h (hf' a).2.1
      runs := fun σ R => by
        simp only [c', statefulTest, hS.runs]
        rw [if_pos hS.notDefault]
      noLimit := fun σ R => by
        simp only [c', statefulTest, hS.time]
        rw [if_pos (by decide)] }
  have hvec := C190_returns (g := ag) (minSize := 0) (maxSize := 200) (by omega) ha (by omega)
  have hr := C190_arguments hS (fun _ => true) (fun _ => true) 1 1 hi hvec
  have hp := C190_arguments hS (fun _ => true) F 1 q hi hq
  have hz := C190_arguments hS (fun _ => true) (fun _ => false) 1 0 hi (by
    have := limit_not hvec hvec
    simpa using this)
  simp only [Bool.true_and, one_mul, mul_one, mul_zero] at hr hp hz
  have key := C189_found (c := c') (fails := fun a => F (a 1)) hsearch (fun a => (hf' a).1) hr hp (d := 0)
    (by
      have : (fun a => (f' a).discarded) = fun _ => false := by
        funext a
        simp [Ev.discarded, (hf' a).2.1]
      rw [this]
      exact hz) (by norm_num)
  simp only [sub_zero, div_one] at key
  simp only [hsame]
  exact key

/-- C190. If the actions of one kind fail whenever they are run and the others do not, and an action is of this kind with
probability `p`, a run passes with probability (1 + (1-p) + ... + (1-p)^200) / 201. -/
theorem C190_broken_action (H : O → Prop) (G : Act O M → Prop) (hH : ∀ m σ R v, Possible (ig m σ R) v → H v)
    (hG : ∀ m σ R v, Possible (ag m σ R) v → G v) (E : Act O M → Bool)
    (hfac : ∀ o, H o → ∃ r, factory o = ⟨[], .ok r⟩)
    (hbad : ∀ a, G a → E a = true → ∀ o m, ∃ e, (a o m).out = .throws e ∧ e.isStd = true ∧ e ≠ .discard ∧ e ≠ .success)
    (hgood : ∀ a, G a → E a = false → ∀ o m, ∃ r, a o m = ⟨[], .ok r⟩)
    (hsi : ∀ m, Settles (ig m)) (hi : ChanceLimit ig (fun _ => true) 1)
    (hsa : ∀ m, Settles (ag m)) (p : ℚ) (ha : ChanceLimit ag (fun _ => true) 1)
    (hp : ChanceLimit ag (fun t => E t.value) p) :
    ChanceLimit (fun m => forAllCall (statefulTest P env m) m) (fun r => r.isSome)
      (1 - ((∑ l ∈ Finset.range 201, (1 - p) ^ l) / 201) ^ N) := by
  have hrun : ∀ (as : List (Act O M)) (s : O × M), (∀ a ∈ as, G a) →
      (as.any E = true → ∃ e, (runActions as s).out = .throws e ∧ e.isStd = true ∧ e ≠ .discard ∧ e ≠ .success) ∧
      (as.any E = false → ∃ r, runActions as s = ⟨[], .ok r⟩) := by
    intro as
    induction as with
    | nil => exact fun s _ => ⟨by simp, fun _ => ⟨_, rfl⟩⟩
    | cons a as ih =>
      intro s hg
      cases hE : E a with
      | true =>
        obtain ⟨e, h1, h2⟩ := hbad a (hg a (by simp)) hE s.1 s.2
        refine ⟨fun _ => ⟨e, ?_, h2⟩, by simp [hE]⟩
        simp only [runActions, andThen, h1]
      | false =>
        obtain ⟨r, h1⟩ := hgood a (hg a (by simp)) hE s.1 s.2
        obtain ⟨i1, i2⟩ := ih r fun x hx => hg x (by simp [hx])
        have e : runActions (a :: as) s = runActions as r := by
          simp only [runActions, andThen, h1, List.nil_append]
        rw [e]
        rw [List.any_cons, hE, Bool.false_or]
        exact ⟨i1, i2⟩
  have hfunc : ∀ o as, H o → (∀ a ∈ as, G a) →
      (as.any E = true ∧ ∃ e, (func factory none o as).out = .throws e ∧ e.isStd = true ∧ e ≠ .discard ∧ e ≠ .success) ∨
      (as.any E = false ∧ func factory none o as = ⟨[], .ok true⟩) := by
    intro o as ho hg
    obtain ⟨r, hr⟩ := hfac o ho
    obtain ⟨i1, i2⟩ := hrun as r hg
    cases hb : as.any E with
    | true =>
      obtain ⟨e, h1, h2⟩ := i1 hb
      exact .inl ⟨rfl, e, by simp only [func, andThen, hr, h1], h2⟩
    | false =>
      obtain ⟨s, h1⟩ := i2 hb
      exact .inr ⟨rfl, by simp only [func, andThen, hr, h1, List.nil_append]⟩
  have hq := C190_some (g := ag) (minSize := 0) (maxSize := 200) (by omega) ha E p (by omega) hp
  have key := C190_found hS H G hH hG (fun as => as.any E) (fun o as ho hg => by
      rcases hfunc o as ho hg with ⟨-, h⟩ | ⟨-, h⟩
      · exact .inr h
      · exact .inl ⟨true, by rw [h]⟩) (fun o as ho hg => by
      rcases hfunc o as ho hg with ⟨h, e, h1, h2⟩ | ⟨h, h1⟩
      · exact ⟨fun _ => .inr (.inl ⟨e, h1, h2⟩), fun _ => h⟩
      · rw [h, h1]
        simp [Ev.Fails]) hsi hi hsa _ ha hq
  refine cast (congrArg (fun x => ChanceLimit _ _ x) ?_) key
  have : Finset.Icc 0 200 = Finset.range 201 := by ext; simp; omega
  rw [this]
  norm_num

end

/-! ### An example -/

/-- Adding to a number. -/
def plus (k : Int) : Act Int Unit := fun o m => ⟨[], .ok (o + k, m)⟩
/-- An action that fails. -/
def broken : Act Int Unit := fun _ _ => ⟨[], .throws .assertFailed⟩

/-- The number 0, changed by three actions of which one is broken. -/
def counterProp (N m : Nat) (σ : Type) (R : Rng σ) : Prop' σ Int Unit :=
  ((Prop'.new (fun s => just 0 s) (fun o => ⟨[], .ok (o, ())⟩)
    (elementOfCall [(plus 1, .fin 0), (plus (-1), .fin 0), (broken, .fin 0)] m σ R)).setNumRuns N).setMaxDurationMs 0

/-- An environment. -/
def plainEnv : Around Int Unit := ⟨0, 1000, 0, [0, 1], [0, 1], [0, 1], fun _ => id, fun _ => 0⟩

theorem counter_stage (N : Nat) (hN : N ≠ uint32Max) : Stage (counterProp N) plainEnv [0, 1] (fun _ _ _ s => just 0 s)
    (fun m => elementOfCall [(plus 1, .fin 0), (plus (-1), .fin 0), (broken, .fin 0)] m) (fun o => ⟨[], .ok (o, ())⟩) N where
  initial := fun _ _ _ => rfl
  model := fun _ _ _ => rfl
  actions := fun _ _ _ => rfl
  post := fun _ _ _ => rfl
  startup := fun _ _ _ => rfl
  cleanup := fun _ _ _ => rfl
  runs := fun _ _ _ => rfl
  notDefault := hN
  time := fun _ _ _ => rfl
  orders := ⟨rfl, rfl, by simp [plainEnv]⟩
  nodup := by decide
  all := by decide

/-- A list of actions named 1, 2 and 3: it is exactly [1, 2] with probability 1/9 / 201, it begins with 1 and 2 with
probability 1/9 * 199/201, and 3 is not in it with probability (1 + 2/3 + (2/3)^2 + ...) / 201. -/
example :
    ChanceLimit (fun m σ R s => arbiVector R (elementOfCall ([(1 : Nat), 2, 3].map fun v => (v, Dbl.fin 0)) m σ R) 0 200 s)
      (fun t => fits [fun v => decide (v = 1), fun v => decide (v = 2)] t.value) (1 / 9 / 201) ∧
    ChanceLimit (fun m σ R s => arbiVector R (elementOfCall ([(1 : Nat), 2, 3].map fun v => (v, Dbl.fin 0)) m σ R) 0 200 s)
      (fun t => fits [fun v => decide (v = 1), fun v => decide (v = 2)] (t.value.take 2)) (1 / 9 * 199 / 201) ∧
    ChanceLimit (fun m σ R s => arbiVector R (elementOfCall ([(1 : Nat), 2, 3].map fun v => (v, Dbl.fin 0)) m σ R) 0 200 s)
      (fun t => t.value.all fun v => !decide (v = 3)) ((∑ l ∈ Finset.Icc 0 200, (1 - 1 / 3 : ℚ) ^ l) / 201) := by
  have hr := C140_elementOf_even [(1 : Nat), 2, 3] (by simp) (by simp) fun _ => true
  have h1 := C140_elementOf_even [(1 : Nat), 2, 3] (by simp) (by simp) fun v => decide (v = 1)
  have h2 := C140_elementOf_even [(1 : Nat), 2, 3] (by simp) (by simp) fun v => decide (v = 2)
  have h3 := C140_elementOf_even [(1 : Nat), 2, 3] (by simp) (by simp) fun v => decide (v = 3)
  have e1 : (([(1 : Nat), 2, 3].countP fun v => decide (v = 1) : Nat) : ℚ) / ([(1 : Nat), 2, 3].length : Nat) = 1 / 3 := by simp
  have e2 : (([(1 : Nat), 2, 3].countP fun v => decide (v = 2) : Nat) : ℚ) / ([(1 : Nat), 2, 3].length : Nat) = 1 / 3 := by simp
  have e3 : (([(1 : Nat), 2, 3].countP fun v => decide (v = 3) : Nat) : ℚ) / ([(1 : Nat), 2, 3].length : Nat) = 1 / 3 := by simp
  have er : (([(1 : Nat), 2, 3].countP fun _ => true : Nat) : ℚ) / ([(1 : Nat), 2, 3].length : Nat) = 1 := by simp
  rw [e1] at h1
  rw [e2] at h2
  rw [e3] at h3
  rw [er] at hr
  refine ⟨?_, ?_, ?_⟩
  · have := C190_exact (minSize := 0) (maxSize := 200) (by omega) hr
      [fun v => decide (v = 1), fun v => decide (v = 2)] [1 / 3, 1 / 3] (by simp) (by simp) (.cons h1 (.cons h2 .nil))
    refine cast (congrArg (fun x => ChanceLimit _ _ x) ?_) this
    norm_num
  · have := C190_begins (minSize := 0) (maxSize := 200) (by omega) hr
      [fun v => decide (v = 1), fun v => decide (v = 2)] [1 / 3, 1 / 3] (by simp) (by simp) (.cons h1 (.cons h2 .nil))
    refine cast (congrArg (fun x => ChanceLimit _ _ x) ?_) this
    norm_num
  · have := C190_none (minSize := 0) (maxSize := 200) (by omega) hr (fun v => decide (v = 3)) (1 / 3) (by omega) h3
    refine cast (congrArg (fun x => ChanceLimit _ _ x) ?_) this
    norm_num

/-- One run: the list has about 100 actions, and passes only if none is the broken one; a test of two runs finds the
failure with probability 1 - (s/201)^2 with s = 1 + 2/3 + (2/3)^2 + ..., which is more than 0.9997. -/
example : ChanceLimit (fun m => forAllCall (statefulTest (counterProp 2) plainEnv m) m) (fun r => r.isSome)
      (1 - ((∑ l ∈ Finset.range 201, (1 - 1 / 3 : ℚ) ^ l) / 201) ^ 2) ∧
    (9997 / 10000 : ℚ) < 1 - ((∑ l ∈ Finset.range 201, (1 - 1 / 3 : ℚ) ^ l) / 201) ^ 2 := by
  classical
  have hne : ∀ k, (plus k = broken) = False := fun k => by
    refine eq_false fun h => ?_
    have := congrFun (congrFun h 0) ()
    simp [plus, broken] at this
  have hall : ∀ m σ R v, Possible (elementOfCall [(plus 1, Dbl.fin 0), (plus (-1), .fin 0), (broken, .fin 0)] m σ R) v →
      v = plus 1 ∨ v = plus (-1) ∨ v = broken := by
    rintro m σ R v ⟨t, ⟨s, s', ht⟩, hr⟩
    simp only [elementOfCall] at ht
    cases hw : elementOf (σ := σ) [(plus 1, Dbl.fin 0), (plus (-1), .fin 0), (broken, .fin 0)] with
    | ok ws =>
      rw [hw] at ht
      obtain ⟨g, hg, s₀, e⟩ := C33_oneOf_partial R _ ws hw m s s' t ht
      have hlf : ∀ w : Act Int Unit, Reach (Shr.leaf w) v → v = w := fun w h => (reach_leaf.1 h).symm
      simp only [List.map_cons, List.map_nil, List.mem_cons, List.not_mem_nil, or_false] at hg
      rcases hg with rfl | rfl | rfl <;> (simp only [just, Outcome.ok.injEq, Prod.mk.injEq] at e; obtain ⟨rfl, -⟩ := e)
      · exact .inl (hlf _ hr)
      · exact .inr (.inl (hlf _ hr))
      · exact .inr (.inr (hlf _ hr))
    | throws e => rw [hw] at ht; cases ht
    | ub => rw [hw] at ht; cases ht
    | diverges => rw [hw] at ht; cases ht
  refine ⟨C190_broken_action (counter_stage 2 (by decide)) (fun _ => True)
    (fun a => a = plus 1 ∨ a = plus (-1) ∨ a = broken) (fun _ _ _ _ _ => trivial) hall (fun a => decide (a = broken))
    (fun o _ => ⟨_, rfl⟩) ?_ ?_ (fun _ _ _ s => .inl ⟨_, rfl⟩) ?_ ?_ _ ?_ ?_, ?_⟩
  · intro a _ h
    simp only [decide_eq_true_eq] at h
    subst h
    exact fun o m => ⟨.assertFailed, rfl, rfl, by simp, by simp⟩
  · intro a ha h o m
    rcases ha with rfl | rfl | rfl
    · exact ⟨_, rfl⟩
    · exact ⟨_, rfl⟩
    · simp at h
  · have := just_chance (fun _ => true) (0 : Int)
    intro ε hε
    exact ⟨0, fun n _ => ⟨1, by simpa using this, by simpa using hε⟩⟩
  · intro m
    rw [elementOfCall_eq]
    exact C189_settles_oneOf _ [0, 0, 0] rfl (List.replicate 3 ((Dbl.fin 0).oneMinus.divNat 3)) (by decide +kernel) (by simp)
      (by simp) (by
        intro a ha
        obtain ⟨v, -, rfl⟩ := List.mem_map.1 ha
        exact fun _ _ s => .inl ⟨_, rfl⟩) m
  · have := C140_elementOf_even [plus 1, plus (-1), broken] (by simp) (by simp) fun _ => true
    simpa using this
  · have := C140_elementOf_even [plus 1, plus (-1), broken] (by simp) (by simp) fun a => decide (a = broken)
    simpa [List.countP_cons, hne] using this
  · have : (∑ l ∈ Finset.range 201, (1 - 1 / 3 : ℚ) ^ l) ≤ 3 := by
      rw [geom_sum_eq (by norm_num)]
      have : (0 : ℚ) ≤ (1 - 1 / 3) ^ 201 := by positivity
      rw [div_le_iff_of_neg (by norm_num)]
      linarith
    have h0 : (0 : ℚ) ≤ ∑ l ∈ Finset.range 201, (1 - 1 / 3 : ℚ) ^ l := Finset.sum_nonneg fun l _ => by positivity
    nlinarith

end Stateful
end Verif
