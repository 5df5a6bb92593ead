import Verif.Props.ChanceActions
/-
C190 for the class style of stateful tests.
-/
namespace Verif
namespace Stateful
open PairTuple Integral IntType Filter Topology Comb Engine ListLike
variable {O M : Type}

/-- What the environment of a test of the class style says apart from the engine and its construction from a seed, see `Around`. -/
structure ClassAround (O M : Type) where
  globalSeed : Nat
  defaultNumRuns : Nat
  defaultMaxDurationMs : Nat
  orderRun : List (Fin 2)
  orderShrink : List (Fin 2)
  orderEach : List (Fin 2)
  thrown : ∀ σ : Type, σ → σ
  clock : Trace (Two O (List (ClassAct O M))) → Nat

/-- The environment with an engine. -/
def ClassAround.env (e : ClassAround O M) {σ : Type} (R : Rng σ) (seeded : Nat → σ) : Env σ O (List (ClassAct O M)) :=
  ⟨R, seeded, e.globalSeed, e.defaultNumRuns, e.defaultMaxDurationMs, e.orderRun, e.orderShrink, e.orderEach, e.thrown σ, e.clock⟩

/-- The test of the class style, for every engine: `N` runs and no time limit (see `C190_class_go`). The generators may be ones that draw
again until they succeed (`m` is the number of draws after which the model gives up). -/
def classTest (ig : Nat → Src (Shr O)) (ag : Nat → Src (Shr (ClassAct O M))) (factory : O → Ev (O × M)) (N : Nat)
    (env : ClassAround O M) (m : Nat) : AnyTest (Two O (List (ClassAct O M))) := fun σ R =>
  { gens := twoGens (ig m σ R) (ListLike.arbiVector R (ag m σ R) 0 200)
    orderRun := env.orderRun
    orderShrink := env.orderShrink
    orderEach := env.orderEach
    thrown := env.thrown σ
    func := fun _ args => classFunc factory (args 0) (args 1)
    startup := none
    cleanup := none
    numRuns := N
    maxDurationMs := 0
    clock := env.clock }

/-- C190, the class style. This is the test of the class style, whichever seed is in force. -/
theorem C190_class_go (ig : Nat → Src (Shr O)) (ag : Nat → Src (Shr (ClassAct O M))) (factory : O → Ev (O × M)) (N : Nat)
    (env : ClassAround O M) (m : Nat) (σ : Type) (R : Rng σ) (seeded : Nat → σ) :
    classConfig (env.env R seeded) (ig m σ R) factory (ag m σ R) N 0 = classTest ig ag factory N env m σ R := rfl

/-- Object and actions are drawn in the given order. -/
structure ClassStage (env : ClassAround O M) (order : List (Fin 2)) : Prop where
  run : env.orderRun = order
  shrink : env.orderShrink = order
  each : env.orderEach.Nodup
  nodup : order.Nodup
  all : ∀ i, i ∈ order

section
variable {env : ClassAround O M} {order : List (Fin 2)}
  {ig : Nat → Src (Shr O)} {ag : Nat → Src (Shr (ClassAct O M))} {factory : O → Ev (O × M)} {N : Nat}
  (hS : ClassStage env order)
include hS

theorem class_gens (m : Nat) (σ : Type) (R : Rng σ) : (classTest ig ag factory N env m σ R).orderRun = order ∧
    (classTest ig ag factory N env m σ R).gens = fun i => twoGens (ig m σ R) (fun s => arbiVector R (ag m σ R) 0 200 s) i := by
  exact ⟨hS.run, rfl⟩

theorem class_arguments (D : O → Bool) (F : List (ClassAct O M) → Bool) (p q : ℚ)
    (hp : ChanceLimit ig (fun t => D t.value) p)
    (hq : ChanceLimit (fun m σ R s => arbiVector R (ag m σ R) 0 200 s) (fun t => F t.value) q) :
    ChanceLimit (fun m => argsDraw (classTest ig ag factory N env m)) (fun a => D (a 0) && F (a 1)) (p * q) := by
  have := C189_arguments (A := Two O (List (ClassAct O M))) (classTest ig ag factory N env) order hS.nodup hS.all
    (fun m i σ R s => twoGens (ig m σ R) (fun s => arbiVector R (ag m σ R) 0 200 s) i s) (fun m σ R => class_gens hS m σ R)
    (fun i => match i with | 0 => D | 1 => F) (fun i => match i with | 0 => p | 1 => q) (fun i => by
      match i with
      | 0 => exact hp
      | 1 => exact hq)
  rw [Fin.prod_univ_two] at this
  refine cast (congrArg (fun E => ChanceLimit _ E _) ?_) this
  funext a
  rw [Bool.eq_iff_iff, decide_eq_true_eq, Fin.forall_fin_two, Bool.and_eq_true]

/-- C190. The class style, where actions may have preconditions. A test of `N` runs: for objects and actions that can be generated (objects in `H`, actions in `G`),
running the actions ends normally or with a std::exception other than those of PROP_DISCARD and PROP_SUCCESS, and shows
a failure exactly for the lists of actions in `F`. If lists in `F` are generated with probability `q`, the test finds a
failure with probability 1 - (1-q)^N. -/
theorem C190_class_found (H : O → Prop) (G : ClassAct O M → Prop) (hH : ∀ m σ R v, Possible (ig m σ R) v → H v)
    (hG : ∀ m σ R v, Possible (ag m σ R) v → G v) (F : List (ClassAct O M) → Bool)
    (hout : ∀ o as, H o → (∀ a ∈ as, G a) → (∃ b, (classFunc factory o as).out = .ok b) ∨
      ∃ e, (classFunc factory o as).out = .throws e ∧ e.isStd = true ∧ e ≠ .discard ∧ e ≠ .success)
    (hF : ∀ o as, H o → (∀ a ∈ as, G a) → (F as = true ↔ (classFunc factory o as).Fails))
    (hsi : ∀ m, Settles (ig m)) (hi : ChanceLimit ig (fun _ => true) 1)
    (hsa : ∀ m, Settles (ag m)) (q : ℚ) (ha : ChanceLimit ag (fun _ => true) 1)
    (hq : ChanceLimit (fun m σ R s => arbiVector R (ag m σ R) 0 200 s) (fun t => F t.value) q) :
    ChanceLimit (fun m => forAllCall (classTest ig ag factory N env m) m) (fun r => r.isSome) (1 - (1 - q) ^ N) := by
  classical
  let Good : O → List (ClassAct O M) → Prop := fun o as => H o ∧ ∀ x ∈ as, G x
  let f' : Args (Two O (List (ClassAct O M))) → Ev Bool := fun a =>
    if Good (a 0) (a 1) then classFunc factory (a 0) (a 1) else returns (!F (a 1))
  let c' : Nat → AnyTest (Two O (List (ClassAct O M))) := fun m σ R => { classTest ig ag factory N env m σ R with func := fun _ => f' }
  have hsame : ∀ m fuel, forAllCall (classTest ig ag factory N env m) fuel = forAllCall (c' m) fuel := by
    intro m fuel
    funext σ R seed
    unfold forAllCall
    have := runForAll_possible (classTest ig ag factory N env m σ R) (fun _ => f') (fun tr a hpos => by
      have h0 := hpos 0
      have h1 := hpos 1
      rw [(class_gens hS m σ R).2] at h0 h1
      have e : (classTest ig ag factory N env m σ R).func tr a = classFunc factory (a 0) (a 1) := by
        rfl
      rw [e]
      exact (if_pos ⟨hH m σ R _ h0, fun x hx => hG m σ R x (possible_elements h1 x hx)⟩).symm) fuel
    rw [this]
  have hf' : ∀ a, (F (a 1) = true ↔ (f' a).Fails) ∧ (f' a).out ≠ .throws .discard ∧ (f' a).out ≠ .throws .success ∧
      ((∃ b, (f' a).out = .ok b) ∨ ∃ e, (f' a).out = .throws e ∧ e.isStd = true) := by
    intro a
    by_cases hg : Good (a 0) (a 1)
    · have e : f' a = classFunc factory (a 0) (a 1) := if_pos hg
      rw [e]
      refine ⟨hF _ _ hg.1 hg.2, ?_⟩
      rcases hout _ _ hg.1 hg.2 with ⟨b, h⟩ | ⟨e, h, h1, h2, h3⟩
      · rw [h]; simp
      · rw [h]
        exact ⟨by simpa using h2, by simpa using h3, .inr ⟨e, rfl, h1⟩⟩
    · have e : f' a = returns (!F (a 1)) := if_neg hg
      rw [e]
      refine ⟨?_, by simp [returns], by simp [returns], .inl ⟨_, rfl⟩⟩
      cases hb : F (a 1) <;> simp [returns, Ev.Fails]
  have hdraws : ∀ m σ R s, (∃ r, Gen.drawTuple (classTest ig ag factory N env m σ R).gens (classTest ig ag factory N env m σ R).orderRun s = .ok r) ∨
      Gen.drawTuple (classTest ig ag factory N env m σ R).gens (classTest ig ag factory N env m σ R).orderRun s = .diverges := fun m σ R s =>
    C189_settles (A := Two O (List (ClassAct O M))) (classTest ig ag factory N env m)
      (fun i σ R s => twoGens (ig m σ R) (fun s => arbiVector R (ag m σ R) 0 200 s) i s) order hS.all
      (fun σ R => class_gens hS m σ R) (fun i => by
        match i with
        | 0 => exact hsi m
        | 1 => exact settles_vector (hsa m) 0 200 (by omega) (by omega)) σ R s
  have hsearch : ∀ m, Searching (c' m) f' N := fun m =>
    { setting := fun σ R => ⟨⟨fun k h => by simp [c', classTest] at h,
          fun k h => by simp [c', classTest] at h⟩,
        (hS.shrink.trans hS.run.symm), hS.each, fun s => by
          have : Gen.drawTuple (c' m σ R).gens (c' m σ R).orderRun s =
            Gen.drawTuple (classTest ig ag factory N env m σ R).gens (classTest ig ag factory N env m σ R).orderRun s := rfl
          rcases hdraws m σ R s with ⟨r, hr⟩ | hr <;> rw [this, hr] <;> simp⟩
      draws := hdraws m
      pure := fun _ _ _ _ => rfl
      out := fun a => (hf' a).2.2.2
      quiet := fun a h => by
        rcases h with h | h
        · exact absurd h (hf' a).2.2.1
        · exact absurd h (hf' a).2.1
      runs := fun σ R => rfl
      noLimit := fun σ R => rfl }
  have hvec := C190_returns (g := ag) (minSize := 0) (maxSize := 200) (by omega) ha (by omega)
  have hr := class_arguments (factory := factory) (N := N) hS (fun _ => true) (fun _ => true) 1 1 hi hvec
  have hp := class_arguments (factory := factory) (N := N) hS (fun _ => true) F 1 q hi hq
  have hz := class_arguments (factory := factory) (N := N) hS (fun _ => true) (fun _ => false) 1 0 hi (by
    have := limit_not hvec hvec
    simpa using this)
  simp only [Bool.true_and, one_mul, mul_one, mul_zero] at hr hp hz
  have key := C189_found (c := c') (fails := fun a => F (a 1)) hsearch (fun a => (hf' a).1) hr hp (d := 0)
    (by
      have : (fun a => (f' a).discarded) = fun _ => false := by
        funext a
        simp [Ev.discarded, (hf' a).2.1]
      rw [this]
      exact hz) (by norm_num)
  simp only [sub_zero, div_one] at key
  simp only [hsame]
  exact key

/-- C190, the class style. The actions of one kind fail whenever they are run, by returning false or by an exception, and the others do
not; the actions of this kind can be run everywhere, the others may have preconditions. If an action is of this kind with probability
`p`, a run passes with probability (1 + (1-p) + ... + (1-p)^200) / 201. -/
theorem C190_class_broken_action (H : O → Prop) (G : ClassAct O M → Prop) (hH : ∀ m σ R v, Possible (ig m σ R) v → H v)
    (hG : ∀ m σ R v, Possible (ag m σ R) v → G v) (E : ClassAct O M → Bool)
    (hfac : ∀ o, H o → ∃ r, factory o = ⟨[], .ok r⟩)
    (hpre : ∀ a, G a → E a = true → ∀ o m, a.precondition o m = ⟨[], .ok true⟩)
    (hbad : ∀ a, G a → E a = true → ∀ o m, (∃ s, (a.run o m).out = .ok (false, s)) ∨
      ∃ e, (a.run o m).out = .throws e ∧ e.isStd = true ∧ e ≠ .discard ∧ e ≠ .success)
    (hgood : ∀ a, G a → E a = false → ∀ o m, (∃ b, a.precondition o m = ⟨[], .ok b⟩) ∧ ∃ s, a.run o m = ⟨[], .ok (true, s)⟩)
    (hsi : ∀ m, Settles (ig m)) (hi : ChanceLimit ig (fun _ => true) 1)
    (hsa : ∀ m, Settles (ag m)) (p : ℚ) (ha : ChanceLimit ag (fun _ => true) 1)
    (hp : ChanceLimit ag (fun t => E t.value) p) :
    ChanceLimit (fun m => forAllCall (classTest ig ag factory N env m) m) (fun r => r.isSome)
      (1 - ((∑ l ∈ Finset.range 201, (1 - p) ^ l) / 201) ^ N) := by
  have hrun : ∀ (as : List (ClassAct O M)) (s : O × M), (∀ a ∈ as, G a) →
      (as.any E = true → ∃ e, (runClassActions as s).out = .throws e ∧ e.isStd = true ∧ e ≠ .discard ∧ e ≠ .success) ∧
      (as.any E = false → ∃ r, runClassActions as s = ⟨[], .ok r⟩) := by
    intro as
    induction as with
    | nil => exact fun s _ => ⟨by simp, fun _ => ⟨_, rfl⟩⟩
    | cons a as ih =>
      intro s hg
      cases hE : E a with
      | true =>
        refine ⟨fun _ => ?_, by simp [hE]⟩
        have h0 := hpre a (hg a (by simp)) hE s.1 s.2
        rcases hbad a (hg a (by simp)) hE s.1 s.2 with ⟨s', h1⟩ | ⟨e, h1, h2⟩
        · exact ⟨.assertFailed, by simp [runClassActions, andThen, h0, h1], rfl, by simp, by simp⟩
        · exact ⟨e, by simp [runClassActions, andThen, h0, h1], h2⟩
      | false =>
        obtain ⟨⟨b, h0⟩, r, h1⟩ := hgood a (hg a (by simp)) hE s.1 s.2
        rw [List.any_cons, hE, Bool.false_or]
        cases b with
        | true =>
          have e : runClassActions (a :: as) s = runClassActions as r := by simp [runClassActions, andThen, h0, h1]
          rw [e]
          exact ih r fun x hx => hg x (by simp [hx])
        | false =>
          have e : runClassActions (a :: as) s = runClassActions as s := by simp [runClassActions, andThen, h0]
          rw [e]
          exact ih s fun x hx => hg x (by simp [hx])
  have hfunc : ∀ o as, H o → (∀ a ∈ as, G a) →
      (as.any E = true ∧ ∃ e, (classFunc factory o as).out = .throws e ∧ e.isStd = true ∧ e ≠ .discard ∧ e ≠ .success) ∨
      (as.any E = false ∧ classFunc factory o as = ⟨[], .ok true⟩) := by
    intro o as ho hg
    obtain ⟨r, hr⟩ := hfac o ho
    obtain ⟨i1, i2⟩ := hrun as r hg
    cases hb : as.any E with
    | true =>
      obtain ⟨e, h1, h2⟩ := i1 hb
      exact .inl ⟨rfl, e, by simp only [classFunc, andThen, hr, h1], h2⟩
    | false =>
      obtain ⟨s, h1⟩ := i2 hb
      exact .inr ⟨rfl, by simp only [classFunc, andThen, hr, h1, List.nil_append]⟩
  have hq := C190_some (g := ag) (minSize := 0) (maxSize := 200) (by omega) ha E p (by omega) hp
  have key := C190_class_found (N := N) (factory := factory) hS H G hH hG (fun as => as.any E) (fun o as ho hg => by
      rcases hfunc o as ho hg with ⟨-, h⟩ | ⟨-, h⟩
      · exact .inr h
      · exact .inl ⟨true, by rw [h]⟩) (fun o as ho hg => by
      rcases hfunc o as ho hg with ⟨h, e, h1, h2⟩ | ⟨h, h1⟩
      · exact ⟨fun _ => .inr (.inl ⟨e, h1, h2⟩), fun _ => h⟩
      · rw [h, h1]
        simp [Ev.Fails]) hsi hi hsa _ ha hq
  refine cast (congrArg (fun x => ChanceLimit _ _ x) ?_) key
  have : Finset.Icc 0 200 = Finset.range 201 := by ext; simp; omega
  rw [this]
  norm_num

/-- C190, the class style. An action whose precondition does not hold in any state that can be reached (`S`) is not run: however often it
is generated and whatever it does, no failure is found. -/
theorem C190_class_never_run (H : O → Prop) (G : ClassAct O M → Prop) (S : O → M → Prop) (hH : ∀ m σ R v, Possible (ig m σ R) v → H v)
    (hG : ∀ m σ R v, Possible (ag m σ R) v → G v) (E : ClassAct O M → Bool)
    (hfac : ∀ o, H o → ∃ o' m, factory o = ⟨[], .ok (o', m)⟩ ∧ S o' m)
    (hpre : ∀ a, G a → E a = true → ∀ o m, S o m → a.precondition o m = ⟨[], .ok false⟩)
    (hgood : ∀ a, G a → E a = false → ∀ o m, S o m → (∃ b, a.precondition o m = ⟨[], .ok b⟩) ∧
      ((a.precondition o m).out = .ok true → ∃ o' m', a.run o m = ⟨[], .ok (true, o', m')⟩ ∧ S o' m'))
    (hsi : ∀ m, Settles (ig m)) (hi : ChanceLimit ig (fun _ => true) 1)
    (hsa : ∀ m, Settles (ag m)) (ha : ChanceLimit ag (fun _ => true) 1) :
    ChanceLimit (fun m => forAllCall (classTest ig ag factory N env m) m) (fun r => r.isSome) 0 := by
  have hrun : ∀ (as : List (ClassAct O M)) (o : O) (m : M), S o m → (∀ a ∈ as, G a) → ∃ r, runClassActions as (o, m) = ⟨[], .ok r⟩ := by
    intro as
    induction as with
    | nil => exact fun o m _ _ => ⟨_, rfl⟩
    | cons a as ih =>
      intro o m hs hg
      have hg' : ∀ x ∈ as, G x := fun x hx => hg x (by simp [hx])
      cases hE : E a with
      | true =>
        have h0 := hpre a (hg a (by simp)) hE o m hs
        obtain ⟨r, hr⟩ := ih o m hs hg'
        exact ⟨r, by simp [runClassActions, andThen, h0, hr]⟩
      | false =>
        obtain ⟨⟨b, h0⟩, h1⟩ := hgood a (hg a (by simp)) hE o m hs
        cases b with
        | true =>
          obtain ⟨o', m', h2, h3⟩ := h1 (by rw [h0])
          obtain ⟨r, hr⟩ := ih o' m' h3 hg'
          exact ⟨r, by simp [runClassActions, andThen, h0, h2, hr]⟩
        | false =>
          obtain ⟨r, hr⟩ := ih o m hs hg'
          exact ⟨r, by simp [runClassActions, andThen, h0, hr]⟩
  have hfunc : ∀ o as, H o → (∀ a ∈ as, G a) → classFunc factory o as = ⟨[], .ok true⟩ := by
    intro o as ho hg
    obtain ⟨o', m, hr, hs⟩ := hfac o ho
    obtain ⟨r, h1⟩ := hrun as o' m hs hg
    simp only [classFunc, andThen, hr, h1, List.nil_append]
  have hvec := C190_returns (g := ag) (minSize := 0) (maxSize := 200) (by omega) ha (by omega)
  have key := C190_class_found (N := N) (factory := factory) hS H G hH hG (fun _ => false) (fun o as ho hg => .inl ⟨true, by rw [hfunc o as ho hg]⟩)
    (fun o as ho hg => by rw [hfunc o as ho hg]; simp [Ev.Fails]) hsi hi hsa 0 ha (by
      have := limit_not hvec hvec
      simpa using this)
  simpa using key

end

/-! ### An example -/

/-- Adding to a number that is not negative, with a precondition for results below 0. -/
def step (k : Int) : ClassAct Int Unit := ⟨fun o _ => ⟨[], .ok (decide (0 ≤ o + k))⟩, fun o m => ⟨[], .ok (true, o + k, m)⟩⟩
/-- An action whose check fails. -/
def faulty : ClassAct Int Unit := ⟨fun _ _ => ⟨[], .ok true⟩, fun o m => ⟨[], .ok (false, o, m)⟩⟩

/-- An action that fails, for numbers below 0 only. -/
def guarded : ClassAct Int Unit := ⟨fun o _ => ⟨[], .ok (decide (o < 0))⟩, fun o m => ⟨[], .ok (false, o, m)⟩⟩

/-- An environment. -/
def classEnv : ClassAround Int Unit := ⟨0, 1000, 0, [0, 1], [0, 1], [0, 1], fun _ => id, fun _ => 0⟩

theorem class_stage : ClassStage classEnv [0, 1] where
  run := rfl
  shrink := rfl
  each := by simp [classEnv]
  nodup := by decide
  all := by decide

/-- Adding 1, subtracting 1 where the result is not negative, and the broken action: two runs find the failure with a probability of more
than 0.9997. -/
example : ChanceLimit (fun m => forAllCall (classTest (fun _ _ _ s => just 0 s)
        (fun m => elementOfCall [(step 1, .fin 0), (step (-1), .fin 0), (faulty, .fin 0)] m) (fun o => ⟨[], .ok (o, ())⟩) 2 classEnv m) m)
      (fun r => r.isSome) (1 - ((∑ l ∈ Finset.range 201, (1 - 1 / 3 : ℚ) ^ l) / 201) ^ 2) := by
  classical
  have hne : ∀ k, (step k = faulty) = False := fun k => by
    refine eq_false fun h => ?_
    have := congrFun (congrFun (congrArg ClassAct.run h) 0) ()
    simp [step, faulty] at this
  have hall : ∀ m σ R v, Possible (elementOfCall [(step 1, Dbl.fin 0), (step (-1), .fin 0), (faulty, .fin 0)] m σ R) v →
      v = step 1 ∨ v = step (-1) ∨ v = faulty := by
    rintro m σ R v ⟨t, ⟨s, s', ht⟩, hr⟩
    simp only [elementOfCall] at ht
    cases hw : elementOf (σ := σ) [(step 1, Dbl.fin 0), (step (-1), .fin 0), (faulty, .fin 0)] with
    | ok ws =>
      rw [hw] at ht
      obtain ⟨g, hg, s₀, e⟩ := C33_oneOf_partial R _ ws hw m s s' t ht
      have hlf : ∀ w : ClassAct Int Unit, Reach (Shr.leaf w) v → v = w := fun w h => (reach_leaf.1 h).symm
      simp only [List.map_cons, List.map_nil, List.mem_cons, List.not_mem_nil, or_false] at hg
      rcases hg with rfl | rfl | rfl <;> (simp only [just, Outcome.ok.injEq, Prod.mk.injEq] at e; obtain ⟨rfl, -⟩ := e)
      · exact .inl (hlf _ hr)
      · exact .inr (.inl (hlf _ hr))
      · exact .inr (.inr (hlf _ hr))
    | throws e => rw [hw] at ht; cases ht
    | ub => rw [hw] at ht; cases ht
    | diverges => rw [hw] at ht; cases ht
  refine C190_class_broken_action class_stage (fun _ => True)
    (fun a => a = step 1 ∨ a = step (-1) ∨ a = faulty) (fun _ _ _ _ _ => trivial) hall (fun a => decide (a = faulty))
    (fun o _ => ⟨_, rfl⟩) ?_ ?_ ?_ (fun _ _ _ s => .inl ⟨_, rfl⟩) ?_ ?_ _ ?_ ?_
  · intro a _ h
    simp only [decide_eq_true_eq] at h
    subst h
    exact fun o m => rfl
  · intro a _ h
    simp only [decide_eq_true_eq] at h
    subst h
    exact fun o m => .inl ⟨_, rfl⟩
  · intro a ha h o m
    rcases ha with rfl | rfl | rfl
    · exact ⟨⟨_, rfl⟩, _, rfl⟩
    · exact ⟨⟨_, rfl⟩, _, rfl⟩
    · simp at h
  · have := just_chance (fun _ => true) (0 : Int)
    intro ε hε
    exact ⟨0, fun n _ => ⟨1, by simpa [just] using this, by simpa using hε⟩⟩
  · intro m
    rw [elementOfCall_eq]
    exact C189_settles_oneOf _ [0, 0, 0] rfl (List.replicate 3 ((Dbl.fin 0).oneMinus.divNat 3)) (by decide +kernel) (by simp)
      (by simp) (by
        intro a ha
        obtain ⟨v, -, rfl⟩ := List.mem_map.1 ha
        exact fun _ _ s => .inl ⟨_, rfl⟩) m
  · have := C140_elementOf_even [step 1, step (-1), faulty] (by simp) (by simp) fun _ => true
    simpa using this
  · have := C140_elementOf_even [step 1, step (-1), faulty] (by simp) (by simp) fun a => decide (a = faulty)
    simpa [List.countP_cons, hne] using this

/-- With the action for numbers below 0 in its place the test never fails: from 0, the others do not lead below 0. -/
example : ChanceLimit (fun m => forAllCall (classTest (fun _ _ _ s => just 0 s)
        (fun m => elementOfCall [(step 1, .fin 0), (step (-1), .fin 0), (guarded, .fin 0)] m) (fun o => ⟨[], .ok (o, ())⟩) 2 classEnv m) m)
      (fun r => r.isSome) 0 := by
  classical
  have hall : ∀ m σ R v, Possible (elementOfCall [(step 1, Dbl.fin 0), (step (-1), .fin 0), (guarded, .fin 0)] m σ R) v →
      v = step 1 ∨ v = step (-1) ∨ v = guarded := by
    rintro m σ R v ⟨t, ⟨s, s', ht⟩, hr⟩
    simp only [elementOfCall] at ht
    cases hw : elementOf (σ := σ) [(step 1, Dbl.fin 0), (step (-1), .fin 0), (guarded, .fin 0)] with
    | ok ws =>
      rw [hw] at ht
      obtain ⟨g, hg, s₀, e⟩ := C33_oneOf_partial R _ ws hw m s s' t ht
      have hlf : ∀ w : ClassAct Int Unit, Reach (Shr.leaf w) v → v = w := fun w h => (reach_leaf.1 h).symm
      simp only [List.map_cons, List.map_nil, List.mem_cons, List.not_mem_nil, or_false] at hg
      rcases hg with rfl | rfl | rfl <;> (simp only [just, Outcome.ok.injEq, Prod.mk.injEq] at e; obtain ⟨rfl, -⟩ := e)
      · exact .inl (hlf _ hr)
      · exact .inr (.inl (hlf _ hr))
      · exact .inr (.inr (hlf _ hr))
    | throws e => rw [hw] at ht; cases ht
    | ub => rw [hw] at ht; cases ht
    | diverges => rw [hw] at ht; cases ht
  refine C190_class_never_run class_stage (fun o => o = 0)
    (fun a => a = step 1 ∨ a = step (-1) ∨ a = guarded) (fun o _ => 0 ≤ o) (fun m σ R v h => ?_) hall (fun a => decide (a = guarded))
    (fun o h => ⟨_, _, rfl, by omega⟩) ?_ ?_ (fun _ _ _ s => .inl ⟨_, rfl⟩) ?_ ?_ ?_
  · obtain ⟨t, ⟨s, s', ht⟩, hr⟩ := h
    simp only [just, Outcome.ok.injEq, Prod.mk.injEq] at ht
    obtain ⟨rfl, -⟩ := ht
    exact (reach_leaf.1 hr).symm
  · intro a _ h
    simp only [decide_eq_true_eq] at h
    subst h
    exact fun o m ho => by simp [guarded, ho]
  · intro a ha h o m ho
    rcases ha with rfl | rfl | rfl
    · exact ⟨⟨_, rfl⟩, fun h => ⟨_, _, rfl, by simpa [step] using h⟩⟩
    · exact ⟨⟨_, rfl⟩, fun h => ⟨_, _, rfl, by simpa [step] using h⟩⟩
    · simp at h
  · have := just_chance (fun _ => true) (0 : Int)
    intro ε hε
    exact ⟨0, fun n _ => ⟨1, by simpa [just] using this, by simpa using hε⟩⟩
  · intro m
    rw [elementOfCall_eq]
    exact C189_settles_oneOf _ [0, 0, 0] rfl (List.replicate 3 ((Dbl.fin 0).oneMinus.divNat 3)) (by decide +kernel) (by simp)
      (by simp) (by
        intro a ha
        obtain ⟨v, -, rfl⟩ := List.mem_map.1 ha
        exact fun _ _ s => .inl ⟨_, rfl⟩) m
  · have := C140_elementOf_even [step 1, step (-1), guarded] (by simp) (by simp) fun _ => true
    simpa using this

end Stateful
end Verif
