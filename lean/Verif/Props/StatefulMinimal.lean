import Verif.Lemmas.StatefulMinimal
/-
C168: how short the list of actions reported by a failing stateful test is.
-/
namespace Verif
namespace Stateful
open Engine Random Shr
variable {σ O M X : Type}

/-! ### C168 -/

/-- `shrinkEach` shrinks the object and the list of actions one after the other, in either order. -/
def EitherOrder (order : List (Fin 2)) : Prop := order = [0, 1] ∨ order = [1, 0]

/-- The object the list of actions is shrunk with: the reported one if the object is shrunk first, else the drawn one. -/
def ShrunkWith (order : List (Fin 2)) (start shrunk : PairTuple.Tup (Two O (List X))) (obj : O) : Prop :=
  (order = [0, 1] → obj = (shrunk 0).value) ∧ (order = [1, 0] → obj = (start 0).value)

/-- The generator can make this value. -/
def Drawn (g : Gen σ X) (v : X) : Prop := ∃ x, Gen.Makes g x ∧ x.value = v

private theorem minimal {c : Cfg σ (Two O (List X))} (R : Rng σ) (gx : Gen σ X)
    (hg : c.gens 1 = ListLike.arbiVector R gx 0 200) (hc : Setting c) (ho : EitherOrder c.orderEach)
    {f : O → List X → Ev Bool} (hf : c.Pure fun args => f (args 0) (args 1))
    (hq : ∀ o l, (f o l).out = .throws .success ∨ (f o l).out = .throws .discard → (f o l).fails = [])
    (hmono : ∀ o ys zs, List.Sublist ys zs → (∀ z ∈ zs, Drawn gx z) → (f o ys).Rejects → (f o zs).Rejects)
    (fuel : Nat) (seed : σ) (a : Nat) (start shrunk : PairTuple.Tup (Two O (List X))) (tr : Trace (Two O (List X)))
    (h : forAll c fuel seed [] = (.ok (.falsified a start shrunk), tr)) :
    ∃ obj, ShrunkWith c.orderEach start shrunk obj ∧ (f obj (shrunk 1).value).Rejects ∧
      ∃ xs zs : List (Shr X), (start 1).value = xs.map Shr.value ∧ (∀ x ∈ xs, Gen.Makes gx x) ∧ zs.Sublist xs ∧
        (f obj (zs.map Shr.value)).Rejects ∧
        (∀ ws : List (Shr X), ws.Sublist zs → (f obj (ws.map Shr.value)).Rejects → ws = zs) ∧
        List.Forall₂ Reach zs (shrunk 1).value := by
  classical
  obtain ⟨obj, h1, h2, xs, h3, h4, h5, h6, h7⟩ := list_shrunk R gx hg hc ho hf hq fuel seed a start shrunk tr h
    (fun o l => decide (f o l).Rejects) (fun o l => by simp)
  have h6' : (f obj (xs.map Shr.value)).Rejects := by rw [← h3]; exact h6
  obtain ⟨g1, zs, g2, -, g3, g4, g5⟩ := greedy_listLike h5 (fun l => decide (f obj l).Rejects) (by simpa using h6')
    (fun ys zs a1 a3 _ a2 => by
      simpa using hmono obj ys zs a1 (fun z hz => by
        obtain ⟨x, hx, rfl⟩ := List.mem_map.1 (a3.subset hz)
        exact ⟨x, h4 x hx, rfl⟩) (by simpa using a2))
  rw [← h7] at g1 g5
  exact ⟨obj, ⟨h1, h2⟩, by simpa using g1, xs, zs, h3, h4, g2, by simpa using g3,
    fun ws a1 a2 => g4 ws a1 (Nat.zero_le _) (by simpa using a2), g5⟩

private theorem forall₂_last {γ δ : Type} {P : γ → δ → Prop} {x : γ} : ∀ (A : List γ) {l : List δ},
    List.Forall₂ P (A ++ [x]) l → ∃ B y, List.Forall₂ P A B ∧ P x y ∧ l = B ++ [y]
  | [], _, h => by
    cases h with
    | cons h1 h2 => cases h2; exact ⟨[], _, .nil, h1, rfl⟩
  | a :: A, _, h => by
    cases h with
    | cons h1 h2 =>
      obtain ⟨B, y, g1, g2, rfl⟩ := forall₂_last A h2
      exact ⟨_ :: B, y, .cons h1 g1, g2, rfl⟩

private theorem last_action {c : Cfg σ (Two O (List X))} (R : Rng σ) (gx : Gen σ X)
    (hg : c.gens 1 = ListLike.arbiVector R gx 0 200) (hc : Setting c) (ho : EitherOrder c.orderEach)
    {f : O → List X → Ev Bool} (hf : c.Pure fun args => f (args 0) (args 1))
    (hq : ∀ o l, (f o l).out = .throws .success ∨ (f o l).out = .throws .discard → (f o l).fails = [])
    (hpre : ∀ o ys zs, ys <+: zs → (f o ys).Rejects → (f o zs).Rejects)
    (fuel : Nat) (seed : σ) (a : Nat) (start shrunk : PairTuple.Tup (Two O (List X))) (tr : Trace (Two O (List X)))
    (h : forAll c fuel seed [] = (.ok (.falsified a start shrunk), tr)) :
    ∃ obj, ShrunkWith c.orderEach start shrunk obj ∧ (f obj (shrunk 1).value).Rejects ∧
      ∃ xs : List (Shr X), (start 1).value = xs.map Shr.value ∧ (∀ x ∈ xs, Gen.Makes gx x) ∧
        (((f obj []).Rejects ∧ (shrunk 1).value = []) ∨
         ∃ pre x post A B y, xs = pre ++ x :: post ∧ ¬ (f obj (pre.map Shr.value)).Rejects ∧
          (f obj (pre.map Shr.value ++ [x.value])).Rejects ∧ List.Sublist A pre ∧ List.Forall₂ Reach A B ∧ Reach x y ∧
          (shrunk 1).value = B ++ [y]) := by
  classical
  obtain ⟨obj, h1, h2, xs, h3, h4, h5, h6, h7⟩ := list_shrunk R gx hg hc ho hf hq fuel seed a start shrunk tr h
    (fun o l => decide (f o l).Rejects) (fun o l => by simp)
  have h6' : (f obj (xs.map Shr.value)).Rejects := by rw [← h3]; exact h6
  obtain ⟨g1, t0, g2, g3⟩ := greedy_listLike_steps h5 (fun l => decide (f obj l).Rejects) (by simpa using h6')
  rw [← h7] at g1 g3
  refine ⟨obj, ⟨h1, h2⟩, by simpa using g1, xs, h3, h4, ?_⟩
  rcases greedy_membershipwise_prefix xs t0 g2 (fun a => decide (f obj (a.map Shr.value)).Rejects) (by simpa using h6')
    (fun ys zs a1 _ a2 => by
      simp only [decide_eq_true_eq] at a2 ⊢
      exact hpre _ _ _ (a1.map _) a2) with ⟨e1, e2⟩ | ⟨pre, x, post, A, e1, e2, e3, e4, e5, e6⟩
  · left
    rw [e2] at g3
    exact ⟨by simpa using e1, List.forall₂_nil_left_iff.1 g3⟩
  · right
    rw [e5] at g3
    obtain ⟨B, y, g4, g5, g6⟩ := forall₂_last A g3
    exact ⟨pre, x, post, A, B, y, e1, by simpa using e2, by simpa using e3, e4, g4, g5, g6⟩

private theorem settled {γ : Type} {x : Ev γ} {k : γ → Ev Bool}
    (hn : ¬ (andThen x fun _ => (⟨[], .ok true⟩ : Ev Bool)).Rejects) (hr : (andThen x k).Rejects) :
    (andThen x fun _ => (⟨[], .ok true⟩ : Ev Bool)) = ⟨[], .ok true⟩ := by
  obtain ⟨xf, xo⟩ := x
  cases xo with
  | ok a => simpa [andThen, Ev.Rejects] using hn
  | throws e => exact absurd hr hn
  | ub => exact absurd hr hn
  | diverges => exact absurd hr hn

/-- C168. If the failure of a stateful test persists when actions are added, the reported list of actions is failing, and
its actions are those of a minimal failing selection of the drawn actions, in drawn order, each moved within its own
shrink tree: leaving out any actions of the selection makes the test pass. -/
theorem C168_minimal_partial (p : Prop' σ O M) (factory : O → Ev (O × M)) (hp : p.modelFactory = some factory)
    (env : Env σ O (List (Act O M))) (hc : Setting (p.config env)) (ho : EitherOrder env.orderEach)
    (hq : ∀ obj acts, (func factory p.postCheck obj acts).out = .throws .success ∨
      (func factory p.postCheck obj acts).out = .throws .discard → (func factory p.postCheck obj acts).fails = [])
    (hmono : ∀ obj ys zs, List.Sublist ys zs → (∀ z ∈ zs, Drawn p.actionGen z) →
      (func factory p.postCheck obj ys).Rejects → (func factory p.postCheck obj zs).Rejects)
    (fuel a : Nat) (start shrunk : PairTuple.Tup (Two O (List (Act O M)))) (tr : Trace (Two O (List (Act O M))))
    (h : (p.go env fuel []).1 = (.ok (.falsified a start shrunk), tr)) :
    ∃ obj, ShrunkWith env.orderEach start shrunk obj ∧ (func factory p.postCheck obj (shrunk 1).value).Rejects ∧
      ∃ xs zs : List (Shr (Act O M)), (start 1).value = xs.map Shr.value ∧ (∀ x ∈ xs, Gen.Makes p.actionGen x) ∧
        zs.Sublist xs ∧ (func factory p.postCheck obj (zs.map Shr.value)).Rejects ∧
        (∀ ws : List (Shr (Act O M)), ws.Sublist zs → (func factory p.postCheck obj (ws.map Shr.value)).Rejects →
          ws = zs) ∧
        List.Forall₂ Reach zs (shrunk 1).value :=
  minimal env.R p.actionGen rfl hc ho (fun tr args => by simp [Prop'.config, hp, callFactory]) hq hmono fuel _ a start
    shrunk tr h

/-- The same for the class style. -/
theorem C168_class_minimal_partial (env : Env σ O (List (ClassAct O M))) (initialGen : Gen σ O)
    (factory : O → Ev (O × M)) (actionGen : Gen σ (ClassAct O M)) (numRuns maxMs : Nat)
    (hc : Setting (classConfig env initialGen factory actionGen numRuns maxMs)) (ho : EitherOrder env.orderEach)
    (hq : ∀ obj acts, (classFunc factory obj acts).out = .throws .success ∨
      (classFunc factory obj acts).out = .throws .discard → (classFunc factory obj acts).fails = [])
    (hmono : ∀ obj ys zs, List.Sublist ys zs → (∀ z ∈ zs, Drawn actionGen z) →
      (classFunc factory obj ys).Rejects → (classFunc factory obj zs).Rejects)
    (fuel : Nat) (seed : σ) (a : Nat) (start shrunk : PairTuple.Tup (Two O (List (ClassAct O M))))
    (tr : Trace (Two O (List (ClassAct O M))))
    (h : forAll (classConfig env initialGen factory actionGen numRuns maxMs) fuel seed [] =
      (.ok (.falsified a start shrunk), tr)) :
    ∃ obj, ShrunkWith env.orderEach start shrunk obj ∧ (classFunc factory obj (shrunk 1).value).Rejects ∧
      ∃ xs zs : List (Shr (ClassAct O M)), (start 1).value = xs.map Shr.value ∧ (∀ x ∈ xs, Gen.Makes actionGen x) ∧
        zs.Sublist xs ∧ (classFunc factory obj (zs.map Shr.value)).Rejects ∧
        (∀ ws : List (Shr (ClassAct O M)), ws.Sublist zs → (classFunc factory obj (ws.map Shr.value)).Rejects →
          ws = zs) ∧
        List.Forall₂ Reach zs (shrunk 1).value :=
  minimal env.R actionGen rfl hc ho (fun tr args => rfl) hq hmono fuel _ a start shrunk tr h

/-- C168. Without a post check, for actions of any kind: the reported list is empty, and then no action is needed for
the failure; or it consists of some of the drawn actions before the one at which the drawn list failed first, in drawn
order, followed by that one, each moved within its own shrink tree. The actions before it all returned without a failed
expectation. Nothing drawn after it is reported. -/
theorem C168_last_action_partial (p : Prop' σ O M) (factory : O → Ev (O × M)) (hp : p.modelFactory = some factory)
    (hpost : p.postCheck = none)
    (env : Env σ O (List (Act O M))) (hc : Setting (p.config env)) (ho : EitherOrder env.orderEach)
    (hq : ∀ obj acts, (func factory none obj acts).out = .throws .success ∨
      (func factory none obj acts).out = .throws .discard → (func factory none obj acts).fails = [])
    (fuel a : Nat) (start shrunk : PairTuple.Tup (Two O (List (Act O M)))) (tr : Trace (Two O (List (Act O M))))
    (h : (p.go env fuel []).1 = (.ok (.falsified a start shrunk), tr)) :
    ∃ obj, ShrunkWith env.orderEach start shrunk obj ∧ (func factory none obj (shrunk 1).value).Rejects ∧
      ∃ xs : List (Shr (Act O M)), (start 1).value = xs.map Shr.value ∧ (∀ x ∈ xs, Gen.Makes p.actionGen x) ∧
        (((func factory none obj []).Rejects ∧ (shrunk 1).value = []) ∨
         ∃ pre x post A B y, xs = pre ++ x :: post ∧ func factory none obj (pre.map Shr.value) = ⟨[], .ok true⟩ ∧
          (func factory none obj (pre.map Shr.value ++ [x.value])).Rejects ∧ List.Sublist A pre ∧
          List.Forall₂ Reach A B ∧ Reach x y ∧ (shrunk 1).value = B ++ [y]) := by
  obtain ⟨obj, h1, h2, xs, h3, h4, h5⟩ := last_action env.R p.actionGen rfl hc ho (f := func factory none)
    (fun tr args => by simp [Prop'.config, hp, hpost, callFactory]) hq (fun o ys zs => func_prefix factory o) fuel _ a
    start shrunk tr h
  refine ⟨obj, h1, h2, xs, h3, h4, ?_⟩
  rcases h5 with h5 | ⟨pre, x, post, A, B, y, e1, e2, e3, e4⟩
  · exact .inl h5
  · refine .inr ⟨pre, x, post, A, B, y, e1, ?_, e3, e4⟩
    unfold func at e2 e3 ⊢
    simp only [runActions_append, andThen_assoc] at e2 e3 ⊢
    simp only [← andThen_assoc] at e2 e3 ⊢
    exact settled e2 (by simpa only [andThen_assoc] using e3)

/-- The same for the class style, which has no post check: there an action whose precondition does not hold returns
without being run. -/
theorem C168_class_last_action_partial (env : Env σ O (List (ClassAct O M))) (initialGen : Gen σ O)
    (factory : O → Ev (O × M)) (actionGen : Gen σ (ClassAct O M)) (numRuns maxMs : Nat)
    (hc : Setting (classConfig env initialGen factory actionGen numRuns maxMs)) (ho : EitherOrder env.orderEach)
    (hq : ∀ obj acts, (classFunc factory obj acts).out = .throws .success ∨
      (classFunc factory obj acts).out = .throws .discard → (classFunc factory obj acts).fails = [])
    (fuel : Nat) (seed : σ) (a : Nat) (start shrunk : PairTuple.Tup (Two O (List (ClassAct O M))))
    (tr : Trace (Two O (List (ClassAct O M))))
    (h : forAll (classConfig env initialGen factory actionGen numRuns maxMs) fuel seed [] =
      (.ok (.falsified a start shrunk), tr)) :
    ∃ obj, ShrunkWith env.orderEach start shrunk obj ∧ (classFunc factory obj (shrunk 1).value).Rejects ∧
      ∃ xs : List (Shr (ClassAct O M)), (start 1).value = xs.map Shr.value ∧ (∀ x ∈ xs, Gen.Makes actionGen x) ∧
        (((classFunc factory obj []).Rejects ∧ (shrunk 1).value = []) ∨
         ∃ pre x post A B y, xs = pre ++ x :: post ∧ classFunc factory obj (pre.map Shr.value) = ⟨[], .ok true⟩ ∧
          (classFunc factory obj (pre.map Shr.value ++ [x.value])).Rejects ∧ List.Sublist A pre ∧
          List.Forall₂ Reach A B ∧ Reach x y ∧ (shrunk 1).value = B ++ [y]) := by
  obtain ⟨obj, h1, h2, xs, h3, h4, h5⟩ := last_action env.R actionGen rfl hc ho (f := classFunc factory)
    (fun tr args => rfl) hq (fun o ys zs => classFunc_prefix factory o) fuel _ a start shrunk tr h
  refine ⟨obj, h1, h2, xs, h3, h4, ?_⟩
  rcases h5 with h5 | ⟨pre, x, post, A, B, y, e1, e2, e3, e4⟩
  · exact .inl h5
  · refine .inr ⟨pre, x, post, A, B, y, e1, ?_, e3, e4⟩
    unfold classFunc at e2 e3 ⊢
    simp only [runClassActions_append, andThen_assoc] at e2 e3 ⊢
    simp only [← andThen_assoc] at e2 e3 ⊢
    exact settled e2 (by simpa only [andThen_assoc] using e3)

/-! A test with four actions. The object is a state with the number of the last action that ran. -/

/-- what action `n` does in state `o`; `none` is a failed assertion -/
def stepOf : Nat → Nat → Option Nat
  | 0, _ => some 1
  | 1, o => some (if o = 1 then 2 else o)
  | 2, o => if o = 1 then none else some (if o = 2 then 3 else o)
  | _, o => if o = 3 then none else some o

/-- the action -/
def actOf (n : Nat) : Act (Nat × Nat) Unit := fun o m =>
  match stepOf n o.1 with
  | some o' => ⟨[], .ok ((o', n), m)⟩
  | none => ⟨[], .throws .assertFailed⟩

/-- an environment in which the size of the list and the actions come from a list of numbers -/
def fourEnv (drawn : List Int) : Env (List Int) (Nat × Nat) (List (Act (Nat × Nat) Unit)) where
  R := script
  seeded := fun _ => drawn
  globalSeed := 0
  defaultNumRuns := 1
  defaultMaxDurationMs := 0
  orderRun := [0, 1]
  orderShrink := [0, 1]
  orderEach := [0, 1]
  thrown := id
  clock := fun _ => 0

/-- the test, starting in state 0 -/
def fourTest : Prop' (List Int) (Nat × Nat) Unit :=
  Prop'.new (fun s => .ok (Shr.leaf (0, 9), s)) (fun o => ⟨[], .ok (o, ())⟩)
    (fun s => .ok (Shr.leaf (actOf (s.headD 0).toNat), s.tail))

/-- the number of an action -/
def numberOf (a : Act (Nat × Nat) Unit) : Nat :=
  match (a (99, 9) ()).out with
  | .ok ((_, n), _) => n
  | _ => 99

/-- what a run shows: the drawn actions, the reported ones, and what the first `k` reported ones do -/
def fourSeen (k : Nat) (r : Outcome (Report (Two (Nat × Nat) (List (Act (Nat × Nat) Unit)))) ×
    Trace (Two (Nat × Nat) (List (Act (Nat × Nat) Unit)))) : Option (Nat × List Nat × List Nat × Outcome Bool) :=
  match r.1 with
  | .ok (.falsified a s t) => some (a, List.map numberOf (s 1).value, List.map numberOf (t 1).value,
      (func (fun o => ⟨[], .ok (o, ())⟩) none (t 0).value (List.take k (t 1).value)).out)
  | _ => none

/-- C168 fails in general: the four actions 0, 1, 2, 3 are drawn and 0, 2, 3 are reported, although 0, 2 alone fails. -/
theorem C168_violated : ∃ (start shrunk : PairTuple.Tup (Two (Nat × Nat) (List (Act (Nat × Nat) Unit)))) (a : Nat)
    (tr : Trace (Two (Nat × Nat) (List (Act (Nat × Nat) Unit)))),
    (fourTest.go (fourEnv [4, 0, 1, 2, 3]) 50 []).1 = (.ok (.falsified a start shrunk), tr) ∧
    List.map numberOf (start 1).value = [0, 1, 2, 3] ∧ List.map numberOf (shrunk 1).value = [0, 2, 3] ∧
    ∃ ws, List.Sublist ws (shrunk 1).value ∧ ws ≠ (shrunk 1).value ∧
      (func (fun o => ⟨[], .ok (o, ())⟩) none (shrunk 0).value ws).Rejects := by
  have key : fourSeen 2 (fourTest.go (fourEnv [4, 0, 1, 2, 3]) 50 []).1 =
      some (1, [0, 1, 2, 3], [0, 2, 3], .throws .assertFailed) := by decide +kernel
  generalize (fourTest.go (fourEnv [4, 0, 1, 2, 3]) 50 []).1 = r at key ⊢
  obtain ⟨r, tr⟩ := r
  unfold fourSeen at key
  split at key
  · rename_i a s t hr
    simp only at hr
    subst hr
    simp only [Option.some.injEq, Prod.mk.injEq] at key
    obtain ⟨-, h1, h2, h3⟩ := key
    refine ⟨s, t, a, tr, rfl, h1, h2, List.take 2 (t 1).value, List.take_sublist _ _, ?_, .inr (.inl ⟨_, h3, rfl⟩)⟩
    intro h
    have h4 : ∀ l : List (Act (Nat × Nat) Unit), List.map numberOf l = [0, 2, 3] → List.take 2 l ≠ l := by
      intro l hl hl'
      have h5 := congrArg List.length hl
      have h6 := congrArg List.length hl'
      simp at h5 h6
      omega
    exact h4 _ h2 h
  · cases key

/-- The hypotheses of `C168_last_action_partial` hold for this test. -/
example : fourTest.modelFactory = some (fun o => ⟨[], .ok (o, ())⟩) ∧ fourTest.postCheck = none ∧
    EitherOrder (fourEnv [4, 0, 1, 2, 3]).orderEach ∧ Setting (fourTest.config (fourEnv [4, 0, 1, 2, 3])) :=
  ⟨rfl, rfl, .inl rfl,
   { quiet := ⟨fun k h => by simp [Prop'.config, fourTest, Prop'.new] at h, fun k h => by simp [Prop'.config] at h⟩
     order := rfl
     nodup := by simp [Prop'.config, fourEnv]
     gens := fun s => by
       obtain ⟨r, hr⟩ := Gen.drawTuple_total (fourTest.config (fourEnv [4, 0, 1, 2, 3])).gens
         (fourTest.config (fourEnv [4, 0, 1, 2, 3])).orderRun
         (by intro i; match i with | 0 => decide | 1 => decide)
         (by intro i s; match i with
             | 0 => exact ⟨_, rfl⟩
             | 1 => exact C27_vector_total (fourEnv [4, 0, 1, 2, 3]).R fourTest.actionGen 0 200 (by omega) (by omega)
                     (fun s => ⟨_, rfl⟩) s) s
       rw [hr]; simp }⟩

/-- an action that adds one and fails if the object has become 3 -/
def bump : ClassAct Nat Unit := ⟨fun _ _ => ⟨[], .ok true⟩, fun o m => ⟨[], .ok (decide (o < 2), o + 1, m)⟩⟩

/-- A test of the class style that draws such actions only. Five actions are drawn, three are reported. -/
def countTest : Cfg (List Int) (Two Nat (List (ClassAct Nat Unit))) :=
  classConfig ⟨script, fun _ => [], 0, 1, 0, [0, 1], [0, 1], [1, 0], id, fun _ => 0⟩ (fun s => .ok (Shr.leaf 0, s))
    (fun o => ⟨[], .ok (o, ())⟩) (fun s => .ok (Shr.leaf bump, s)) 3 0

example : seen (forAll countTest 50 [5] []) = (.ok false, some (5, 3), [5], [0, 2, 3, 1, 2, 2]) := by decide +kernel

private theorem bump_run (n : Nat) : ∀ o : Nat, (classFunc (fun o => ⟨[], .ok (o, ())⟩) o (List.replicate n bump)).Rejects ↔
    n ≠ 0 ∧ 3 ≤ o + n := by
  induction n with
  | zero => intro o; simp [classFunc, andThen, runClassActions, Ev.Rejects]
  | succ n ih =>
    intro o
    by_cases ho : o < 2
    · have := ih (o + 1)
      have e : classFunc (fun o => ⟨[], .ok (o, ())⟩) o (List.replicate (n + 1) bump) =
          classFunc (fun o => ⟨[], .ok (o, ())⟩) (o + 1) (List.replicate n bump) := by
        rw [List.replicate_succ]
        simp [classFunc, andThen, runClassActions, bump, ho]
      rw [e, this]
      omega
    · rw [List.replicate_succ]
      simp [classFunc, andThen, runClassActions, bump, ho, Ev.Rejects, Exn.isStd]
      omega

/-- Its failure persists when drawn actions are added, as `C168_class_minimal_partial` requires. -/
example (obj : Nat) (ys zs : List (ClassAct Nat Unit)) (h : List.Sublist ys zs)
    (hz : ∀ z ∈ zs, Drawn (fun s : List Int => .ok (Shr.leaf bump, s)) z)
    (hr : (classFunc (fun o => ⟨[], .ok (o, ())⟩) obj ys).Rejects) :
    (classFunc (fun o => ⟨[], .ok (o, ())⟩) obj zs).Rejects := by
  have hb : ∀ z ∈ zs, z = bump := fun z hz' => by
    obtain ⟨x, ⟨s, s', h1⟩, rfl⟩ := hz z hz'
    cases h1
    rfl
  have e1 := List.eq_replicate_of_mem hb
  have e2 := List.eq_replicate_of_mem fun y hy => hb y (h.subset hy)
  rw [e2, bump_run] at hr
  rw [e1, bump_run]
  have := h.length_le
  omega

end Stateful
end Verif
