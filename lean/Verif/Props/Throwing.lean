import Verif.Lemmas.Throwing
import Verif.Lemmas.BinSearch
import Verif.Props.Property
/-
C150: what becomes of a failure when functions given to generators throw while shrinks are explored.
-/
namespace Verif
namespace Throwing
open Engine PairTuple
variable {n : Nat} {A : Fin n → Type} {σ α β : Type}

/-- A property of one number; the generator counts, its shrinkables are given. -/
def ldemo (tree : Nat → Lazy Nat) (f : Nat → Ev Bool) (runs : Nat) : LCfg Nat (fun _ : Fin 1 => Nat) where
  set := demo (fun k => strip (tree k)) f runs
  gens := fun _ s => .ok (tree s, s + 1)
  orderGet := [0]

theorem ldemo_draw (tree : Nat → Lazy Nat) (f : Nat → Ev Bool) (runs s : Nat) :
    Gen.drawTuple (ldemo tree f runs).gens [0] s = .ok ((fun _ => tree s), s + 1) := by
  unfold Gen.drawTuple
  simp only [ldemo, Gen.drawInto, Outcome.ok_bind]
  rw [dif_pos (by intro i; obtain rfl : i = 0 := Subsingleton.elim _ _; rfl)]
  congr 2
  funext i
  obtain rfl : i = 0 := Subsingleton.elim _ _
  rfl

theorem ldemo_draws {tree : Nat → Lazy Nat} {f : Nat → Ev Bool} {runs : Nat} {ts : LTup (fun _ : Fin 1 => Nat)}
    (h : (ldemo tree f runs).Draws ts) : ∃ k, ts = fun _ => tree k := by
  obtain ⟨s, r, h⟩ := h
  have h' := (ldemo_draw tree f runs s).symm.trans h
  cases h'
  exact ⟨s, rfl⟩

/-! ### When nothing throws -/

/-- If no function throws while shrinks are explored, then it does not matter that shrinks are evaluated on demand:
`forAll` does what the theorems about `forAll` (C43 and following) say. -/
theorem C150_nothing_thrown (c : LCfg σ A) (h : ∀ ts, c.Draws ts → ∀ i, Calm (ts i)) (fuel : Nat) (seed : σ)
    (tr : Trace A) : forAll c fuel seed tr = Engine.forAll c.cfg fuel seed tr := by
  rcases forAll_agrees c (fun o => o = .ok ()) (fun ts hts i o ho => h ts hts i o ho) (by simp) (by simp) fuel seed tr
    with h | ⟨⟨o, ho, ho'⟩, _⟩
  · exact h
  · exact absurd ho ho'

/-- 3, 2, 1, 0 one after the other; nothing throws -/
example : shown (forAll (ldemo (fun k => if k = 1 then calm chain3 else calm (Shr.leaf k)) (fun v => returns (v = 0)) 4)
    5 0 []) = (.ok false, some (2, 3, 1), [0, 3], [2, 1, 0]) := by decide +kernel

/-- Mapping with a function that does not throw gives the mapped tree. -/
theorem C150_map (f : α → Outcome β) (g : α → β) (t : Shr α) (h : ∀ v ∈ t.values, f v = .ok (g v)) :
    mapE f (calm t) = .ok (calm (t.map g)) ∧ Calm (calm (t.map g)) := by
  refine ⟨mapE_calm f g t h, ?_⟩
  rintro o ⟨v, hv, rfl⟩
  rw [calm, Shr.values_map, List.mem_map] at hv
  obtain ⟨w, _, rfl⟩ := hv
  rfl

example : (∀ v ∈ chain3.values, (fun v => if v < 4 then .ok (v + 1) else .throws .discard : Nat → Outcome Nat) v =
    .ok (v + 1)) ∧ (chain3.map (· + 1)).values = [4, 3, 2, 1] := by decide +kernel

/-! ### When something throws -/

/-- If no function throws Discard or Success while shrinks are explored, then `forAll` returns true only if it would
return true without the exceptions, with the same calls of the property function; and whenever both return, they
return the same. -/
theorem C150_other_exceptions_partial (c : LCfg σ A)
    (h : ∀ ts, c.Draws ts → ∀ i, ¬ Stops (ts i) (.throws .discard) ∧ ¬ Stops (ts i) (.throws .success)) (fuel : Nat)
    (seed : σ) (tr tr' : Trace A) (R : Report A) (hR : forAll c fuel seed tr = (.ok R, tr')) :
    (R.verdict = true → Engine.forAll c.cfg fuel seed tr = (.ok R, tr')) ∧
    ∀ R0, (Engine.forAll c.cfg fuel seed tr).1 = .ok R0 → R0.verdict = R.verdict := by
  have hg := forAll_agrees c (fun o => o ≠ .throws .discard ∧ o ≠ .throws .success)
    (fun ts hts i o ho => ⟨fun e => (h ts hts i).1 (e ▸ ho), fun e => (h ts hts i).2 (e ▸ ho)⟩) (by simp) (by simp)
    fuel seed tr
  rw [hR] at hg
  rcases hg with hg | ⟨_, h1, h2⟩
  · rw [← hg]
    exact ⟨fun _ => rfl, fun R0 h0 => by cases h0; rfl⟩
  · have hv := h1 R rfl
    exact ⟨fun h => (by rw [hv] at h; cases h), fun R0 h0 => by rw [h2 R0 h0, hv]⟩

/-- the shrink 2 is found, exploring further throws; the property fails for all numbers from 1 on -/
def tree2 : Lazy Nat := .node (3, .ok ()) [.node (2, .throws .runtimeError) []]

example : ∀ k, ¬ Stops (if k = 1 then tree2 else calm (Shr.leaf k)) (.throws .discard) ∧
    ¬ Stops (if k = 1 then tree2 else calm (Shr.leaf k)) (.throws .success) := by
  intro k
  by_cases h : k = 1
  · rw [if_pos h]
    constructor <;> · rintro ⟨v, hv, h⟩; simp [tree2, Shr.values, Shr.valuesList] at hv; rcases hv with rfl | rfl <;> simp at h
  · rw [if_neg h]
    constructor <;> · rintro ⟨v, hv, h⟩; simp [calm, Shr.leaf, Shr.valuesList] at hv; simp [hv] at h
example : shown (forAll (ldemo (fun k => if k = 1 then tree2 else calm (Shr.leaf k)) (fun v => returns (v = 0)) 4)
    5 0 []) = (.ok false, some (2, 2, 2), [0, 3], [2]) := by decide +kernel

/-- `map` applies the function to the first shrink when `shrinks()` is called: an exception for it comes out of
`shrinks()`. -/
theorem C150_map_first (f : α → Outcome β) (v u : α) (us rest : List (Shr α)) (b : β) (e : Exn) (hv : f v = .ok b)
    (hu : f u = .throws e) :
    ∃ t, mapE f (calm (.node v (.node u us :: rest))) = .ok t ∧ t.value.1 = b ∧ opens t = .throws e := by
  refine ⟨.node (b, .throws e) [], ?_, rfl, rfl⟩
  rw [calm_node, List.map_cons, calm_node, mapE]
  simp only [hv]
  rw [mapEList, mapE]
  simp only [hu]

private theorem mapEList_stops (f : α → Outcome β) (u : α) (us rest : List (Shr α)) (e : Exn) (hu : f u = .throws e) :
    ∀ pre : List (Shr α), (∀ p ∈ pre, ∃ b, f p.value = .ok b) →
      (mapEList f (.ok ()) ((pre ++ .node u us :: rest).map calm)).2 = .throws e ∧
      (mapEList f (.ok ()) ((pre ++ .node u us :: rest).map calm)).1.map (fun t => .ok t.value.1) =
        pre.map fun p => f p.value
  | [], _ => by
    rw [List.nil_append, List.map_cons, calm_node, mapEList, mapE]
    simp [hu]
  | .node v vs :: pre, h => by
    obtain ⟨b, hb⟩ := h (.node v vs) (List.mem_cons_self ..)
    obtain ⟨h1, h2⟩ := mapEList_stops f u us rest e hu pre fun p hp => h p (List.mem_cons_of_mem _ hp)
    change f v = .ok b at hb
    rw [List.cons_append, List.map_cons, calm_node, mapEList, mapE]
    simp only [hb]
    exact ⟨h1, by rw [List.map_cons, List.map_cons, h2]; exact congrArg (· :: _) hb.symm⟩

/-- An exception for a later shrink comes out when the shrink before it has been taken from the stream: all shrinks up to
there are offered, none after it. -/
theorem C150_map_later (f : α → Outcome β) (v u : α) (us rest pre : List (Shr α)) (b : β) (e : Exn) (hv : f v = .ok b)
    (hp : ∀ p ∈ pre, ∃ b, f p.value = .ok b) (hu : f u = .throws e) :
    ∃ t, mapE f (calm (.node v (pre ++ .node u us :: rest))) = .ok t ∧ t.value = (b, .throws e) ∧
      t.shrinks.map (fun t => .ok t.value.1) = pre.map fun p => f p.value := by
  obtain ⟨h1, h2⟩ := mapEList_stops f u us rest e hu pre hp
  refine ⟨.node (b, .throws e) (mapEList f (.ok ()) ((pre ++ .node u us :: rest).map calm)).1, ?_, rfl, h2⟩
  rw [calm_node, mapE]
  simp only [hv, h1]

/-- Of the shrinks 1, 2, 3 of 4, with a function that throws for 2, only the first is offered. -/
example :
    (match mapE (fun v : Nat => if v = 2 then (.throws .discard : Outcome Nat) else .ok (v * 10))
        (calm (.node 4 [Shr.leaf 1, Shr.leaf 2, Shr.leaf 3])) with
      | .ok t => some (t.value, t.shrinks.map fun t => t.value.1)
      | _ => none) = some ((40, .throws .discard), [10]) := by
  decide +kernel

/-- 0 is the first shrink of any other integer, so a function that throws for 0 makes all shrinks of the integers
unavailable. -/
theorem C150_map_integer_violated (f : Int → Outcome β) (e : Exn) (h0 : f 0 = .throws e) (v : Int) (b : β) (hv : f v = .ok b)
    (t : Shr Int) (ht : BinSearch.binarySearchShrinkable v = .ok t) :
    ∃ t', mapE f (calm t) = .ok t' ∧ t'.value.1 = b ∧ opens t' = .throws e := by
  have hne : v ≠ 0 := by rintro rfl; rw [h0] at hv; cases hv
  have key : ∀ o : Outcome (List (Shr Int)), (do let rest ← o; pure ((Shr.leaf v).withShrinks ([Shr.leaf 0] ++ rest))) =
      .ok t → ∃ rest, t = .node v (.node 0 [] :: rest) := by
    intro o h
    cases o with
    | ok rest => cases h; exact ⟨rest, rfl⟩
    | throws e => cases h
    | ub => cases h
    | diverges => cases h
  obtain ⟨rest, rfl⟩ : ∃ rest, t = .node v (.node 0 [] :: rest) := by
    unfold BinSearch.binarySearchShrinkable BinSearch.tree at ht
    rw [if_neg hne] at ht
    split at ht
    · exact key _ ht
    · exact key _ ht
  exact C150_map_first f v 0 [] rest b e hv h0

/-- division of 100, discarding 0 -/
def divides (v : Int) : Outcome Int := if v = 0 then .throws .discard else .ok (100 / v)

example : divides 0 = .throws .discard ∧ divides 5 = .ok 20 ∧
    (match BinSearch.binarySearchShrinkable 5 with
      | .ok t => t.shrinks.map Shr.value
      | _ => []) = [0, 2, 3, 4] := by decide +kernel

/-- If the first exploration of shrinks always throws, `forAll` never returns false: no failure is ever reported,
whatever the property function does. -/
theorem C150_never_false_violated (c : LCfg σ A)
    (h : ∀ ts, c.Draws ts → ∃ e, getShrinks ts c.orderGet = .throws e) (fuel : Nat) (seed : σ) (tr : Trace A)
    (R : Report A) (hR : (forAll c fuel seed tr).1 = .ok R) : R.verdict = true := by
  unfold forAll runForAll Eng.withContext Eng.catchStd Eng.tryCatch at hR
  simp only at hR
  generalize ({ rand := seed, saved := seed, i := 0, fails := [], trace := tr } : St σ A) = s at hR
  cases hm : forLoop c fuel c.set.numRuns s with
  | mk o s1 =>
    rw [hm] at hR
    cases o with
    | ok R' =>
      cases hR
      exact forLoop_not_false c h fuel c.set.numRuns s R (by rw [hm])
    | throws e =>
      simp only at hR
      split at hR
      · exact absurd hR (shrink_not_ok c h _ R)
      · cases hR
    | _ => cases hR

/-- fails by an assertion -/
example : shown (forAll (ldemo (fun k => .node (k, .throws .discard) []) (fun v => if v < 2 then returns true else
    raises .assertFailed) 9) 5 0 []) = (.throws .discard, none, [0, 1, 2], []) := by decide +kernel

/-- If the property function returns false for all arguments, and the first exploration of shrinks always throws `e`:
for Success, `forAll` returns true although all calls returned false. -/
theorem C150_success_violated (c : LCfg σ A) (hq : c.cfg.Quiet) (hord : c.set.orderShrink = c.set.orderRun)
    (hf : ∀ tr a, c.set.func tr a = ⟨[], .ok false⟩) (ht : c.set.maxDurationMs = 0)
    (hd : ∀ s, ∃ ts r, Gen.drawTuple c.gens c.set.orderRun s = .ok (ts, r) ∧ getShrinks ts c.orderGet = .throws .success)
    (fuel : Nat) (seed : σ) :
    ∃ tr, forAll c (fuel + 1) seed [] = (.ok .passed, tr) ∧ (calls .run tr).length = c.set.numRuns ∧
      ∀ x ∈ calls .run tr, x.2 = ⟨[], .ok false⟩ := by
  have key : ∀ left (s : St σ A), ∃ s', forLoop c (fuel + 1) left s = (.ok .passed, s') ∧
      ∃ new, calls .run s'.trace = calls .run s.trace ++ new ∧ new.length = left ∧ ∀ x ∈ new, x.2 = ⟨[], .ok false⟩ := by
    intro left
    induction left with
    | zero => exact fun s => ⟨s, rfl, [], by simp, rfl, by simp⟩
    | succ left ih =>
      intro s
      obtain ⟨ts, r, h1, h2⟩ := hd s.rand
      obtain ⟨s1, e1, -, -, -, -, e2, -⟩ := attempt_throws hq hord s h1 (fun tr => hf tr _) h2
      obtain ⟨s2, e3, new, e4, e5, e6⟩ := ih { s1 with i := s1.i + 1 }
      refine ⟨s2, ?_, (Tup.get (stripT ts), ⟨[], .ok false⟩) :: new, ?_, ?_, ?_⟩
      · unfold forLoop
        rw [Eng.bind_apply]
        simp only [Eng.reads]
        rw [if_neg (by rw [ht]; simp), Eng.bind_apply]
        unfold doWhile
        rw [Eng.bind_apply]
        unfold guarded Eng.tryCatch
        rw [e1]
        simp only [if_true, Eng.pure_apply]
        rw [Eng.bind_apply]
        exact e3
      · rw [e4]
        show calls .run s1.trace ++ new = _
        rw [e2]
        simp
      · simp [e5]
      · intro x hx
        rcases List.mem_cons.mp hx with rfl | hx
        · rfl
        · exact e6 x hx
  obtain ⟨s', e1, new, e2, e3, e4⟩ := key c.set.numRuns ⟨seed, seed, 0, [], []⟩
  have e2' : calls .run s'.trace = new := by rw [e2]; simp [calls]
  refine ⟨s'.trace, ?_, by rw [e2']; exact e3, by rw [e2']; exact e4⟩
  unfold forAll runForAll Eng.withContext Eng.catchStd Eng.tryCatch
  simp only
  rw [e1]

/-- every number, the first shrink of which throws `e` -/
def hard (e : Exn) (k : Nat) : Lazy Nat := .node (k, .throws e) []

example : ∀ s, ∃ ts r, Gen.drawTuple (ldemo (hard .success) (fun _ => returns false) 3).gens [0] s = .ok (ts, r) ∧
    getShrinks ts [0] = .throws .success := fun s => ⟨_, _, ldemo_draw _ _ _ s, rfl⟩
example : shown (forAll (ldemo (hard .success) (fun _ => returns false) 3) 5 0 []) = (.ok true, none, [0, 1, 2], []) := by
  decide +kernel

/-- The same for Discard: `forAll` draws new arguments and calls the property function forever. -/
theorem C150_discard_violated (c : LCfg σ A) (hq : c.cfg.Quiet) (hord : c.set.orderShrink = c.set.orderRun)
    (hf : ∀ tr a, c.set.func tr a = ⟨[], .ok false⟩) (ht : c.set.maxDurationMs = 0) (hn : 0 < c.set.numRuns)
    (hd : ∀ s, ∃ ts r, Gen.drawTuple c.gens c.set.orderRun s = .ok (ts, r) ∧ getShrinks ts c.orderGet = .throws .discard)
    (fuel : Nat) (seed : σ) :
    ∃ tr, forAll c fuel seed [] = (.diverges, tr) ∧ (calls .run tr).length = fuel ∧
      ∀ x ∈ calls .run tr, x.2 = ⟨[], .ok false⟩ := by
  have key : ∀ fuel (s : St σ A), ∃ s', doWhile c fuel s = (.diverges, s') ∧
      ∃ new, calls .run s'.trace = calls .run s.trace ++ new ∧ new.length = fuel ∧ ∀ x ∈ new, x.2 = ⟨[], .ok false⟩ := by
    intro fuel
    induction fuel with
    | zero => exact fun s => ⟨s, rfl, [], by simp, rfl, by simp⟩
    | succ fuel ih =>
      intro s
      obtain ⟨ts, r, h1, h2⟩ := hd s.rand
      obtain ⟨s1, e1, -, -, -, -, e2, -⟩ := attempt_throws hq hord s h1 (fun tr => hf tr _) h2
      obtain ⟨s2, e3, new, e4, e5, e6⟩ := ih s1
      refine ⟨s2, ?_, (Tup.get (stripT ts), ⟨[], .ok false⟩) :: new, ?_, ?_, ?_⟩
      · unfold doWhile
        rw [Eng.bind_apply]
        unfold guarded Eng.tryCatch
        rw [e1]
        simp only [if_true, Eng.pure_apply]
        rw [if_neg (by decide)]
        simp only [Eng.pure_apply]
        exact e3
      · rw [e4, e2]
        simp
      · simp [e5]
      · intro x hx
        rcases List.mem_cons.mp hx with rfl | hx
        · rfl
        · exact e6 x hx
  obtain ⟨s', e1, new, e2, e3, e4⟩ := key fuel ⟨seed, seed, 0, [], []⟩
  have e2' : calls .run s'.trace = new := by rw [e2]; simp [calls]
  refine ⟨s'.trace, ?_, by rw [e2']; exact e3, by rw [e2']; exact e4⟩
  unfold forAll runForAll Eng.withContext Eng.catchStd Eng.tryCatch
  obtain ⟨k, hk⟩ := Nat.exists_eq_succ_of_ne_zero (Nat.pos_iff_ne_zero.mp hn)
  simp only
  rw [hk]
  unfold forLoop
  rw [Eng.bind_apply]
  simp only [Eng.reads]
  rw [if_neg (by rw [ht]; simp), Eng.bind_apply, e1]

example : shown (forAll (ldemo (hard .discard) (fun _ => returns false) 3) 5 0 []) =
    (.diverges, none, [0, 1, 2, 3, 4], []) := by decide +kernel

/-- The same for any other exception: it leaves `forAll`, after the first run. -/
theorem C150_escapes_violated (c : LCfg σ A) (hq : c.cfg.Quiet) (hord : c.set.orderShrink = c.set.orderRun)
    (hf : ∀ tr a, c.set.func tr a = ⟨[], .ok false⟩) (ht : c.set.maxDurationMs = 0) (hn : 0 < c.set.numRuns) (e : Exn)
    (he : e ≠ .success ∧ e ≠ .discard)
    (hd : ∀ s, ∃ ts r, Gen.drawTuple c.gens c.set.orderRun s = .ok (ts, r) ∧ getShrinks ts c.orderGet = .throws e)
    (fuel : Nat) (seed : σ) : (forAll c (fuel + 1) seed []).1 = .throws e := by
  obtain ⟨ts, r, h1, h2⟩ := hd seed
  obtain ⟨s1, e1, -, -, -, -, -, -⟩ := attempt_throws hq hord ⟨seed, seed, 0, [], []⟩ h1 (fun tr => hf tr _) h2
  obtain ⟨ts', r', h1', h2'⟩ := hd s1.saved
  unfold forAll runForAll Eng.withContext Eng.catchStd Eng.tryCatch
  simp only
  rw [forLoop_throws ht hn he e1]
  simp only
  split
  · rw [shrink_apply, hord, h1']
    simp only
    rw [h2']
  · rfl

example : shown (forAll (ldemo (hard .runtimeError) (fun _ => returns false) 3) 5 0 []) =
    (.throws .runtimeError, none, [0], []) := by decide +kernel

/-- A `std::exception` thrown by the first exploration of shrinks makes `forAll` draw new arguments and report these,
although the property function was never called with them. -/
theorem C150_other_arguments_violated (c : LCfg σ A) (hq : c.cfg.Quiet) (hord : c.set.orderShrink = c.set.orderRun)
    (ht : c.set.maxDurationMs = 0) (hn : 0 < c.set.numRuns) (e : Exn)
    (he : e ≠ .success ∧ e ≠ .discard ∧ e.isStd = true) (fuel : Nat) (seed r r2 : σ) (ts ts2 : LTup A)
    (hd : Gen.drawTuple c.gens c.set.orderRun seed = .ok (ts, r))
    (hf : ∀ tr, c.set.func tr (Tup.get (stripT ts)) = ⟨[], .ok false⟩)
    (hg : getShrinks ts c.orderGet = .throws e)
    (hd2 : Gen.drawTuple c.gens c.set.orderRun r = .ok (ts2, r2))
    (hl : ∀ i, ts2 i = .node ((ts2 i).value.1, .ok ()) []) :
    ∃ tr, forAll c (fuel + 1) seed [] = (.ok (.falsified 1 (stripT ts2) (stripT ts2)), tr) ∧
      calls .run tr = [(Tup.get (stripT ts), ⟨[], .ok false⟩)] ∧ calls .shrink tr = [] := by
  obtain ⟨s1, e1, -, e2, e3, -, e4, e5⟩ := attempt_throws hq hord ⟨seed, seed, 0, [], []⟩ hd hf hg
  refine ⟨s1.trace, ?_, by simpa [calls] using e4, by simpa [calls] using e5⟩
  unfold forAll runForAll Eng.withContext Eng.catchStd Eng.tryCatch
  simp only
  rw [forLoop_throws ht hn ⟨he.1, he.2.1⟩ e1]
  simp only
  rw [if_pos he.2.2, shrink_apply, hord, e2, hd2]
  simp only
  rw [getShrinks_leaves ts2 hl, shrinkEach_leaves c _ ts2 _ (fun i => by rw [hl i]; rfl), e3]

/-- only 1 fails, its first shrink throws; 2 is reported -/
example : shown (forAll (ldemo (fun k => if k = 1 then hard .runtimeError 1 else calm (Shr.leaf k))
    (fun v => returns (v ≠ 1)) 9) 5 1 []) = (.ok false, some (1, 2, 2), [1], []) := by decide +kernel

/-- A shrink that can be produced is not tried if exploring the next one throws: the exception comes first. -/
theorem C150_neighbour_violated (c : LCfg σ A) (s : St σ A) (ts : LTup A) (r : σ) (N : Fin n) (rest : List (Fin n))
    (v : A N) (x : Lazy (A N)) (e : Exn) (hd : Gen.drawTuple c.gens c.set.orderShrink s.saved = .ok (ts, r))
    (hg : getShrinks ts c.orderGet = .ok ()) (ho : c.set.orderEach = N :: rest)
    (hN : ts N = .node (v, .throws e) [x]) :
    shrink c s = (.throws e, { s with saved := r }) := by
  rw [shrink_apply, hd]
  simp only
  rw [hg]
  simp only
  rw [ho, shrinkEach, Eng.bind_apply, Eng.mk_apply, hN]
  simp [shrinkN, shrinkNIter, ahead]

/-- the property fails for 3 and for its shrink 2, behind which exploring throws: 2 is not tried -/
example : shown (forAll (ldemo (fun k => if k = 1 then .node (3, .throws .runtimeError) [hard .discard 2]
    else hard .runtimeError k) (fun v => returns (v < 2)) 9) 5 0 []) = (.throws .runtimeError, none, [0, 3], []) := by
  decide +kernel

end Throwing
end Verif
