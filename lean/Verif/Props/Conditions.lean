import Verif.Model.Conditions
import Verif.Model.Combinator
import Verif.Lemmas.Throwing
import Verif.Props.Throwing
import Mathlib.Data.List.Sort
/-
C156: a condition given to `filter` may do with its argument what it likes.
-/
namespace Verif
namespace Throwing
open Engine PairTuple
variable {σ α β : Type}

/-- A condition that never throws, with result `p v`, and that leaves `n v` in place of `v`. -/
def Cond.of (p : α → Bool) (n : α → α) : Cond α := fun v => .ok (p v, n v)

private theorem firstShrink_calm (t : Shr α) : firstShrink (calm t) = ((Shr.takeInt 1 t.shrinks).map calm, .ok ()) := by
  rcases t with ⟨v, _ | ⟨x, _ | ⟨y, r⟩⟩⟩ <;> rw [calm_node] <;> rfl

private theorem filterStreamE_of (p : α → Bool) (n : α → α) (l : List (Shr α)) :
    filterStreamE (Cond.of p n) (.ok ()) (l.map calm) =
      ((Shr.filterStream p 1 l).map fun s => .node (n s.value, .ok ()) (s.shrinks.map calm), .ok ()) := by
  have ha : ∀ l : List (Shr α), ahead (.ok ()) (l.map (calm (α := α))) = .ok () := by
    intro l; cases l <;> rfl
  generalize hp : (1 : Int) = tol
  fun_induction Shr.filterStream p tol l with
  | case1 => rw [List.map_nil, filterStreamE]; rfl
  | case2 s ss h ih =>
    rw [List.map_cons, filterStreamE, ha]
    rcases s with ⟨v, cs⟩
    rw [calm_node]
    simp only [Shr.value, Cond.of] at h ⊢
    simp only [h]
    change (_ :: (filterStreamE (Cond.of p n) _ _).1, (filterStreamE (Cond.of p n) _ _).2) = _
    rw [ih]
    rfl
  | case3 s ss h ih =>
    rw [List.map_cons, filterStreamE, ha]
    subst hp
    have hc : Cond.of p n (calm s).value.1 = .ok (false, n s.value) := by
      rcases s with ⟨v, cs⟩
      rw [calm_node]
      simp only [Shr.value, Cond.of] at h ⊢
      simp [h]
    simp only [hc, firstShrink_calm]
    rw [← List.map_append]
    exact ih

private theorem untilThrow_ok (done : Outcome Unit) : ∀ l : List (Lazy α), untilThrow done (l.map .ok) = (l, done)
  | [] => rfl
  | u :: l => by rw [List.map_cons, untilThrow, untilThrow_ok done l]

private theorem filterStream_sat {p : α → Bool} {tol : Int} {l : List (Shr α)} {s : Shr α}
    (h : s ∈ Shr.filterStream p tol l) : p s.value = true := by
  fun_induction Shr.filterStream p tol l with
  | case1 => simp at h
  | case2 t ts ht ih =>
    rcases List.mem_cons.mp h with rfl | h
    · exact ht
    · exact ih h
  | case3 t ts ht ih => exact ih h

private theorem filterE_accepted (c : Cond α) (t : Lazy α) (v : α) (h : c t.value.1 = .ok (true, v)) :
    filterE c t = .ok (.node
      (v, (untilThrow (filterStreamE c t.value.2 t.shrinks).2 ((filterStreamE c t.value.2 t.shrinks).1.map (filterE c))).2)
      (untilThrow (filterStreamE c t.value.2 t.shrinks).2 ((filterStreamE c t.value.2 t.shrinks).1.map (filterE c))).1) := by
  rw [filterE]
  simp only [h]
  simp

private theorem filterE_of (p : α → Bool) (n : α → α) (h1 : ∀ v, p v = true → p (n v) = true ∧ n (n v) = n v) :
    ∀ (k : Nat) (t : Shr α) (w : α), Shr.nodes t ≤ k → p w = true →
      filterE (Cond.of p n) (.node (w, .ok ()) (t.shrinks.map calm)) =
        .ok (.node (n w, .ok ()) ((Shr.filterTolKept p 1 t).shrinks.map fun s => calm (s.map n)))
  | 0, t, _, hk, _ => by cases t; simp [Shr.nodes] at hk
  | k + 1, t, w, hk, hw => by
    rw [filterE_accepted _ _ (n w) (by simp [Cond.of, hw])]
    change Outcome.ok (Shr.node (n w, (untilThrow (filterStreamE (Cond.of p n) (.ok ()) (t.shrinks.map calm)).2
      ((filterStreamE (Cond.of p n) (.ok ()) (t.shrinks.map calm)).1.map _)).2) (untilThrow (filterStreamE (Cond.of p n) (.ok ())
      (t.shrinks.map calm)).2 ((filterStreamE (Cond.of p n) (.ok ()) (t.shrinks.map calm)).1.map _)).1) = _
    rw [filterStreamE_of]
    simp only [List.map_map]
    have e : (Shr.filterStream p 1 t.shrinks).map
          (filterE (Cond.of p n) ∘ fun s => .node (n s.value, .ok ()) (s.shrinks.map calm)) =
        ((Shr.filterStream p 1 t.shrinks).map fun s => calm ((Shr.filterTolKept p 1 s).map n)).map .ok := by
      rw [List.map_map]
      refine List.map_congr_left fun s hs => ?_
      have hp : p s.value = true := filterStream_sat hs
      have h2 : Shr.nodes s ≤ k := by
        have a := Shr.nodes_lt_of_mem hs
        have b := Shr.nodes_go_filterStream p 1 t.shrinks
        cases t
        simp only [Shr.nodes, Shr.shrinks] at *
        omega
      simp only [Function.comp]
      rw [filterE_of p n h1 k s (n s.value) h2 (h1 _ hp).1, (h1 _ hp).2]
      congr 1
      rcases hs' : Shr.filterTolKept p 1 s with ⟨x, xs⟩
      have hx : x = s.value := by
        have := Shr.value_filterTolKept p 1 s
        rw [hs'] at this
        exact this
      rw [Shr.map_node, calm_node, List.map_map, hx]
      rfl
    rw [e, untilThrow_ok, Shr.shrinks_filterTolKept, List.map_map]
    rfl

/-- **C156** A condition that brings its argument into some normal form, for instance by sorting it, and decides after that: the
generator yields the normal forms of the values that satisfy the condition, and so do the shrinks. With `n` the identity:
a condition that leaves its argument as it is.

Partial: false for other conditions, see the theorems below. -/
theorem C156_normal_form_partial (p : α → Bool) (n : α → α) (h1 : ∀ v, p v = true → p (n v) = true ∧ n (n v) = n v)
    (g : Gen σ α) (fuel : Nat) (s : σ) :
    filterGenE (Cond.of p n) (calmGen g) fuel s = calmGen (Comb.transform (Comb.filter g p fuel) n) s := by
  induction fuel generalizing s with
  | zero => rfl
  | succ fuel ih =>
    rcases hg : g s with ⟨t, s'⟩ | e | _ | _
    · have e1 : calmGen g s = .ok (calm t, s') := by simp only [calmGen, hg]; rfl
      have e2 : Comb.filter g p (fuel + 1) s = if p t.value then (t.filterTol p 1).bind fun u => .ok (u, s') else
          Comb.filter g p fuel s' := by
        rw [Comb.filter, hg]; rfl
      have e3 : filterGenE (Cond.of p n) (calmGen g) (fuel + 1) s = if p t.value then
          (filterE (Cond.of p n) (.node (n t.value, .ok ()) (t.shrinks.map calm))).bind fun u => .ok (u, s')
          else filterGenE (Cond.of p n) (calmGen g) fuel s' := by
        rw [filterGenE, e1]
        rcases t with ⟨v, ss⟩
        rw [calm_node]
        rfl
      rw [e3]
      unfold calmGen Comb.transform
      rw [e2]
      by_cases hp : p t.value = true
      · rw [if_pos hp, if_pos hp, Shr.filterTol, if_pos hp, filterE_of p n h1 _ t (n t.value) (Nat.le_refl _) (h1 _ hp).1,
          (h1 _ hp).2]
        rcases hs' : Shr.filterTolKept p 1 t with ⟨x, xs⟩
        have hx : x = t.value := by
          have := Shr.value_filterTolKept p 1 t
          rw [hs'] at this
          exact this
        show Outcome.ok _ = Outcome.ok (calm ((Shr.node x xs).map n), s')
        rw [Shr.map_node, calm_node, List.map_map, hx]
        rfl
      · rw [if_neg hp, if_neg hp]
        exact (ih s').trans rfl
    · simp only [filterGenE, calmGen, Comb.transform, Comb.filter, hg]; rfl
    · simp only [filterGenE, calmGen, Comb.transform, Comb.filter, hg]; rfl
    · simp only [filterGenE, calmGen, Comb.transform, Comb.filter, hg]; rfl

/-- Lists that are sorted by the condition "not empty after sorting": the sorted list and its shrinks are offered. -/
private def sorting : Cond (List Nat) := Cond.of (fun l => l ≠ []) (fun l => l.insertionSort (· ≤ ·))

private theorem sorting_sorts : ∀ v : List Nat, decide (v ≠ []) = true → decide (v.insertionSort (· ≤ ·) ≠ []) = true ∧
    (v.insertionSort (· ≤ ·)).insertionSort (· ≤ ·) = v.insertionSort (· ≤ ·) := by
  intro v hv
  constructor
  · simp only [ne_eq, decide_eq_true_eq] at hv ⊢
    intro h
    have := (List.perm_insertionSort (· ≤ ·) v).length_eq
    rw [h] at this
    exact hv (List.length_eq_zero_iff.mp this.symm)
  · exact List.Pairwise.insertionSort_eq (List.pairwise_insertionSort (· ≤ ·) v)

example : (match filterGenE sorting
      (calmGen fun s : Nat => .ok (.node [3, 1, 2] [.node [] [], .node [3, 1] [.node [3] []]], s + 1)) 5 0 with
    | .ok (t, s) => some (t.values, s)
    | _ => none) = some ([([1, 2, 3], .ok ()), ([1, 3], .ok ()), ([3], .ok ())], 1) := by
  rw [sorting, C156_normal_form_partial _ _ sorting_sorts]
  decide +kernel

/-- **C156** What a filtered generator yields is what two calls of the condition, which both have accepted it, have left of a value
of the generator. -/
theorem C156_accepted_twice_partial (c : Cond α) (g : Gen σ (α × Outcome Unit)) (fuel : Nat) (s s' : σ) (t : Lazy α)
    (h : filterGenE c g fuel s = .ok (t, s')) :
    ∃ s0 u v, g s0 = .ok (u, s') ∧ c u.value.1 = .ok (true, v) ∧ c v = .ok (true, t.value.1) := by
  induction fuel generalizing s with
  | zero => cases h
  | succ fuel ih =>
    rw [filterGenE] at h
    obtain ⟨⟨u, s1⟩, hg, h⟩ := Outcome.bind_eq_ok.mp h
    obtain ⟨⟨b, v⟩, hc, h⟩ := Outcome.bind_eq_ok.mp h
    cases b with
    | false => exact ih s1 h
    | true =>
      change (filterE c (.node (v, u.value.2) u.shrinks)).bind (fun w => .ok (w, s1)) = _ at h
      obtain ⟨w, hw, h⟩ := Outcome.bind_eq_ok.mp h
      cases h
      refine ⟨s, u, v, hg, hc, ?_⟩
      rw [filterE] at hw
      simp only [Shr.value] at hw ⊢
      split at hw <;> cases hw
      assumption

/-- **C156** is violated by every condition that changes its argument in a way that shows after two calls: the values that the
property gets are not those of the generator. -/
theorem C156_changed_violated (h : α → α) (g : Gen σ (α × Outcome Unit)) (fuel : Nat) (s s' : σ) (u : Lazy α)
    (hg : g s = .ok (u, s')) :
    ∃ t, filterGenE (Cond.of (fun _ => true) h) g (fuel + 1) s = .ok (t, s') ∧ t.value.1 = h (h u.value.1) := by
  have e : filterGenE (Cond.of (fun _ => true) h) g (fuel + 1) s =
      (filterE (Cond.of (fun _ => true) h) (.node (h u.value.1, u.value.2) u.shrinks)).bind fun w => .ok (w, s') := by
    rw [filterGenE, hg]
    rfl
  rw [e, filterE_accepted _ _ (h (h u.value.1)) rfl]
  exact ⟨_, rfl, rfl⟩

/-- A condition that adds 1 to a number, always true: for 5, the property gets 7. -/
example : ∃ t, filterGenE (Cond.of (fun _ => true) (· + 1)) (calmGen fun s : Nat => .ok (Shr.leaf 5, s)) 9 0 = .ok (t, 0) ∧
    t.value.1 = 7 := C156_changed_violated (· + 1) _ 8 0 0 (calm (Shr.leaf 5)) rfl

/-- **C156** is violated by every condition that accepts a value but not what it leaves of it: instead of trying another value,
the generator throws `invalid_argument`. -/
theorem C156_throws_violated (c : Cond α) (g : Gen σ (α × Outcome Unit)) (fuel : Nat) (s s' : σ) (u : Lazy α) (v w : α)
    (hg : g s = .ok (u, s')) (h1 : c u.value.1 = .ok (true, v)) (h2 : c v = .ok (false, w)) :
    filterGenE c g (fuel + 1) s = .throws .invalidArgument := by
  rw [filterGenE, hg]
  have e : filterE c (.node (v, u.value.2) u.shrinks) = .throws .invalidArgument := by
    rw [filterE]
    simp only [Shr.value, h2]
  show (c u.value.1).bind _ = _
  rw [h1]
  show (filterE c (.node (v, u.value.2) u.shrinks)).bind _ = _
  rw [e]
  rfl

/-- "The list begins with 1", removing the element it looks at. -/
private def popping : Cond (List Nat)
  | [] => .ok (false, [])
  | x :: xs => .ok (x = 1, xs)

/-- For [1, 2] the generator throws; for [1, 1, 2] it yields [2]. -/
example : filterGenE popping (calmGen fun s : Nat => .ok (Shr.leaf [1, 2], s)) 9 0 = .throws .invalidArgument :=
  C156_throws_violated popping _ 8 0 0 (calm (Shr.leaf [1, 2])) [2] [] rfl rfl rfl

example : (match filterGenE popping (calmGen fun s : Nat => .ok (Shr.leaf [1, 1, 2], s)) 9 0 with
    | .ok (t, _) => some t.values
    | _ => none) = some [([2], .ok ())] := by decide +kernel

/-- What evaluating the shrinks of a filtered value does when its first shrink is `x`: the condition throws. -/
theorem C156_shrink_throws (c : Cond α) (v v' x : α) (xs rest : List (Shr α)) (e : Exn) (hv : c v = .ok (true, v'))
    (hx : c x = .throws e) :
    ∃ t, filterE c (calm (.node v (.node x xs :: rest))) = .ok t ∧ t.value.1 = v' ∧ opens t = .throws e := by
  have ha : ahead (.ok ()) (rest.map (calm (α := α))) = .ok () := by cases rest <;> rfl
  have e1 : filterStreamE c (.ok ()) ((Shr.node x xs :: rest).map calm) = ([], .throws e) := by
    rw [List.map_cons, filterStreamE, ha, calm_node]
    simp only [Shr.value, hx]
  rw [calm_node, filterE_accepted c (.node (v, .ok ()) _) v' hv]
  refine ⟨_, rfl, rfl, ?_⟩
  show ahead (untilThrow (filterStreamE c (.ok ()) ((Shr.node x xs :: rest).map calm)).2 _).2 _ = _
  simp only [Shr.value, Shr.shrinks]
  rw [e1]
  rfl

/-- "The first element is greater than 3", with a function that throws for the empty list, which is the first shrink. -/
private def atFirst : Cond (List Nat)
  | [] => .throws .stdOther
  | x :: xs => .ok (3 < x, x :: xs)

example : ∃ t, filterE atFirst (calm (.node [5, 4] [.node [] [], .node [5] []])) = .ok t ∧ t.value.1 = [5, 4] ∧
    opens t = .throws .stdOther := C156_shrink_throws atFirst _ _ _ _ _ _ rfl rfl

/-- The shrinks of a rejected shrink are looked at one further than they are used: if the first shrink `x` is rejected and
evaluating its shrinks throws after the first of them, asking for the shrinks of the value throws, though the condition
might accept `y`. -/
theorem C156_lookahead_throws (c : Cond α) (v v' x x' : α) (y : Lazy α) (rest : List (Lazy α)) (e : Exn)
    (hv : c v = .ok (true, v')) (hx : c x = .ok (false, x')) :
    ∃ t, filterE c (.node (v, .ok ()) (.node (x, .throws e) [y] :: rest)) = .ok t ∧ t.value.1 = v' ∧ opens t = .throws e := by
  have ha : ahead (.ok ()) rest = .ok () := by cases rest <;> rfl
  have e1 : filterStreamE c (.ok ()) (.node (x, .throws e) [y] :: rest) = ([], .throws e) := by
    rw [filterStreamE, ha]
    simp only [Shr.value, hx, firstShrink, Shr.shrinks]
    rw [filterStreamE]
    rfl
  rw [filterE_accepted c (.node (v, .ok ()) _) v' hv]
  refine ⟨_, rfl, rfl, ?_⟩
  show ahead (untilThrow (filterStreamE c (.ok ()) (.node (x, .throws e) [y] :: rest)).2 _).2 _ = _
  simp only [Shr.value, Shr.shrinks]
  rw [e1]
  rfl

/-- [1] is rejected, and its shrinks are [7] and an exception. -/
example : ∃ t, filterE atFirst (.node ([5, 4], .ok ()) [.node ([1], .throws .stdOther) [.node ([7], .ok ()) []]]) = .ok t ∧
    t.value.1 = [5, 4] ∧ opens t = .throws .stdOther := C156_lookahead_throws atFirst _ _ _ [1] _ _ _ rfl rfl

/-- **C156** is violated, for shrinks: if the condition accepts the first shrink of a value but not what it leaves of it, asking
for the shrinks of the value throws `invalid_argument`. What becomes of the test is said by C150. -/
theorem C156_shrinks_violated (c : Cond α) (v v' x x' x'' : α) (xs rest : List (Shr α)) (hv : c v = .ok (true, v'))
    (hx : c x = .ok (true, x')) (hx' : c x' = .ok (false, x'')) :
    ∃ t, filterE c (calm (.node v (.node x xs :: rest))) = .ok t ∧ t.value.1 = v' ∧ opens t = .throws .invalidArgument := by
  have ha : ahead (.ok ()) (rest.map (calm (α := α))) = .ok () := by cases rest <;> rfl
  have e1 : filterStreamE c (.ok ()) ((Shr.node x xs :: rest).map calm) =
      (.node (x', .ok ()) (xs.map calm) :: (filterStreamE c (.ok ()) (rest.map calm)).1,
        (filterStreamE c (.ok ()) (rest.map calm)).2) := by
    rw [List.map_cons, filterStreamE, ha, calm_node]
    simp only [Shr.value, hx]
    rfl
  have e2 : filterE c (.node (x', .ok ()) (xs.map calm)) = .throws .invalidArgument := by
    rw [filterE]
    simp only [Shr.value, hx']
  rw [calm_node, filterE_accepted c (.node (v, .ok ()) _) v' hv]
  refine ⟨_, rfl, rfl, ?_⟩
  show ahead (untilThrow (filterStreamE c (.ok ()) ((Shr.node x xs :: rest).map calm)).2 _).2 _ = _
  simp only [Shr.value, Shr.shrinks]
  rw [e1, List.map_cons, e2]
  rfl

/-- [1, 1, 2] passes, its shrink [1] does not: the exception leaves `forAll` (here the lists are coded as numbers: a condition that
accepts multiples of 3 and divides by 3). -/
private def dividing : Cond Nat := fun v => .ok (v % 3 = 0, v / 3)

example : ∃ t, filterE dividing (calm (.node 9 [.node 3 [], .node 0 []])) = .ok t ∧ t.value.1 = 3 ∧
    opens t = .throws .invalidArgument := C156_shrinks_violated dividing 9 3 3 1 0 [] [.node 0 []] rfl rfl rfl

example : shown (forAll (ldemo (fun _ => match filterE dividing (calm (.node 9 [.node 3 [], .node 0 []])) with
      | .ok t => t
      | _ => calm (Shr.leaf 0)) (fun _ => returns false) 3) 5 0 []) = (.throws .invalidArgument, none, [3], []) := by
  decide +kernel

end Throwing
end Verif
