import Verif.Lemmas.Matrix
/-
C55-C57: `Property::example` and `Property::matrix`.
-/
namespace Verif
namespace Engine
open PairTuple
variable {n : Nat} {A : Fin n → Type} {σ : Type}

/-- A property of two numbers without generators, called through `example` and `matrix` only. -/
def pairProp (f : Nat → Nat → Ev Bool) : Cfg Unit (fun _ : Fin 2 => Nat) where
  gens := fun _ s => .ok (Shr.leaf 0, s)
  orderRun := [0, 1]
  orderShrink := [0, 1]
  orderEach := [0, 1]
  thrown := id
  func := fun _ a => f (a 0) (a 1)
  startup := none
  cleanup := none
  numRuns := 1
  maxDurationMs := 0
  clock := fun _ => 0

/-- Nothing happened yet. -/
def fresh : St Unit A := ⟨(), (), 0, [], []⟩

/-- The arguments 3 and 4. -/
def args34 : Args (fun _ : Fin 2 => Nat) := fun i => if i = 0 then 3 else 4

theorem pairProp_quiet (f) : (pairProp f).Quiet :=
  ⟨fun k h => by simp [pairProp] at h, fun k h => by simp [pairProp] at h⟩

/-! ### C55 -/

/-- `example(args)` calls the property function exactly once, with `args`. If that call returns or throws a
std::exception, `example` returns; it returns true iff the call returned true or threw Success. Failures recorded in
an enclosing context stay as they are.

Partial: C55 also asks that no expectation failed; see `C55_failed_expectation_ignored_violated`. -/
theorem C55_example_verdict_partial {c : Cfg σ A} (hq : c.Quiet) (args : Args A) (s : St σ A) :
    ∃ ev : Ev Bool, ∃ r s', (∃ tr, ev = c.func tr args) ∧ «example» c args s = (r, s') ∧
      calls .single s'.trace = calls .single s.trace ++ [(args, ev)] ∧ s'.fails = s.fails ∧
      ((∃ b, ev.out = .ok b) ∨ (∃ x, ev.out = .throws x ∧ x.isStd = true) →
        ∃ b, r = .ok b ∧ (b = true ↔ ev.out = .ok true ∨ ev.out = .throws .success)) ∧
      (ev.out = .throws .foreign → r = .throws .foreign) := by
  obtain ⟨cu, hcu, hex⟩ := example_quiet hq args s _ rfl
  refine ⟨c.func (suEv c .single ++ s.trace) args, _, _, ⟨_, rfl⟩, hex, ?_, rfl, ?_, ?_⟩
  · simp only
    rw [calls_append, hcu, calls_cons, calls_append, calls_suEv]
    simp [Event.call?]
  · rintro (⟨b, h⟩ | ⟨x, h, hx⟩)
    · rw [h]; exact ⟨b, rfl, by simp⟩
    · rw [h]
      by_cases hs : x = .success
      · exact ⟨true, by simp [hs]⟩
      · exact ⟨false, by simp [hs, hx]⟩
  · intro h
    rw [h]
    simp [Exn.isStd]

example : («example» (pairProp (fun a b => ⟨[], .ok (decide (a < b))⟩)) args34 fresh).1 = .ok true := by
  decide +kernel

example : («example» (pairProp (fun _ _ => ⟨[], .throws .discard⟩)) args34 fresh).1 = .ok false := by
  decide +kernel

/-- C55 in full is violated: an expectation fails, the property function returns true, `example` returns true. -/
theorem C55_failed_expectation_ignored_violated :
    («example» (pairProp (fun _ _ => ⟨["a > b"], .ok true⟩)) args34 fresh).1 = .ok true := by
  decide +kernel

/-! ### C56 -/

/-- `matrix` with lists that are not empty ends and evaluates the property on the combinations given by a list of
index tuples that is strictly increasing in lexicographic order (so the last argument varies fastest and no
combination comes twice) and contains exactly the index tuples in range. This holds for property functions with
memory, as long as their calls return or throw std::exceptions. -/
theorem C56_matrix_covers_product {c : Cfg σ A} (hq : c.Quiet)
    (hf : ∀ tr a, (∃ b, (c.func tr a).out = .ok b) ∨ ∃ x, (c.func tr a).out = .throws x ∧ x.isStd = true)
    (lists : (i : Fin n) → List (A i)) (hne : ∀ i, lists i ≠ []) (fuel : Nat)
    (hfuel : (∏ i, (lists i).length) ≤ fuel) (s : St σ A) (hs : calls .single s.trace = []) :
    ∃ (r : Bool) (s' : St σ A) (idxs : List (Fin n → Nat)),
      matrix c lists fuel s = (.ok r, s') ∧
      idxs.Pairwise LexLt ∧ (∀ t, t ∈ idxs ↔ ∀ i, t i < (lists i).length) ∧
      (calls .single s'.trace).map (fun x => (fun i => some (x.1 i) : (i : Fin n) → Option (A i))) =
        idxs.map (fun t i => (lists i)[t i]?) := by
  have h0 : InRange lists (fun _ => 0) := fun i => List.length_pos_iff.mpr (hne i)
  have hcard : (later lists (fun _ => 0)).card < fuel := by
    refine lt_of_lt_of_le ?_ hfuel
    rw [show (∏ i, (lists i).length) = (Fintype.piFinset (fun i => Finset.range (lists i).length)).card by
      rw [Fintype.card_piFinset]; simp]
    apply Finset.card_lt_card
    rw [Finset.ssubset_iff]
    refine ⟨fun _ => 0, fun h => LexLt.irrefl _ ((mem_later _ _ _).mp h).2, ?_⟩
    intro t ht
    rcases Finset.mem_insert.mp ht with rfl | ht
    · rw [Fintype.mem_piFinset]; intro i; simpa using h0 i
    · rw [Fintype.mem_piFinset]; intro i; simpa using ((mem_later _ _ _).mp ht).1 i
  obtain ⟨s', idxs, h1, h2, h3, h4⟩ := matrixLoop_spec hq hf lists fuel _ h0 s hcard
  refine ⟨true, s', (fun _ => 0) :: idxs, ?_, h2, ?_, ?_⟩
  · unfold matrix
    rw [Eng.bind_apply, h1]
    rfl
  · intro t
    constructor
    · intro h
      rcases List.mem_cons.mp h with rfl | h
      · exact h0
      · exact ((h3 t).mp h).1
    · intro h
      by_cases ht : t = fun _ => 0
      · simp [ht]
      · refine List.mem_cons_of_mem _ ((h3 t).mpr ⟨h, ?_⟩)
        have hz : ∃ j, t j ≠ 0 := by
          by_contra hno
          push Not at hno
          exact ht (funext hno)
        obtain ⟨j, hj1, hmin⟩ := WellFounded.has_min (wellFounded_lt (α := Fin n)) {j | t j ≠ 0} hz
        refine ⟨j, fun i hi => ?_, Nat.pos_of_ne_zero hj1⟩
        by_contra hne
        exact hmin i (fun h => hne h.symm) hi
  · rw [hs] at h4
    simpa [Function.comp_def] using h4

/-- [1, 2] and [5, 6, 7] -/
def lists23 : (i : Fin 2) → List Nat := fun i => if i = 0 then [1, 2] else [5, 6, 7]

example : ((calls .single (matrix (pairProp (fun _ _ => ⟨[], .ok true⟩)) lists23 6 fresh).2.trace).map
    (fun x => (x.1 0, x.1 1))) = [(1, 5), (1, 6), (1, 7), (2, 5), (2, 6), (2, 7)] := by decide +kernel

example : (∏ i, (lists23 i).length) ≤ 6 := by decide +kernel

/-- If some list is empty, `matrix` reads past its end, whatever the other lists. -/
theorem C56_empty_list_undefined (c : Cfg σ A) (lists : (i : Fin n) → List (A i)) (i : Fin n) (hi : lists i = [])
    (fuel : Nat) (s : St σ A) : (matrix c lists (fuel + 1) s).1 = .ub := by
  unfold matrix
  rw [Eng.bind_apply, matrixLoop, Eng.bind_apply]
  have : pickEach lists (fun _ => 0) = .ub := by
    unfold pickEach
    rw [dif_neg]
    intro h
    have := h i
    rw [hi] at this
    simp at this
  simp [Eng.lift, this]

example : (matrix (pairProp (fun _ _ => ⟨[], .ok true⟩)) (fun i => if i = 0 then [1, 2] else []) 6 fresh).1 = .ub := by
  decide +kernel

/-! ### C57 -/

/-- C57 is violated for every property: when `matrix` returns, it returns true. -/
theorem C57_matrix_always_true_violated (c : Cfg σ A) (lists : (i : Fin n) → List (A i)) (fuel : Nat) (s : St σ A)
    (b : Bool) (s' : St σ A) (h : matrix c lists fuel s = (.ok b, s')) : b = true := by
  unfold matrix at h
  rw [Eng.bind_apply] at h
  rcases hm : matrixLoop c lists fuel (fun _ => 0) s with ⟨o, s1⟩
  rw [hm] at h
  cases o with
  | ok u =>
    simp only [Eng.pure_apply] at h
    injection h with h1 _
    injection h1 with h1
    exact h1.symm
  | throws e => injection h with h1 _; cases h1
  | ub => injection h with h1 _; cases h1
  | diverges => injection h with h1 _; cases h1

/-- C57, the part that holds: `matrix` with lists that are not empty returns true if the property passes for every
combination. Missing: that it returns false if the property fails for one. -/
theorem C57_passing_partial {c : Cfg σ A} (hq : c.Quiet) (hf : ∀ tr a, c.func tr a = ⟨[], .ok true⟩)
    (lists : (i : Fin n) → List (A i)) (hne : ∀ i, lists i ≠ []) (fuel : Nat)
    (hfuel : (∏ i, (lists i).length) ≤ fuel) (s : St σ A) (hs : calls .single s.trace = []) :
    (matrix c lists fuel s).1 = .ok true := by
  obtain ⟨r, s', _, h, _⟩ := C56_matrix_covers_product hq (fun tr a => .inl ⟨true, by rw [hf]⟩) lists hne fuel hfuel s hs
  rw [h, C57_matrix_always_true_violated c lists fuel s r s' h]

/-- all six combinations fail, the result is true -/
example : (matrix (pairProp (fun _ _ => ⟨["x"], .ok false⟩)) lists23 6 fresh).1 = .ok true := by decide +kernel

end Engine
end Verif
