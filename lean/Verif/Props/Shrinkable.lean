import Verif.Lemmas.Tree
/-
C05-C11: the operations on shrinkables.
-/
namespace Verif
open Shr
variable {α β γ : Type}

/-! ### C05 map -/

/-- C05. Following any choices `p` in `t.map f` ends at `f v` exactly when following `p` in `t` ends
at `v`; in particular the same positions exist. -/
theorem C05_map_positions (f : α → β) (t : Shr α) (p : List Nat) :
    (t.map f).valueAt? p = (t.valueAt? p).map f := by
  induction p generalizing t with
  | nil => simp [valueAt?]
  | cons i p ih =>
    simp only [valueAt?, at?_cons, shrinks_map, List.getElem?_map] at ih ⊢
    cases t.shrinks[i]? with
    | none => simp
    | some s => simpa using ih s

/-- C05. Mapping the identity changes nothing. -/
theorem C05_map_id (t : Shr α) : t.map id = t := by
  induction t using Shr.ind with
  | h v ss ih =>
    simp only [map_node, id_eq]
    congr 1
    rw [List.map_congr_left ih]; simp

/-- C05. Mapping twice is mapping the composition. -/
theorem C05_map_comp (f : α → β) (g : β → γ) (t : Shr α) : (t.map f).map g = t.map (g ∘ f) := by
  induction t using Shr.ind with
  | h v ss ih =>
    simp only [map_node, List.map_map, Function.comp]
    congr 1
    exact List.map_congr_left ih

example : ((node 3 [node 1 [leaf 0], leaf 2]).map (· * 10)).valueAt? [0, 0] = some 0 := by decide
example : ((node 3 [node 1 [leaf 0], leaf 2]).map (· * 10)).valueAt? [1] = some 20 := by decide

/-! ### C06 flatMap -/

/-- C06. At every position `flatMap` has the value of the shrinkable produced for the value there; the
positions are those of `t`, whatever shrinks `f` produces. -/
theorem C06_flatMap_positions (f : α → Shr β) (t : Shr α) (p : List Nat) :
    (t.flatMap f).valueAt? p = (t.valueAt? p).map (fun v => (f v).value) := by
  rw [flatMap_eq_map, C05_map_positions]

/-- C06. The same for `mapShrinkable`, whose function sees the whole subtree. -/
theorem C06_mapShrinkable_positions (f : Shr α → Shr β) (t : Shr α) (p : List Nat) :
    (t.mapShrinkable f).valueAt? p = (t.at? p).map (fun s => (f s).value) := by
  induction p generalizing t with
  | nil => simp [valueAt?]
  | cons i p ih =>
    simp only [valueAt?, at?_cons, shrinks_mapShrinkable, List.getElem?_map] at ih ⊢
    cases t.shrinks[i]? with
    | none => simp
    | some s => simpa using ih s

example : ((node 3 [leaf 2]).flatMap (fun v => node (v + 1) [leaf 7])).valueAt? [0] = some 3 := by
  decide
example : ((node 3 [leaf 2]).flatMap (fun v => node (v + 1) [leaf 7])).valueAt? [1] = none := by
  decide

/-! ### C07 filter -/

/-- C07. `filter` throws `invalid_argument` exactly when the root value is rejected, and returns
otherwise. -/
theorem C07_filter_throws_iff (c : α → Bool) (t : Shr α) :
    (t.filter c = .throws .invalidArgument ↔ c t.value = false) ∧
    ((∃ r, t.filter c = .ok r) ↔ c t.value = true) := by
  unfold Shr.filter
  cases c t.value <;> simp

theorem histories_all_cons {c : α → Bool} (t : Shr α) (h : c t.value = false) :
    t.histories.filter (·.all c) = [] := by
  cases t with
  | node v ss =>
    simp only [value_node] at h
    simp [histories_node, h, List.filter_map, Function.comp_def]

/-- C07. The shrink histories that can be observed after filtering are exactly the histories of the
original all of whose values are accepted, in the same order and multiplicity. -/
theorem C07_filter_histories (c : α → Bool) (t r : Shr α) (h : t.filter c = .ok r) :
    r.histories = t.histories.filter (fun path => path.all c) := by
  have key : ∀ t : Shr α, c t.value = true →
      (filterKept c t).histories = t.histories.filter (fun path => path.all c) := by
    intro t
    induction t using Shr.ind with
    | h v ss ih =>
      intro hv
      rw [value_node] at hv
      have e1 : filterKept c (node v ss) =
          node v ((ss.filter (fun s => c s.value)).map (filterKept c)) := by
        rw [← eta (filterKept c (node v ss))]; simp
      rw [e1, histories_node, histories_node]
      simp only [List.filter_cons, List.all_cons, List.all_nil, hv, Bool.and_true, if_true,
        List.filter_map, Function.comp_def, Bool.true_and]
      congr 2
      clear e1
      induction ss with
      | nil => simp
      | cons s ss ihs =>
        have ih' := ihs (fun s hs => ih s (List.mem_cons_of_mem _ hs))
        simp only [List.filter_cons, List.flatMap_cons, List.filter_append]
        cases hc : c s.value
        · rw [histories_all_cons s hc]; simpa using ih'
        · simp only [if_true, List.map_cons, List.flatMap_cons]
          rw [ih s (by simp) hc, ih']
  unfold Shr.filter at h
  split at h
  · cases h; exact key t ‹_›
  · cases h

/-- C07. Filtering keeps the value and everything reachable afterwards is accepted and was reachable. -/
theorem C07_filter_sound (c : α → Bool) (t r : Shr α) (h : t.filter c = .ok r) :
    r.value = t.value ∧ ∀ v, Reach r v → c v = true ∧ Reach t v := by
  unfold Shr.filter at h
  split at h
  case isFalse => cases h
  case isTrue hc =>
    cases h
    refine ⟨by simp, ?_⟩
    induction t using Shr.ind with
    | h x ss ih =>
      intro v hv
      rw [reach_iff] at hv
      simp only [value_filterKept, value_node, shrinks_filterKept, shrinks_node, List.mem_map,
        List.mem_filter] at hv
      rcases hv with rfl | ⟨s, ⟨s', ⟨m, hs⟩, rfl⟩, hr⟩
      · exact ⟨hc, .self _⟩
      · have := ih s' m hs v hr
        exact ⟨this.1, .child (by simpa using m) this.2⟩

example : (node 4 [node 3 [leaf 2], node 2 [leaf 1, leaf 0]]).filter (· % 2 == 0)
    = .ok (node 4 [node 2 [leaf 0]]) := by rfl
example : (node 3 [leaf 2]).filter (· % 2 == 0) = .throws .invalidArgument := by rfl

/-! ### C08 filter with tolerance -/

mutual
/-- Specification: the candidates offered in place of `t`: `t` itself if accepted, otherwise those
offered in place of its first `n` shrinks. -/
def accepted (c : α → Bool) (n : Nat) : Shr α → List (Shr α)
  | .node v ss => if c v then [.node v ss] else acceptedList c n n ss
/-- Specification: the candidates offered in place of the first `k` elements of a list. -/
def acceptedList (c : α → Bool) (n : Nat) : Nat → List (Shr α) → List (Shr α)
  | 0, _ => []
  | _, [] => []
  | k + 1, s :: ss => accepted c n s ++ acceptedList c n k ss
end

theorem acceptedList_eq (c : α → Bool) (n k : Nat) (ss : List (Shr α)) :
    acceptedList c n k ss = (ss.take k).flatMap (accepted c n) := by
  induction ss generalizing k with
  | nil => cases k <;> simp [acceptedList]
  | cons s ss ih => cases k <;> simp [acceptedList, ih]

theorem accepted_of_true {c : α → Bool} (n : Nat) {t : Shr α} (h : c t.value = true) :
    accepted c n t = [t] := by
  cases t; simp at h; simp [accepted, h]
theorem accepted_of_false {c : α → Bool} (n : Nat) {t : Shr α} (h : c t.value = false) :
    accepted c n t = (t.shrinks.take n).flatMap (accepted c n) := by
  cases t; simp at h; simp [accepted, h, acceptedList_eq]

theorem filterStream_eq (c : α → Bool) (n : Nat) (l : List (Shr α)) :
    filterStream c n l = l.flatMap (accepted c n) := by
  fun_induction filterStream c n l with
  | case1 => simp
  | case2 s ss h ih => simp [accepted_of_true n h, ih]
  | case3 s ss h ih =>
    have h : c s.value = false := by simpa using h
    rw [ih, takeInt_nat, List.flatMap_append, List.flatMap_cons, accepted_of_false n h]

/-- C08. `filter(c, n)` throws exactly when the root is rejected. -/
theorem C08_filterTol_throws_iff (c : α → Bool) (n : Int) (t : Shr α) :
    (t.filterTol c n = .throws .invalidArgument ↔ c t.value = false) ∧
    ((∃ r, t.filterTol c n = .ok r) ↔ c t.value = true) := by
  unfold Shr.filterTol
  cases c t.value <;> simp

theorem filterStream_mem {c : α → Bool} {n : Int} {l : List (Shr α)} {s : Shr α}
    (h : s ∈ filterStream c n l) : c s.value = true ∧ ∃ u ∈ l, Desc u s := by
  fun_induction filterStream c n l with
  | case1 => simp at h
  | case2 x ss hx ih =>
    simp only [List.mem_cons] at h
    rcases h with rfl | h
    · exact ⟨hx, s, by simp, .refl s⟩
    · obtain ⟨h1, u, m, hd⟩ := ih h
      exact ⟨h1, u, by simp [m], hd⟩
  | case3 x ss hx ih =>
    obtain ⟨h1, u, m, hd⟩ := ih h
    refine ⟨h1, ?_⟩
    rcases List.mem_append.mp m with m | m
    · exact ⟨x, by simp, .step ((takeInt_sublist _ _).subset m) hd⟩
    · exact ⟨u, by simp [m], hd⟩

/-- C08. Everything reachable after filtering with tolerance (any tolerance, also negative) is
accepted and was reachable before; the root value is kept. -/
theorem C08_filterTol_sound (c : α → Bool) (n : Int) (t r : Shr α) (h : t.filterTol c n = .ok r) :
    r.value = t.value ∧ ∀ v, Reach r v → c v = true ∧ Reach t v := by
  unfold Shr.filterTol at h
  split at h
  case isFalse => cases h
  case isTrue hc =>
    cases h
    refine ⟨by simp, ?_⟩
    rintro v ⟨u, hd, rfl⟩
    have key : ∀ (r u : Shr α), Desc r u → ∀ t, r = filterTolKept c n t → c t.value = true →
        c u.value = true ∧ Reach t u.value := by
      intro r u hd
      induction hd with
      | refl r => rintro t rfl ht; exact ⟨by simpa, by simpa using Reach.self t⟩
      | step m _ ih =>
        rintro t rfl ht
        simp only [shrinks_filterTolKept, List.mem_map] at m
        obtain ⟨s, ms, rfl⟩ := m
        obtain ⟨h1, x, mx, hx⟩ := filterStream_mem ms
        have := ih s rfl h1
        exact ⟨this.1, .desc (.step mx hx) this.2⟩
    exact key _ _ hd t rfl hc

/-- C08. The shrinks after filtering with tolerance `n ≥ 0` are, in order, the filtered versions of the
candidates obtained by replacing every rejected shrink by its first `n` shrinks, recursively. -/
theorem C08_filterTol_shrinks (c : α → Bool) (n : Nat) (t r : Shr α) (h : t.filterTol c n = .ok r) :
    r.shrinks.map Outcome.ok = (t.shrinks.flatMap (accepted c n)).map (fun s => s.filterTol c n) := by
  unfold Shr.filterTol at h
  split at h
  case isFalse => cases h
  case isTrue hc =>
    cases h
    rw [shrinks_filterTolKept]
    have hacc : ∀ s ∈ filterStream c n t.shrinks, c s.value = true := fun s hs =>
      (filterStream_mem hs).1
    rw [← filterStream_eq]
    rw [List.map_map]
    refine List.map_congr_left fun s hs => ?_
    simp [Shr.filterTol, hacc s hs]

theorem mem_filterStream_of_mem {c : α → Bool} {n : Int} {l : List (Shr α)} {s : Shr α}
    (h : s ∈ l) (hc : c s.value = true) : s ∈ filterStream c n l := by
  fun_induction filterStream c n l with
  | case1 => simp at h
  | case2 x ss hx ih =>
    rcases List.mem_cons.mp h with rfl | h
    · simp
    · exact List.mem_cons_of_mem _ (ih h)
  | case3 x ss hx ih =>
    rcases List.mem_cons.mp h with rfl | h
    · exact absurd hc hx
    · exact ih (List.mem_append_right _ h)

/-- C08. Whatever plain `filter` can reach is still reachable with a tolerance. -/
theorem C08_filterTol_complete (c : α → Bool) (n : Int) (t r r' : Shr α)
    (h : t.filter c = .ok r) (h' : t.filterTol c n = .ok r') (v : α) (hv : Reach r v) : Reach r' v := by
  unfold Shr.filter at h
  unfold Shr.filterTol at h'
  split at h
  case isFalse => cases h
  case isTrue hc =>
    rw [if_pos hc] at h'
    cases h; cases h'
    clear hc
    induction t using Shr.ind with
    | h x ss ih =>
      rw [reach_iff] at hv
      simp only [value_filterKept, value_node, shrinks_filterKept, shrinks_node, List.mem_map,
        List.mem_filter] at hv
      rcases hv with rfl | ⟨s, ⟨s', ⟨m, hs⟩, rfl⟩, hr⟩
      · exact ⟨_, .refl _, by simp⟩
      · refine .child (s := filterTolKept c n s') ?_ (ih s' m hr)
        simp only [shrinks_filterTolKept, List.mem_map, shrinks_node]
        exact ⟨s', mem_filterStream_of_mem m hs, rfl⟩

example : ∃ r, (node 4 [node 3 [leaf 2, leaf 0]]).filterTol (· % 2 == 0) 1 = .ok r ∧
    r.shrinks.map value = [2] := by
  refine ⟨_, by simp [Shr.filterTol]; rfl, ?_⟩
  simp [filterStream, takeInt, leaf]

/-! ### C09 concat -/

/-- C09. At a position of `t` holding `s`, `concat` has the same value, offers the (extended) shrinks
of `s` first and then exactly `k s`. -/
theorem C09_concat_positions (k : Shr α → List (Shr α)) (t s : Shr α) (p : List Nat)
    (h : t.at? p = some s) :
    ∃ r, (t.concat k).at? p = some r ∧ r.value = s.value ∧
      r.shrinks.length = s.shrinks.length + (k s).length ∧
      (r.shrinks.take s.shrinks.length).map value = s.shrinks.map value ∧
      r.shrinks.drop s.shrinks.length = k s := by
  have : (t.concat k).at? p = some (s.concat k) := by
    induction p generalizing t with
    | nil => simp at h ⊢; rw [h]
    | cons i p ih =>
      rw [at?_cons] at h ⊢
      cases hi : t.shrinks[i]? with
      | none => simp [hi] at h
      | some u =>
        simp only [hi, Option.bind_some] at h
        have hlt : i < t.shrinks.length := (List.getElem?_eq_some_iff.mp hi).1
        rw [shrinks_concat, List.getElem?_append_left (by simpa using hlt), List.getElem?_map, hi]
        simpa using ih u h
  refine ⟨_, this, by simp, by simp, ?_, ?_⟩
  · simp [Function.comp_def]
  · simp

/-- C09. Reachable after `concat` = reachable before, or reachable from `k s` for a reachable `s`. -/
theorem C09_concat_reach (k : Shr α → List (Shr α)) (t : Shr α) (v : α) :
    Reach (t.concat k) v ↔ ∃ s, Desc t s ∧ (s.value = v ∨ ∃ u ∈ k s, Reach u v) := reach_concat

/-- C09, `concatStatic`: the same shrinks are added behind the shrinks of every position. -/
theorem C09_concatStatic_positions (l : List (Shr α)) (t s : Shr α) (p : List Nat) (h : t.at? p = some s) :
    ∃ r, (t.concatStatic l).at? p = some r ∧ r.value = s.value ∧
      (r.shrinks.take s.shrinks.length).map value = s.shrinks.map value ∧ r.shrinks.drop s.shrinks.length = l := by
  obtain ⟨r, h1, h2, -, h3, h4⟩ := C09_concat_positions (fun _ => l) t s p h
  exact ⟨r, h1, h2, h3, h4⟩

example : (concatStatic [leaf 7] (node 3 [leaf 1])).valueAt? [0, 0] = some 7 := by decide
example : ((node 3 [leaf 1]).concat (fun s => [leaf (s.value + 10)])).valueAt? [0, 0] = some 11 := by
  decide
example : ((node 3 [leaf 1]).concat (fun s => [leaf (s.value + 10)])).valueAt? [1] = some 13 := by
  decide

/-! ### C10 andThen -/

/-- C10. At a position of `t` holding `s`, `andThen` has the same value; a dead end now offers `k s`,
any other position offers as many shrinks as before, with the same values. -/
theorem C10_andThen_positions (k : Shr α → List (Shr α)) (t s : Shr α) (p : List Nat)
    (h : t.at? p = some s) :
    ∃ r, (t.andThen k).at? p = some r ∧ r.value = s.value ∧
      (s.shrinks = [] → r.shrinks = k s) ∧
      (s.shrinks ≠ [] → r.shrinks.map value = s.shrinks.map value) := by
  have : (t.andThen k).at? p = some (s.andThen k) := by
    induction p generalizing t with
    | nil => simp at h ⊢; rw [h]
    | cons i p ih =>
      rw [at?_cons] at h ⊢
      cases hi : t.shrinks[i]? with
      | none => simp [hi] at h
      | some u =>
        simp only [hi, Option.bind_some] at h
        have hne : t.shrinks ≠ [] := by intro e; simp [e] at hi
        rw [shrinks_andThen_ne _ hne, List.getElem?_map, hi]
        simpa using ih u h
  refine ⟨_, this, by simp, fun h => shrinks_andThen_nil _ h, fun h => ?_⟩
  rw [shrinks_andThen_ne _ h]; simp [Function.comp_def]

/-- C10. Reachable after `andThen` = reachable before, or reachable from `k s` for a reachable dead
end `s`. -/
theorem C10_andThen_reach (k : Shr α → List (Shr α)) (t : Shr α) (v : α) :
    Reach (t.andThen k) v ↔
      ∃ s, Desc t s ∧ (s.value = v ∨ (s.shrinks = [] ∧ ∃ u ∈ k s, Reach u v)) := reach_andThen

/-- C10, `andThenStatic`: every dead end now offers the given shrinks, all other positions are as before. -/
theorem C10_andThenStatic_positions (l : List (Shr α)) (t s : Shr α) (p : List Nat) (h : t.at? p = some s) :
    ∃ r, (t.andThenStatic l).at? p = some r ∧ r.value = s.value ∧
      (s.shrinks = [] → r.shrinks = l) ∧ (s.shrinks ≠ [] → r.shrinks.map value = s.shrinks.map value) :=
  C10_andThen_positions (fun _ => l) t s p h

example : (andThenStatic [leaf 7] (node 3 [leaf 1])).valueAt? [0, 0] = some 7 := by decide
example : ((node 3 [leaf 1]).andThen (fun s => [leaf (s.value + 10)])).valueAt? [0, 0] = some 11 := by
  decide
example : ((node 3 [leaf 1]).andThen (fun s => [leaf (s.value + 10)])).valueAt? [1] = none := by
  decide

/-! ### C11 take -/

/-- C11. After `take n` (n ≥ 0) a position exists iff it existed and uses only the first `n` shrinks at
every level; values are unchanged. -/
theorem C11_take_positions (n : Nat) (t : Shr α) (p : List Nat) :
    (t.take n).valueAt? p = if ∀ i ∈ p, i < n then t.valueAt? p else none := by
  induction p generalizing t with
  | nil => simp [valueAt?]
  | cons i p ih =>
    simp only [valueAt?, at?_cons, shrinks_take, takeInt_nat, List.getElem?_map, List.getElem?_take,
      List.forall_mem_cons] at ih ⊢
    by_cases hi : i < n
    · simp only [hi, if_true, true_and]
      cases t.shrinks[i]? with
      | none => simp
      | some s => simpa using ih s
    · simp [hi]

/-- C11. After `take n` no reachable shrinkable offers more than `n` shrinks. -/
theorem C11_take_bound (n : Nat) (t r : Shr α) (h : Desc (t.take n) r) : r.shrinks.length ≤ n := by
  generalize e : t.take n = t' at h
  induction h generalizing t with
  | refl => subst e; simp; omega
  | step m _ ih =>
    subst e
    simp only [shrinks_take, List.mem_map] at m
    obtain ⟨s, _, rfl⟩ := m
    exact ih s rfl

example : ((node 3 [leaf 1, leaf 2]).take 1).valueAt? [0] = some 1 := by decide
example : ((node 3 [leaf 1, leaf 2]).take 1).valueAt? [1] = none := by decide

end Verif
