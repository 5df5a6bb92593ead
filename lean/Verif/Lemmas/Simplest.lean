import Verif.Spec.Simplest
import Verif.Spec.Greedy
import Verif.Lemmas.Tree
import Verif.Lemmas.BinSearch
import Verif.Lemmas.ListLike
import Verif.Model.Containers
import Verif.Model.PairTuple
import Mathlib.Tactic.Convert
/-
Lemmas about the simplest form of a value.
-/
namespace Verif
open Shr BinSearch
variable {α β : Type}

theorem Simplest.shrinks_nil {t u : Shr α} (h : Simplest t u) : u.shrinks = [] := by
  induction h with
  | done h => exact h
  | step _ _ ih => exact ih

theorem Simplest.desc {t u : Shr α} (h : Simplest t u) : Desc t u := by
  induction h with
  | done h => exact .refl _
  | step h _ ih => exact .step (by rw [h]; simp) ih

theorem Simplest.unique {t u v : Shr α} (h : Simplest t u) (h' : Simplest t v) : u = v := by
  induction h with
  | done h =>
    cases h' with
    | done _ => rfl
    | step h1 _ => rw [h] at h1; cases h1
  | step h _ ih =>
    cases h' with
    | done h1 => rw [h] at h1; cases h1
    | step h1 h2 =>
      rw [h] at h1
      cases h1
      exact ih h2

theorem Simplest.exists (t : Shr α) : ∃ u, Simplest t u := by
  induction t using Shr.ind with
  | h v ss ih =>
    cases ss with
    | nil => exact ⟨_, .done rfl⟩
    | cons s ss =>
      obtain ⟨u, hu⟩ := ih s (by simp)
      exact ⟨u, .step rfl hu⟩

theorem simplest_leaf (v : α) : Simplest (leaf v) (leaf v) := .done rfl

/-- Greedy shrinking for a property that always fails. -/
theorem simplest_greedyNode (fails : α → Bool) (t : Shr α) (h : ∀ v, fails v = true) : Simplest t (t.greedyNode fails) := by
  induction t using Shr.ind with
  | h v ss ih =>
    cases ss with
    | nil => simp only [greedyNode, greedyNodeList]; exact .done rfl
    | cons s ss =>
      simp only [greedyNode, greedyNodeList, h, if_true]
      exact .step rfl (ih s (by simp))

theorem Simplest.map (f : α → β) {t u : Shr α} (h : Simplest t u) : Simplest (t.map f) (u.map f) := by
  induction h with
  | @done t h => cases t; simp only [shrinks_node] at h; subst h; exact .done rfl
  | @step t s u rest h _ ih =>
    cases t
    simp only [shrinks_node] at h
    subst h
    exact .step (s := s.map f) (rest := mapList f rest) (by simp [Shr.map, mapList]) ih

theorem Simplest.flatMap (f : α → Shr β) {t u : Shr α} (h : Simplest t u) : Simplest (t.flatMap f) (u.flatMap f) := by
  induction h with
  | @done t h => cases t; simp only [shrinks_node] at h; subst h; exact .done rfl
  | @step t s u rest h _ ih =>
    cases t
    simp only [shrinks_node] at h
    subst h
    exact .step (s := s.flatMap f) (rest := flatMapList f rest) (by simp [Shr.flatMap, flatMapList, withShrinks]) ih

theorem Simplest.concat (k : Shr α → List (Shr α)) {t u w : Shr α} (h : Simplest t u)
    (h' : Simplest (node u.value (k u)) w) : Simplest (t.concat k) w := by
  induction h with
  | @done t h => cases t; simp only [shrinks_node] at h; subst h; simpa [Shr.concat, concatList] using h'
  | @step t s u rest h _ ih =>
    cases t
    simp only [shrinks_node] at h
    subst h
    exact .step (s := s.concat k) (by simp only [Shr.concat, concatList, shrinks_node, List.cons_append]; rfl) (ih h')

theorem Simplest.andThen (k : Shr α → List (Shr α)) {t u w : Shr α} (h : Simplest t u)
    (h' : Simplest (node u.value (k u)) w) : Simplest (t.andThen k) w := by
  induction h with
  | @done t h => cases t; simp only [shrinks_node] at h; subst h; simpa [Shr.andThen] using h'
  | @step t s u rest h _ ih =>
    cases t
    simp only [shrinks_node] at h
    subst h
    exact .step (s := s.andThen k) (by simp only [Shr.andThen, List.isEmpty_cons, andThenList, shrinks_node]; rfl) (ih h')

theorem simplest_bsNat (n : Nat) : Simplest (bsNat n) (leaf 0) := by
  unfold bsNat
  by_cases h : n = 0
  · subst h; exact .done rfl
  · rw [if_neg h]
    exact .step (s := leaf 0) rfl (.done rfl)

namespace ListLike
variable {δ : Type}

theorem simplest_sizeRange (lo hi : Nat) : Simplest (sizeRange lo hi) (leaf lo) := by
  have := (simplest_bsNat (hi - lo)).map (· + lo)
  rw [sizeRange]
  simpa [Shr.leaf, Shr.map, mapList] using this

/-- The simplest list consists of the first `minSize` elements. -/
theorem simplest_frontAndMid (minSize fuel : Nat) (xs : List δ) (h : minSize ≤ xs.length) :
    Simplest (frontAndMid minSize fuel 0 xs) (leaf (xs.take minSize)) := by
  have hr : Simplest (frontAndMid.range minSize 0 xs) (leaf (xs.take minSize)) := by
    have := (simplest_sizeRange minSize xs.length).flatMap
      (fun frontSize => leaf (xs.take frontSize ++ xs.drop (xs.length - 0)))
    simpa [frontAndMid.range, frontAndMid.minFront, Shr.leaf, Shr.flatMap, flatMapList, withShrinks] using this
  cases fuel with
  | zero => simpa [frontAndMid] using hr
  | succ fuel =>
    simp only [frontAndMid]
    refine hr.concat _ ?_
    rw [if_pos (Or.inl (by simp; omega))]
    exact .done rfl

theorem simplest_membershipwise (xs : List δ) (minSize : Nat) (t : Shr (List δ)) (h : membershipwise xs minSize = .ok t) :
    minSize ≤ xs.length ∧ Simplest t (leaf (xs.take minSize)) := by
  unfold membershipwise at h
  split at h
  · cases h
  · cases h
    exact ⟨by omega, simplest_frontAndMid _ _ _ (by omega)⟩

/-- One round of `bulk` moves every element to its first shrink, if it has one. -/
theorem bulkRound_heads (xs : List (Shr α)) :
    bulkRound xs (xs.map Shr.shrinks) = xs.map fun x => x.shrinks.headD x := by
  induction xs with
  | nil => simp [bulkRound]
  | cons x xs ih =>
    cases hx : x.shrinks with
    | nil => simp [bulkRound, hx, ih]
    | cons s ss => simp [bulkRound, hx, ih]

theorem bulk_eq (anc : List (Shr α)) :
    bulk anc = (bulkRounds anc (anc.map Shr.shrinks)).map fun v => node v (bulk v) := by
  conv_lhs => rw [bulk]
  exact (List.map_attach_eq_pmap ..).trans (List.pmap_eq_map ..)

theorem simplest_bulk : ∀ (n : Nat) (xs : List (Shr α)), Shr.nodes.go xs ≤ n →
    ∃ ys, List.Forall₂ Simplest xs ys ∧ Simplest (node xs (bulk xs)) (node ys []) := by
  intro n
  induction n with
  | zero =>
    intro xs h
    cases xs with
    | nil =>
      have hb : bulk ([] : List (Shr α)) = [] := by rw [bulk_eq, bulkRounds]; simp
      exact ⟨[], .nil, by rw [hb]; exact .done rfl⟩
    | cons x xs => cases x; simp [nodes.go, nodes] at h
  | succ n ih =>
    intro xs h
    by_cases he : (xs.map Shr.shrinks).all List.isEmpty = true
    · refine ⟨xs, ?_, ?_⟩
      · simp only [List.all_map, List.all_eq_true, Function.comp_apply, List.isEmpty_iff] at he
        clear h
        induction xs with
        | nil => exact .nil
        | cons x xs ih2 => exact .cons (.done (he x (by simp))) (ih2 fun y hy => he y (by simp [hy]))
      · have hb : bulk xs = [] := by
          rw [bulk_eq, bulkRounds, dif_pos he]
          rfl
        rw [hb]
        exact .done rfl
    · have hlt := (nodes_bulkRound xs _ (forall₂_shrinks xs)).2 (by simpa using he)
      obtain ⟨ys, h1, h2⟩ := ih (bulkRound xs (xs.map Shr.shrinks)) (by omega)
      refine ⟨ys, ?_, ?_⟩
      · rw [bulkRound_heads] at h1
        clear h hlt h2 he
        induction xs generalizing ys with
        | nil => cases h1; exact .nil
        | cons x xs ih2 =>
          simp only [List.map_cons] at h1
          cases h1 with
          | cons hx hxs =>
            refine .cons ?_ (ih2 _ hxs)
            cases hs : x.shrinks with
            | nil => rw [hs] at hx; exact hx
            | cons s ss => rw [hs] at hx; exact .step hs hx
      · refine .step (s := node (bulkRound xs (xs.map Shr.shrinks)) (bulk (bulkRound xs (xs.map Shr.shrinks))))
          (rest := ((bulkRounds xs (bulkTails (xs.map Shr.shrinks)))).map fun v => node v (bulk v)) ?_ h2
        rw [shrinks_node, bulk_eq, bulkRounds, dif_neg he]
        rfl

/-- The simplest list has `minSize` elements, all of them in their simplest form. -/
theorem simplest_listLike (xs : List (Shr α)) (minSize : Nat) (t : Shr (List α)) (h : listLike xs minSize true = .ok t) :
    minSize ≤ xs.length ∧ ∃ ys, List.Forall₂ Simplest (xs.take minSize) ys ∧ Simplest t (leaf (ys.map Shr.value)) := by
  unfold listLike at h
  rw [Outcome.bind_eq_ok] at h
  obtain ⟨m, hm, h⟩ := h
  cases h
  obtain ⟨hle, hs⟩ := simplest_membershipwise _ _ _ hm
  obtain ⟨ys, h1, h2⟩ := simplest_bulk _ (xs.take minSize) (Nat.le_refl _)
  refine ⟨hle, ys, h1, ?_⟩
  have key : Simplest (m.andThen elementwise) (leaf ys) := by
    refine hs.andThen _ ?_
    by_cases h0 : xs.take minSize = []
    · rw [h0] at h1 ⊢
      cases h1
      exact .done rfl
    · have he : elementwise (leaf (xs.take minSize)) = bulk (xs.take minSize) := by
        unfold elementwise
        rw [if_neg (by simpa using h0)]
        simp only [shrinks_concat, shrinks_leaf, List.map_nil, List.nil_append, value_leaf]
        exact if_neg (by
          have := List.length_pos_iff.mpr h0
          omega)
      rw [he]
      exact h2
  have := key.flatMap fun v => leaf (v.map Shr.value)
  simpa [Shr.leaf, Shr.flatMap, flatMapList, withShrinks] using this

end ListLike

namespace Containers
open ListLike
variable {κ : Type}

theorem simplest_shrinkString (str : List α) (minSize : Nat) (h : minSize ≤ str.length) :
    Simplest (shrinkString str minSize) (leaf (str.take minSize)) := by
  have h1 := (simplest_bsNat (str.length - minSize)).map fun size => str.take (size + minSize)
  have h2 : Simplest (shrinkRear str minSize) (leaf (str.take minSize)) := by
    rw [shrinkRear]
    simpa [Shr.leaf, Shr.map, mapList] using h1
  refine h2.concat _ ?_
  rw [shrinkFront, if_pos (by simp; omega)]
  exact .done rfl

theorem simplest_shrinkSet [LinearOrder α] (xs : List (Shr α)) (minSize : Nat) (t : Shr (List α))
    (h : shrinkSet xs minSize = .ok t) :
    minSize ≤ xs.length ∧ Simplest t (leaf (insertAll id ((xs.take minSize).map Shr.value))) := by
  unfold shrinkSet at h
  rw [Outcome.bind_eq_ok] at h
  obtain ⟨m, hm, h⟩ := h
  cases h
  obtain ⟨hle, hs⟩ := simplest_membershipwise _ _ _ hm
  refine ⟨hle, ?_⟩
  have := hs.flatMap fun v => leaf (insertAll id (v.map Shr.value))
  simpa [Shr.leaf, Shr.flatMap, flatMapList, withShrinks] using this

theorem simplest_shrinkMap [LinearOrder κ] (xs : List (Shr κ × Shr β)) (minSize : Nat) (h : minSize ≤ xs.length) :
    Simplest (shrinkMap xs minSize)
      (leaf (insertAll Prod.fst ((xs.take minSize).map fun e => (e.1.value, e.2.value)))) := by
  have h1 : Simplest (mapSizes xs.length minSize) (leaf minSize) := by
    rw [mapSizes, if_pos h]
    exact simplest_sizeRange _ _
  have h2 := (h1.flatMap fun size => if size = 0 then leaf [] else leaf (xs.take size)).flatMap
      fun m => leaf (insertAll Prod.fst (m.map fun e => (e.1.value, e.2.value)))
  rw [shrinkMap]
  convert h2 using 1
  by_cases h0 : minSize = 0
  · subst h0; simp [Shr.leaf, Shr.flatMap, flatMapList, withShrinks]
  · simp [Shr.leaf, Shr.flatMap, flatMapList, withShrinks, h0]

end Containers

namespace PairTuple

/-- The simplest form of a tree whose shrinks are those of a transformed tree. -/
theorem simplest_shrinksOf (g : α → β) (x : β) {a a' : Shr α} (ha : Simplest a a') (P : β → Prop)
    (h0 : a.shrinks = [] → P x) (h1 : P (g a'.value)) :
    ∃ w, Simplest (node x (a.flatMap fun v => leaf (g v)).shrinks) (leaf w) ∧ P w := by
  cases ha with
  | done h => exact ⟨x, by rw [shrinks_flatMap, h]; exact .done rfl, h0 h⟩
  | @step _ s _ rest h hs =>
    refine ⟨g a'.value, ?_, h1⟩
    have h2 := hs.flatMap fun v => leaf (g v)
    have e : a'.flatMap (fun v => leaf (g v)) = leaf (g a'.value) := by
      have := hs.shrinks_nil
      cases a'
      simp only [shrinks_node] at this
      subst this
      simp [Shr.leaf, Shr.flatMap, flatMapList, withShrinks]
    rw [e] at h2
    exact .step (by rw [shrinks_node, shrinks_flatMap, h]; rfl) h2

theorem simplest_pair {a a' : Shr α} {b b' : Shr β} (ha : Simplest a a') (hb : Simplest b b') :
    Simplest (shrinkPair a b) (leaf (a'.value, b'.value)) := by
  obtain ⟨w, h1, h2, h3⟩ := simplest_shrinksOf (fun v => (leaf v, b)) (a, b) ha
    (fun p => p.1.value = a'.value ∧ p.2 = b)
    (fun h => ⟨by rw [(Simplest.done h).unique ha], rfl⟩) ⟨rfl, rfl⟩
  have h4 : Simplest ((leaf (a, b)).concat shrinkFirst) (leaf w) :=
    (simplest_leaf _).concat _ (by simpa [shrinkFirst] using h1)
  obtain ⟨w', h5, h6, h7⟩ := simplest_shrinksOf (fun v => (w.1, leaf v)) w hb
    (fun p => p.1.value = a'.value ∧ p.2.value = b'.value)
    (fun h => ⟨h2, by rw [h3, (Simplest.done h).unique hb]⟩) ⟨h2, rfl⟩
  have h8 : Simplest (((leaf (a, b)).concat shrinkFirst).concat shrinkSecond) (leaf w') :=
    h4.concat _ (by simpa [shrinkSecond, h3] using h5)
  have h9 := h8.flatMap fun p => leaf (p.1.value, p.2.value)
  rw [shrinkPair]
  simpa [Shr.leaf, Shr.flatMap, flatMapList, withShrinks, h6, h7] using h9

variable {n : Nat} {A : Fin n → Type}

theorem simplest_concatHelper {comps comps' : Tup A} (hc : ∀ i, Simplest (comps i) (comps' i)) :
    ∀ (k N : Nat) (_ : n - N = k) (t : Shr (Tup A)) (w : Tup A) (_ : Simplest t (leaf w))
      (_ : ∀ i : Fin n, i.val < N → (w i).value = (comps' i).value) (_ : ∀ i : Fin n, N ≤ i.val → w i = comps i),
    ∃ w', Simplest (concatHelper N t) (leaf w') ∧ ∀ i, (w' i).value = (comps' i).value := by
  intro k
  induction k with
  | zero =>
    intro N hN t w ht h1 _
    rw [concatHelper, dif_neg (by omega)]
    exact ⟨w, ht, fun i => h1 i (by omega)⟩
  | succ k ih =>
    intro N hN t w ht h1 h2
    rw [concatHelper, dif_pos (by omega)]
    have hlt : N < n := by omega
    obtain ⟨w', h3, h4⟩ := simplest_shrinksOf (fun v => Function.update w ⟨N, hlt⟩ (leaf v)) w (hc ⟨N, hlt⟩)
      (fun p => ∀ i : Fin n, (i.val ≤ N → (p i).value = (comps' i).value) ∧ (N < i.val → p i = comps i))
      (fun h i => ⟨fun hi => by
          rcases Nat.lt_or_eq_of_le hi with hi | hi
          · exact h1 i hi
          · obtain rfl : i = ⟨N, hlt⟩ := Fin.ext hi
            rw [h2 _ (Nat.le_refl _), (Simplest.done h).unique (hc _)], fun hi => h2 i (by omega)⟩)
      (fun i => ⟨fun hi => by
          rcases Nat.lt_or_eq_of_le hi with hi | hi
          · rw [Function.update_of_ne (by intro e; subst e; exact absurd hi (Nat.lt_irrefl _))]
            exact h1 i hi
          · obtain rfl : i = ⟨N, hlt⟩ := Fin.ext hi
            simp, fun hi => by
          rw [Function.update_of_ne (by intro e; subst e; exact absurd hi (Nat.lt_irrefl _))]
          exact h2 i (by omega)⟩)
    refine ih (N + 1) (by omega) _ w' (ht.concat _ ?_) (fun i hi => (h4 i).1 (by omega)) (fun i hi => (h4 i).2 (by omega))
    simpa [genStream, h2 ⟨N, hlt⟩ (Nat.le_refl _)] using h3

theorem simplest_tuple {comps comps' : Tup A} (hc : ∀ i, Simplest (comps i) (comps' i)) :
    Simplest (shrinkTuple comps) (leaf fun i => (comps' i).value) := by
  obtain ⟨w, h1, h2⟩ := simplest_concatHelper hc _ 0 rfl (leaf comps) comps (simplest_leaf _)
    (fun i hi => absurd hi (Nat.not_lt_zero _)) (fun i _ => rfl)
  have h3 := h1.flatMap fun t => leaf fun i => (t i).value
  rw [shrinkTuple]
  have e : (fun i => (w i).value) = fun i => (comps' i).value := funext h2
  simpa [Shr.leaf, Shr.flatMap, flatMapList, withShrinks, e] using h3

end PairTuple
end Verif
