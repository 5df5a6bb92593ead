import Verif.Lemmas.Tree
import Verif.Model.Combinator
import Verif.Model.PairTuple
/-
Mapping the values of trees commutes with the functions that build trees.
-/
namespace Verif
namespace Shr
variable {α β γ δ : Type}

theorem map_map' (f : α → β) (g : β → γ) (t : Shr α) : (t.map f).map g = t.map fun v => g (f v) := by
  induction t using Shr.ind with
  | h v ss ih =>
    simp only [map_node, List.map_map, node.injEq, true_and]
    exact List.map_congr_left fun s hs => ih s hs

theorem takeInt_of_map (h : α → β) (n : Int) (l : List α) : takeInt n (l.map h) = (takeInt n l).map h := by
  induction l generalizing n with
  | nil => simp [takeInt]
  | cons x xs ih =>
    simp only [List.map_cons, takeInt]
    split
    · simp
    · simp [ih]

theorem filterStream_of_map (f : α → β) (c : β → Bool) (n : Int) (l : List (Shr α)) :
    filterStream c n (l.map (map f)) = (filterStream (fun v => c (f v)) n l).map (map f) := by
  fun_induction filterStream (fun v => c (f v)) n l with
  | case1 => simp [filterStream]
  | case2 s ss h ih =>
    rw [List.map_cons, filterStream]
    simp [h, ih]
  | case3 s ss h ih =>
    rw [List.map_cons, filterStream]
    simp only [value_map, h, Bool.false_eq_true, ↓reduceIte, shrinks_map, takeInt_of_map, ← List.map_append, ih]

theorem ext_value_shrinks {t u : Shr α} (hv : t.value = u.value) (hs : t.shrinks = u.shrinks) : t = u := by
  cases t; cases u; simp_all

theorem filterTolKept_of_map (f : α → β) (c : β → Bool) (n : Int) : ∀ (k : Nat) (t : Shr α), nodes t ≤ k →
    filterTolKept c n (map f t) = map f (filterTolKept (fun v => c (f v)) n t) := by
  intro k
  induction k with
  | zero => intro t h; cases t; simp [nodes] at h
  | succ k ih =>
    intro t h
    refine ext_value_shrinks (by simp) ?_
    simp only [shrinks_filterTolKept, shrinks_map, filterStream_of_map, List.map_map]
    refine List.map_congr_left fun s hs => ih s ?_
    have h1 := nodes_lt_of_mem hs
    have h2 := nodes_go_filterStream (fun v => c (f v)) n t.shrinks
    cases t
    simp only [nodes, shrinks] at *
    omega

theorem filterTol_of_map (f : α → β) (c : β → Bool) (n : Int) (t : Shr α) :
    filterTol c n (map f t) = (filterTol (fun v => c (f v)) n t).bind fun t => .ok (map f t) := by
  simp only [filterTol, value_map]
  split
  · simp [Outcome.bind, filterTolKept_of_map f c n _ t (Nat.le_refl _)]
  · simp [Outcome.bind]

theorem concat_of_map (f : α → β) (k : Shr α → List (Shr α)) (k' : Shr β → List (Shr β))
    (h : ∀ t, k' (map f t) = (k t).map (map f)) (t : Shr α) : concat k' (map f t) = map f (concat k t) := by
  induction t using Shr.ind with
  | h v ss ih =>
    refine ext_value_shrinks (by simp) ?_
    rw [shrinks_concat, shrinks_map, shrinks_map, shrinks_concat, h, List.map_append]
    congr 1
    simp only [shrinks_node, List.map_map]
    exact List.map_congr_left fun s hs => ih s hs

theorem andThen_of_map (f : α → β) (k : Shr α → List (Shr α)) (k' : Shr β → List (Shr β))
    (h : ∀ t, k' (map f t) = (k t).map (map f)) (t : Shr α) : andThen k' (map f t) = map f (andThen k t) := by
  induction t using Shr.ind with
  | h v ss ih =>
    refine ext_value_shrinks (by simp) ?_
    by_cases he : ss = []
    · subst he
      rw [shrinks_map, shrinks_andThen_nil _ (by simp), shrinks_andThen_nil _ (by simp), h]
    · rw [shrinks_map, shrinks_andThen_ne _ (by simpa using he), shrinks_andThen_ne _ (by simpa using he), shrinks_map]
      simp only [shrinks_node, List.map_map]
      exact List.map_congr_left fun s hs => ih s hs

end Shr

namespace ListLike
open Shr
variable {α β δ ε : Type}

theorem range_of_map (h : δ → ε) (m rear : Nat) (xs : List δ) :
    frontAndMid.range m rear (xs.map h) = (frontAndMid.range m rear xs).map (List.map h) := by
  simp only [frontAndMid.range, List.length_map, flatMap_eq_map, map_map', value_leaf, List.map_append, List.map_take, List.map_drop]

theorem frontAndMid_of_map (h : δ → ε) (m fuel rear : Nat) (xs : List δ) :
    frontAndMid m fuel rear (xs.map h) = (frontAndMid m fuel rear xs).map (List.map h) := by
  induction fuel generalizing rear xs with
  | zero => simp only [frontAndMid, range_of_map]
  | succ fuel ih =>
    simp only [frontAndMid]
    rw [range_of_map]
    refine concat_of_map _ _ _ (fun t => ?_) _
    simp only [value_map, List.length_map]
    split
    · simp
    · rw [ih, shrinks_map]

theorem bulkRound_of_map (f : Shr α → Shr β) (anc : List (Shr α)) (sts : List (List (Shr α))) :
    bulkRound (anc.map f) (sts.map (List.map f)) = (bulkRound anc sts).map f := by
  induction anc generalizing sts with
  | nil => simp [bulkRound]
  | cons a anc ih =>
    match sts with
    | [] => simp [bulkRound]
    | [] :: sts => simpa [bulkRound] using ih sts
    | (x :: xs) :: sts => simpa [bulkRound] using ih sts

theorem bulkRounds_of_map (f : Shr α → Shr β) (anc : List (Shr α)) (sts : List (List (Shr α))) :
    bulkRounds (anc.map f) (sts.map (List.map f)) = (bulkRounds anc sts).map (List.map f) := by
  fun_induction bulkRounds anc sts with
  | case1 sts h =>
    rw [bulkRounds, dif_pos]
    · simp
    · simpa using h
  | case2 sts h ih =>
    rw [bulkRounds, dif_neg]
    · have e : bulkTails (sts.map (List.map f)) = (bulkTails sts).map (List.map f) := by
        simp [bulkTails]
      rw [bulkRound_of_map, e, ih, List.map_cons]
    · simpa using h

theorem bulk_unfold (anc : List (Shr α)) :
    bulk anc = (bulkRounds anc (anc.map Shr.shrinks)).map fun v => node v (bulk v) := by
  rw [bulk]; exact List.attach_map_val (f := fun v => node v (bulk v))

theorem bulk_of_map (f : α → β) : ∀ (n : Nat) (anc : List (Shr α)), nodes.go anc ≤ n →
    bulk (anc.map (map f)) = (bulk anc).map (map (List.map (map f))) := by
  intro n
  induction n with
  | zero =>
    intro anc h
    cases anc with
    | nil => rw [bulk_unfold, bulk_unfold]; simp [bulkRounds]
    | cons a as => cases a; simp [nodes.go, nodes] at h
  | succ n ih =>
    intro anc h
    have e : (anc.map (map f)).map Shr.shrinks = (anc.map Shr.shrinks).map (List.map (map f)) := by
      simp
    rw [bulk_unfold, bulk_unfold, e, bulkRounds_of_map, List.map_map, List.map_map]
    refine List.map_congr_left fun v hv => ?_
    have := nodes_bulkRounds anc _ (forall₂_shrinks anc) hv
    simp [ih v (by omega)]

theorem elementwise_of_map (f : α → β) (t : Shr (List (Shr α))) :
    elementwise (t.map (List.map (map f))) = (elementwise t).map (map (List.map (map f))) := by
  simp only [elementwise, value_map, List.isEmpty_map]
  split
  · simp
  · rw [concat_of_map (List.map (map f)) (fun shr => if shr.value.length < 1 then [] else bulk shr.value), shrinks_map]
    intro t
    simp only [value_map, List.length_map]
    split
    · simp
    · exact bulk_of_map f _ _ (Nat.le_refl _)

theorem membershipwise_of_map (h : δ → ε) (xs : List δ) (m : Nat) :
    membershipwise (xs.map h) m = (membershipwise xs m).bind fun t => .ok (t.map (List.map h)) := by
  simp only [membershipwise, List.length_map]
  split
  · rfl
  · simp [Outcome.bind, frontAndMid_of_map]

theorem listLike_of_map (f : α → β) (xs : List (Shr α)) (m : Nat) (e : Bool) :
    listLike (xs.map (map f)) m e = (listLike xs m e).bind fun t => .ok (t.map (List.map f)) := by
  simp only [listLike, membershipwise_of_map]
  cases membershipwise xs m with
  | ok t =>
    simp only [Outcome.bind, Outcome.ok_bind, Outcome.pure_eq]
    congr 1
    cases e with
    | true =>
      simp only [↓reduceIte, flatMap_eq_map]
      rw [andThen_of_map (List.map (map f)) elementwise elementwise (elementwise_of_map f), map_map', map_map']
      simp only [List.map_map, Function.comp_def, value_map, value_leaf]
    | false => simp [flatMap_eq_map, map_map', Function.comp_def]
  | _ => rfl

theorem listLikeLength_of_map (h : δ → ε) (xs : List δ) (m : Nat) :
    listLikeLength (xs.map h) m = (listLikeLength xs m).bind fun t => .ok (t.map (List.map h)) := by
  simp only [listLikeLength, List.length_map]
  split
  · rfl
  · simp [Outcome.bind, map_map']

end ListLike

namespace PairTuple
open Shr
variable {α β α' β' : Type}

theorem shrinkPair_of_map (f : α → α') (k : β → β') (a : Shr α) (b : Shr β) :
    shrinkPair (a.map f) (b.map k) = (shrinkPair a b).map (Prod.map f k) := by
  have h1 : ∀ t : Shr (Shr α × Shr β), shrinkFirst (t.map (Prod.map (map f) (map k))) =
      (shrinkFirst t).map (map (Prod.map (map f) (map k))) := fun t => by
    simp [shrinkFirst, flatMap_eq_map, map_map']
  have h2 : ∀ t : Shr (Shr α × Shr β), shrinkSecond (t.map (Prod.map (map f) (map k))) =
      (shrinkSecond t).map (map (Prod.map (map f) (map k))) := fun t => by
    simp [shrinkSecond, flatMap_eq_map, map_map']
  have e : (leaf (a.map f, b.map k) : Shr (Shr α' × Shr β')) = (leaf (a, b)).map (Prod.map (map f) (map k)) := by simp
  rw [shrinkPair, e, concat_of_map _ _ _ h1, concat_of_map _ _ _ h2, shrinkPair]
  simp [flatMap_eq_map, map_map']

variable {n : Nat} {A B : Fin n → Type}

/-- Applies a function to each component. -/
def mapTup (f : (i : Fin n) → A i → B i) (t : Tup A) : Tup B := fun i => (t i).map (f i)

theorem genStream_of_map (f : (i : Fin n) → A i → B i) (N : Fin n) (t : Shr (Tup A)) :
    genStream N (t.map (mapTup f)) = (genStream N t).map (map (mapTup f)) := by
  simp only [genStream, flatMap_eq_map, value_map, mapTup, shrinks_map, map_map', value_leaf, List.map_map]
  refine List.map_congr_left fun s _ => ?_
  simp only [Function.comp, map_map']
  congr 1
  funext v i
  by_cases h : i = N
  · subst h; simp [mapTup]
  · simp [mapTup, h]

theorem concatHelper_of_map (f : (i : Fin n) → A i → B i) (N : Nat) (t : Shr (Tup A)) :
    concatHelper N (t.map (mapTup f)) = (concatHelper N t).map (mapTup f) := by
  fun_induction concatHelper N t with
  | case1 N t h ih =>
    rw [concatHelper, dif_pos h, concat_of_map _ _ _ (genStream_of_map f ⟨N, h⟩), ih]
  | case2 N t h => rw [concatHelper, dif_neg h]

theorem shrinkTuple_of_map (f : (i : Fin n) → A i → B i) (t : Tup A) :
    shrinkTuple (mapTup f t) = (shrinkTuple t).map fun v i => f i (v i) := by
  have e : (leaf (mapTup f t) : Shr (Tup B)) = (leaf t).map (mapTup f) := by simp
  rw [shrinkTuple, e, concatHelper_of_map, shrinkTuple, flatMap_eq_map, flatMap_eq_map, map_map', map_map']
  simp [mapTup]

end PairTuple
end Verif
