import Verif.Lemmas.Erasure
/-
C171: values come out as what they were put in as, although the library keeps them as `shared_ptr<void>`.
-/
namespace Verif
namespace Erasure
open Shr
variable {σ T : Type} {V : T → Type} [DecidableEq T]

/-- C171. The operations on shrinkables never read a value as another type than its own: for shrinkables of one type, with
functions of that type, they do what they would do without erasure. -/
theorem C171_shrinkables {t u : T} (s : Shr (V t)) :
    getAs t (erase t s) = .ok s.value ∧
    (∀ f : V t → V u, mapE (anyFunction f) (erase t s) = .ok (erase u (s.map f))) ∧
    (∀ f : V t → Shr (V u), flatMapE (shrinkableAnyFunction fun x => erase u (f x)) (erase t s) = .ok (erase u (s.flatMap f))) ∧
    (∀ f : Shr (V t) → Shr (V u),
      mapShrinkableE (shrinkableFunction fun x => erase u (f x)) (erase t s) = .ok (erase u (s.mapShrinkable f))) ∧
    (∀ c : V t → Bool, filterShrE (boolFunction c) (erase t s) = (do let r ← s.filter c; pure (erase t r))) ∧
    (∀ (c : V t → Bool) (n : Int), filterTolE (boolFunction c) n (erase t s) = (do let r ← s.filterTol c n; pure (erase t r))) ∧
    (∀ k : Shr (V t) → List (Shr (V t)), concatE (streamFunction k) (erase t s) = .ok (erase t (s.concat k))) ∧
    (∀ k : Shr (V t) → List (Shr (V t)), andThenE (streamFunction k) (erase t s) = .ok (erase t (s.andThen k))) ∧
    (∀ n : Int, (erase t s).take n = erase t (s.take n)) := by
  have hk : ∀ (k : Shr (V t) → List (Shr (V t))) (s : Shr (V t)),
      streamFunction k (s.map fun x => ⟨t, x⟩) = .ok ((k s).map (Shr.map fun x => (⟨t, x⟩ : Obj V))) := by
    intro k s
    have := readAs_erase t s
    unfold erase at this
    simp only [streamFunction, this, Outcome.ok_bind, Outcome.pure_eq]
    rfl
  refine ⟨?_, ?_, ?_, ?_, ?_, ?_, ?_, ?_, ?_⟩
  · rw [getAs, value_erase, cast_self]
  · intro f
    unfold erase
    rw [mapE_map, mapE_ok _ (fun x => (⟨u, f x⟩ : Obj V)) s (fun v _ => by simp [anyFunction, cast_self]), map_map]
  · intro f
    unfold erase
    rw [flatMapE_map, flatMapE_ok _ (fun x => (f x).map fun y => (⟨u, y⟩ : Obj V)) s
      (fun v _ => by simp [shrinkableAnyFunction, cast_self]), flatMap_eq_map, flatMap_eq_map, map_map]
    simp only [value_map]
  · intro f
    unfold erase
    rw [mapShrinkableE_ok _ (fun x => (f x).map fun y => (⟨u, y⟩ : Obj V))]
    · congr 1
      induction s using Shr.ind with
      | h v ss ih =>
        simp only [mapShrinkable, withShrinks, mapShrinkableList_eq, map_node, value_map, List.map_map]
        congr 1
        exact List.map_congr_left ih
    · intro s
      have := readAs_erase t s
      unfold erase at this
      simp only [shrinkableFunction, this, Outcome.ok_bind, Outcome.pure_eq]
  · intro c
    unfold filterShrE
    rw [value_erase]
    have := filterKeptE_ok (boolFunction c) c (fun y : V t => (⟨t, y⟩ : Obj V))
          (fun a => by simp [boolFunction, cast_self]) s
    simp only [boolFunction, cast_self, Outcome.ok_bind, Outcome.pure_eq, Shr.filter]
    cases c s.value
    · rfl
    · simp only [if_true, Outcome.ok_bind]
      exact this
  · intro c n
    unfold filterTolE
    rw [value_erase]
    have := filterTolKeptE_ok (boolFunction c) c (fun y : V t => (⟨t, y⟩ : Obj V))
          (fun a => by simp [boolFunction, cast_self]) n s
    simp only [boolFunction, cast_self, Outcome.ok_bind, Outcome.pure_eq, Shr.filterTol]
    cases c s.value
    · rfl
    · simp only [if_true, Outcome.ok_bind]
      exact this
  · intro k
    exact concatE_ok _ k _ (hk k) s
  · intro k
    exact andThenE_ok _ k _ (hk k) s
  · intro n
    exact take_map _ n s

/-- Two types. -/
def twoTypes : Bool → Type
  | true => Int
  | false => List Nat

example : mapE (anyFunction (V := twoTypes) (t := true) (u := false) fun x : Int => [x.toNat, 1])
    (erase (V := twoTypes) true (node (5 : Int) [leaf (2 : Int)])) =
      .ok (node ⟨false, ([5, 1] : List Nat)⟩ [node ⟨false, ([2, 1] : List Nat)⟩ []]) :=
  (C171_shrinkables (V := twoTypes) (t := true) (u := false) (node (5 : Int) [leaf (2 : Int)])).2.1 _

/-- C171. Exactly when mapping reads a value as what it is not: when somewhere in the tree there is a value of another type. -/
theorem C171_exact {t u : T} (f : V t → V u) (s : AnyShr V) :
    mapE (anyFunction f) s = .ub ↔ ∃ o, Reach s o ∧ o.ty ≠ t := by
  rw [(mapE_ub (anyFunction f) s (fun o => by
    unfold anyFunction
    rcases cast_cases o t with ⟨x, h⟩ | h <;> simp [h])).1]
  constructor
  · rintro ⟨o, h1, h2⟩
    refine ⟨o, h1, fun e => ?_⟩
    subst e
    have := cast_self o.ty o.val
    simp [anyFunction, this] at h2
  · rintro ⟨o, h1, h2⟩
    exact ⟨o, h1, by simp [anyFunction, cast_other h2]⟩

example : mapE (anyFunction (V := twoTypes) (t := true) (u := false) fun x : Int => [x.toNat, 1])
    (node ⟨true, (5 : Int)⟩ [node ⟨false, ([5, 1] : List Nat)⟩ []]) = .ub :=
  (C171_exact _ _).2 ⟨⟨false, ([5, 1] : List Nat)⟩,
    .child (t := (node ⟨true, (5 : Int)⟩ [node ⟨false, ([5, 1] : List Nat)⟩ []] : AnyShr twoTypes)) (List.mem_singleton.2 rfl) (.self _), by simp⟩

/-- C171 (partial: the generators are of the type they are used as). Generators made of generators give what they would give
without erasure. -/
theorem C171_generators_partial (R : Rng σ) {t u : T} (g : Gen σ (V t)) :
    (∀ f : V t → V u, transformE (eraseGen t g) f = eraseGen u (Comb.transform g f)) ∧
    (∀ (c : V t → Bool) (fuel : Nat), filterE (eraseGen t g) c fuel = eraseGen t (Comb.filter g c fuel)) ∧
    (∀ minSize maxSize : Nat, arbiVectorE R t (eraseGen t g) minSize maxSize = ListLike.arbiVector R g minSize maxSize) ∧
    (∀ s, argument t (eraseGen t g) s = (do let (x, s) ← g s; pure (x.value, s))) := by
  refine ⟨?_, ?_, ?_, ?_⟩
  · intro f
    funext s
    simp only [transformE, eraseGen, Comb.transform]
    cases g s with
    | ok p => simp only [Outcome.ok_bind, Outcome.pure_eq, (C171_shrinkables (u := u) p.1).2.1 f]
    | _ => rfl
  · intro c fuel
    funext s
    exact filterE_erase g c fuel s
  · intro m n
    funext s
    simp only [arbiVectorE, ListLike.arbiVector, drawMany_erase]
    cases Random.getRandomSize R m (n + 1) s with
    | ok p =>
      obtain ⟨k, s1⟩ := p
      simp only [Outcome.ok_bind]
      cases ListLike.drawMany g k.toNat s1 with
      | ok q =>
        obtain ⟨xs, s2⟩ := q
        simp only [Outcome.ok_bind, Outcome.pure_eq, listLikeE_erase]
      | _ => rfl
    | _ => rfl
  · intro s
    simp only [argument, eraseGen]
    cases g s with
    | ok p => simp only [Outcome.ok_bind, Outcome.pure_eq, getAs, value_erase, cast_self]
    | _ => rfl

example (R : Rng σ) (s : σ) :
    argument true (eraseGen (V := twoTypes) true fun s => .ok (leaf (5 : Int), s)) s = .ok ((5 : Int), s) :=
  (C171_generators_partial (V := twoTypes) R (t := true) (u := true) _).2.2.2 s

/-- C171, violated. Nothing keeps a generator of one type from being used as one of another: `transform`, `filter`, the
arguments of a property and the elements of a vector are then values read as what they are not. -/
theorem C171_other_type_violated (R : Rng σ) {t u : T} (h : u ≠ t) (g : Gen σ (V u)) (hg : ∀ s, ∃ x s', g s = .ok (x, s')) (s : σ) :
    argument t (eraseGen u g) s = .ub ∧
    (∀ (w : T) (f : V t → V w), transformE (eraseGen u g) f s = .ub) ∧
    (∀ (c : V t → Bool) (fuel : Nat), filterE (eraseGen u g) c (fuel + 1) s = .ub) ∧
    (∀ minSize maxSize : Nat, 0 < minSize → minSize ≤ maxSize → maxSize < 2 ^ 32 →
      arbiVectorE R t (eraseGen u g) minSize maxSize s = .ub) := by
  obtain ⟨x, s1, hx⟩ := hg s
  have hv : (erase u x).value.ty ≠ t := by rw [value_erase]; exact h
  refine ⟨?_, ?_, ?_, ?_⟩
  · simp only [argument, eraseGen, hx, Outcome.ok_bind, Outcome.pure_eq, getAs, cast_other hv, Outcome.ub_bind]
  · intro w f
    have := (C171_exact f (erase u x)).2 ⟨_, .self _, hv⟩
    simp only [transformE, eraseGen, hx, Outcome.ok_bind, Outcome.pure_eq, this, Outcome.ub_bind]
  · intro c fuel
    simp only [filterE, eraseGen, hx, Outcome.ok_bind, Outcome.pure_eq, boolFunction, cast_other hv, Outcome.ub_bind]
  · intro m n hm hmn hn
    obtain ⟨k, s2, hk, h1, h2⟩ := getRandomSize_ok R (a := m) (b := n + 1) s (by omega) (by omega)
    obtain ⟨j, hj⟩ : ∃ j, k.toNat = j + 1 := ⟨k.toNat - 1, by omega⟩
    simp only [arbiVectorE, hk, Outcome.ok_bind, drawMany_erase, hj]
    have hd : ∀ (n : Nat) (s : σ), ∃ xs s', ListLike.drawMany g n s = .ok (xs, s') ∧ xs.length = n := by
      intro n
      induction n with
      | zero => exact fun s => ⟨[], s, rfl, rfl⟩
      | succ n ih =>
        intro s
        obtain ⟨y, s3, hy⟩ := hg s
        obtain ⟨ys, s4, hys, hl⟩ := ih s3
        exact ⟨y :: ys, s4, by simp [ListLike.drawMany, hy, hys], by simp [hl]⟩
    obtain ⟨xs, s3, hxs, hl⟩ := hd (j + 1) s2
    cases xs with
    | nil => simp at hl
    | cons y ys =>
      have hy : (erase u y).value.ty ≠ t := by rw [value_erase]; exact h
      simp only [hxs, Outcome.ok_bind, Outcome.pure_eq, List.map_cons]
      rw [listLikeE_other t _ _ m true (by simp at hl ⊢; omega) hy]
      rfl

example (R : Rng σ) (s : σ) :
    argument true (eraseGen (V := twoTypes) false fun s => .ok (leaf ([1, 2] : List Nat), s)) s = .ub :=
  (C171_other_type_violated (V := twoTypes) R (by simp) _ (fun s => ⟨_, s, rfl⟩) s).1

end Erasure
end Verif
