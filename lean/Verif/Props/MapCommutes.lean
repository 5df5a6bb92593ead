import Verif.Lemmas.MapCommutes
import Verif.Model.Containers
/-
C194: mapping the values of a generator before or after the other combinators.
-/
namespace Verif
namespace Comb
open Shr ListLike Containers PairTuple
variable {σ α β γ δ : Type}

/-- **C194, filter.** Filtering mapped values is mapping the values whose images satisfy the condition: the same values with the
same shrinks, the same use of the engine, after the same number of attempts. -/
theorem C194_filter (g : Gen σ α) (f : α → β) (c : β → Bool) (fuel : Nat) :
    filter (transform g f) c fuel = transform (filter g (fun v => c (f v)) fuel) f := by
  funext s
  induction fuel generalizing s with
  | zero => rfl
  | succ fuel ih =>
    simp only [filter, transform]
    cases g s with
    | ok x =>
      obtain ⟨t, s'⟩ := x
      simp only [Outcome.ok_bind, Outcome.pure_eq, value_map]
      split
      · rename_i h
        simp [filterTol, h, filterTolKept_of_map f c 1 _ t (Nat.le_refl _)]
      · exact ih s'
    | _ => rfl

/-- An alternative of `oneOf` whose values are mapped, `weightedGen(g.map(f), w)`. -/
def Weighted.map (f : α → β) (w : Weighted σ α) : Weighted σ β := { w with gen := transform w.gen f }

/-- **C194, oneOf.** Choosing one of several mapped generators is mapping the choice: the weights are accepted or refused alike, and
the generators made use the engine in the same way. -/
theorem C194_oneOf (R : Rng σ) (f : α → β) (gens : List (Weighted σ α)) (fuel : Nat) :
    ((oneOf (gens.map (Weighted.map f))).bind fun l => .ok (oneOfLoop R l fuel)) =
      (oneOf gens).bind fun l => .ok (transform (oneOfLoop R l fuel) f) := by
  have hretry : ∀ (w : Weighted σ α) (n : Nat), retry (w.map f) n = transform (retry w n) f := by
    intro w n
    funext s
    induction n generalizing s with
    | zero => rfl
    | succ n ih =>
      simp only [retry, Weighted.map, transform] at ih ⊢
      cases w.gen s with
      | ok x => rfl
      | throws e => cases e <;> first | exact ih _ | rfl
      | _ => rfl
  have hloop : ∀ (l : List (Weighted σ α)) (n : Nat), oneOfLoop R (l.map (Weighted.map f)) n = transform (oneOfLoop R l n) f := by
    intro l n
    funext s
    induction n generalizing s with
    | zero => rfl
    | succ n ih =>
      simp only [oneOfLoop, transform, List.length_map, List.getElem?_map]
      cases Random.getRandomSize R 0 l.length s with
      | ok x =>
        obtain ⟨d, s⟩ := x
        simp only [Outcome.ok_bind]
        cases l[d.toNat]? with
        | none => rfl
        | some w =>
          simp only [Option.map_some]
          have hw : (w.map f).weight = w.weight := rfl
          rw [hw]
          cases threshold w.weight with
          | ok thr =>
            simp only [Outcome.ok_bind]
            split
            · rw [hretry]; rfl
            · exact ih _
          | _ => rfl
      | _ => rfl
  have hone : oneOf (gens.map (Weighted.map f)) = (oneOf gens).bind fun l => .ok (l.map (Weighted.map f)) := by
    simp only [oneOf, List.map_map]
    have : ((fun w : Weighted σ β => w.weight) ∘ Weighted.map f) = fun w : Weighted σ α => w.weight := rfl
    rw [this]
    cases assignWeights (gens.map fun w => w.weight) with
    | ok ws =>
      simp only [Outcome.ok_bind, Outcome.pure_eq, Outcome.bind, Outcome.ok.injEq]
      rw [List.zipWith_map_left, List.map_zipWith]
      rfl
    | _ => rfl
  rw [hone]
  cases oneOf gens with
  | ok l => simp [Outcome.bind, hloop]
  | _ => rfl

/-- **C194, elementOf.** Choosing one of the images of values is mapping the choice of one of the values. -/
theorem C194_elementOf (R : Rng σ) (f : α → β) (vals : List (α × Dbl)) (fuel : Nat) :
    ((elementOf (vals.map fun v => (f v.1, v.2))).bind fun l => .ok (oneOfLoop R l fuel)) =
      (elementOf vals).bind fun l => .ok (transform (oneOfLoop R l fuel) f) := by
  rw [elementOf, elementOf, ← C194_oneOf, List.map_map, List.map_map]
  congr 2

theorem drawMany_of_map (g : Gen σ α) (f : α → β) (n : Nat) (s : σ) :
    drawMany (transform g f) n s = (drawMany g n s).bind fun r => .ok (r.1.map (Shr.map f), r.2) := by
  induction n generalizing s with
  | zero => rfl
  | succ n ih =>
    simp only [drawMany, transform]
    cases g s with
    | ok x =>
      obtain ⟨t, s'⟩ := x
      simp only [Outcome.ok_bind, Outcome.pure_eq, ih s']
      cases drawMany g n s' <;> rfl
    | _ => rfl

/-- **C194, vectors and lists.** A vector of mapped values is the mapped vector of values: the same elements and the same shrinks in
the same order, with the same use of the engine. -/
theorem C194_vector (R : Rng σ) (g : Gen σ α) (f : α → β) (minSize maxSize : Nat) :
    arbiVector R (transform g f) minSize maxSize = transform (arbiVector R g minSize maxSize) (List.map f) := by
  funext s
  simp only [arbiVector]
  rw [transform]
  simp only [arbiVector]
  cases Random.getRandomSize R minSize (maxSize + 1) s with
  | ok x =>
    simp only [Outcome.ok_bind, drawMany_of_map]
    cases drawMany g x.1.toNat x.2 with
    | ok y =>
      simp only [Outcome.bind, Outcome.ok_bind, listLike_of_map]
      cases listLike y.1 minSize true <;> rfl
    | _ => rfl
  | _ => rfl

/-- **C194, strings.** A string of mapped characters is the mapped string. -/
theorem C194_string (R : Rng σ) (g : Gen σ α) (f : α → β) (minSize maxSize : Nat) :
    arbiString R (transform g f) minSize maxSize = transform (arbiString R g minSize maxSize) (List.map f) := by
  have hs : ∀ str : List α, shrinkString (str.map f) minSize = (shrinkString str minSize).map (List.map f) := by
    intro str
    simp only [shrinkString]
    have : shrinkRear (str.map f) minSize = (shrinkRear str minSize).map (List.map f) := by
      simp [shrinkRear, map_map', List.map_take]
    rw [this]
    refine concat_of_map _ _ _ (fun t => ?_) _
    simp only [shrinkFront, value_map, List.length_map]
    split
    · rfl
    · simp only [shrinks_map, List.map_map, Function.comp_def, map_map', List.map_take, List.map_drop]
  funext s
  simp only [arbiString]
  rw [transform]
  simp only [arbiString]
  cases Random.getRandomSize R minSize (maxSize + 1) s with
  | ok x =>
    simp only [Outcome.ok_bind, drawMany_of_map]
    cases drawMany g x.1.toNat x.2 with
    | ok y =>
      simp only [Outcome.bind, Outcome.ok_bind, Outcome.pure_eq]
      rw [← hs]
      simp [Function.comp_def]
    | _ => rfl
  | _ => rfl

theorem insertBy_of_map {κ κ' ε ζ : Type} [LinearOrder κ] [LinearOrder κ'] (key : ε → κ) (key' : ζ → κ') (h : ε → ζ)
    (hk : ∀ a b, key' (h a) < key' (h b) ↔ key a < key b) (x : ε) (l : List ε) :
    insertBy key' (h x) (l.map h) = (insertBy key x l).map h := by
  induction l with
  | nil => rfl
  | cons y ys ih =>
    simp only [List.map_cons, insertBy, hk]
    split
    · rfl
    · split
      · simp [ih]
      · rfl

theorem insertAll_of_map {κ κ' ε ζ : Type} [LinearOrder κ] [LinearOrder κ'] (key : ε → κ) (key' : ζ → κ') (h : ε → ζ)
    (hk : ∀ a b, key' (h a) < key' (h b) ↔ key a < key b) (l : List ε) :
    insertAll key' (l.map h) = (insertAll key l).map h := by
  have : ∀ (l acc : List ε), (l.map h).foldl (fun acc x => insertBy key' x acc) (acc.map h) =
      (l.foldl (fun acc x => insertBy key x acc) acc).map h := by
    intro l
    induction l with
    | nil => intro acc; rfl
    | cons x l ih =>
      intro acc
      simp only [List.map_cons, List.foldl_cons]
      rw [insertBy_of_map key key' h hk, ih]
  exact this l []

theorem fillSet_of_map [LinearOrder α] [LinearOrder β] (g : Gen σ α) (f : α → β) (hf : ∀ a b, f a < f b ↔ a < b) (size fuel : Nat)
    (acc : List (Shr α)) (s : σ) :
    fillSet (transform g f) size fuel (acc.map (Shr.map f)) s =
      (fillSet g size fuel acc s).bind fun r => .ok (r.1.map (Shr.map f), r.2) := by
  induction fuel generalizing acc s with
  | zero => simp only [fillSet, List.length_map]; split <;> rfl
  | succ fuel ih =>
    simp only [fillSet, List.length_map]
    split
    · rw [transform]
      cases g s with
      | ok x =>
        simp only [Outcome.ok_bind, Outcome.pure_eq]
        rw [insertBy_of_map Shr.value Shr.value (Shr.map f) (fun a b => by simp [hf]), ih]
      | _ => rfl
    · rfl

/-- **C194, sets.** A set of values mapped by a strictly increasing function is the mapped set. (Other functions may map several
elements to one, or change the order of the elements in the set, which is the order of the shrinks.) -/
theorem C194_set [LinearOrder α] [LinearOrder β] (R : Rng σ) (g : Gen σ α) (f : α → β) (hf : ∀ a b, f a < f b ↔ a < b)
    (minSize maxSize fuel : Nat) :
    arbiSet R (transform g f) minSize maxSize fuel = transform (arbiSet R g minSize maxSize fuel) (List.map f) := by
  funext s
  simp only [arbiSet]
  rw [transform]
  simp only [arbiSet]
  cases Random.getRandomSize R minSize (maxSize + 1) s with
  | ok x =>
    have := fillSet_of_map g f hf x.1.toNat fuel [] x.2
    rw [List.map_nil] at this
    simp only [Outcome.ok_bind, this]
    cases fillSet g x.1.toNat fuel [] x.2 with
    | ok y =>
      simp only [Outcome.bind, Outcome.ok_bind, shrinkSet, membershipwise_of_map]
      cases membershipwise y.1 minSize with
      | ok t =>
        simp only [Outcome.ok_bind, Outcome.pure_eq, flatMap_eq_map, map_map', value_leaf, List.map_map]
        have : ∀ v : List (Shr α), insertAll id (v.map (value ∘ Shr.map f)) = (insertAll id (v.map value)).map f := fun v => by
          rw [← insertAll_of_map (id : α → α) (id : β → β) f hf]
          simp [Function.comp_def]
        simp only [this]
      | _ => rfl
    | _ => rfl
  | _ => rfl

/-- **C194, maps.** A map whose keys are mapped by a strictly increasing function and whose values are mapped by any function is the
mapped map. -/
theorem C194_map [LinearOrder α] [LinearOrder β] (R : Rng σ) (g : Gen σ α) (h : Gen σ γ) (f : α → β) (k : γ → δ)
    (hf : ∀ a b, f a < f b ↔ a < b) (minSize maxSize fuel : Nat) :
    arbiMap R (transform g f) (transform h k) minSize maxSize fuel =
      transform (arbiMap R g h minSize maxSize fuel) (List.map (Prod.map f k)) := by
  have hs : ∀ xs : List (Shr α × Shr γ), shrinkMap (xs.map (Prod.map (Shr.map f) (Shr.map k))) minSize =
      (shrinkMap xs minSize).map (List.map (Prod.map f k)) := by
    intro xs
    simp only [shrinkMap, List.length_map, flatMap_eq_map, map_map', value_leaf]
    congr 1
    funext n
    rw [← insertAll_of_map Prod.fst Prod.fst (Prod.map f k) (fun a b => hf a.1 b.1)]
    by_cases hn : n = 0
    · simp [hn]
    · simp [hn, List.map_take, Function.comp_def]
  funext s
  simp only [arbiMap]
  rw [transform]
  simp only [arbiMap]
  cases Random.getRandomSize R minSize (maxSize + 1) s with
  | ok x =>
    have := fillSet_of_map g f hf x.1.toNat fuel [] x.2
    rw [List.map_nil] at this
    simp only [Outcome.ok_bind, this]
    cases fillSet g x.1.toNat fuel [] x.2 with
    | ok y =>
      simp only [Outcome.bind, Outcome.ok_bind, List.length_map, drawMany_of_map]
      cases drawMany h y.1.length y.2 with
      | ok z =>
        simp only [Outcome.ok_bind, Outcome.pure_eq]
        rw [List.zip_map, insertAll_of_map (fun e : Shr α × Shr γ => e.1.value) (fun e => e.1.value) (Prod.map (Shr.map f) (Shr.map k))
          (fun a b => by simp [hf]), hs]
      | _ => rfl
    | _ => rfl
  | _ => rfl

/-- **C194, pairs.** A pair of mapped values is the mapped pair, in whichever order the components are generated. -/
theorem C194_pair (first : Bool) (g : Gen σ α) (h : Gen σ γ) (f : α → β) (k : γ → δ) :
    pairOf first (transform g f) (transform h k) = transform (pairOf first g h) (Prod.map f k) := by
  funext s
  simp only [pairOf, transform]
  cases first with
  | true =>
    simp only [↓reduceIte]
    cases g s with
    | ok x =>
      simp only [Outcome.ok_bind, Outcome.pure_eq]
      cases h x.2 with
      | ok y => simp [shrinkPair_of_map]
      | _ => rfl
    | _ => rfl
  | false =>
    simp only [Bool.false_eq_true, ↓reduceIte]
    cases h s with
    | ok x =>
      simp only [Outcome.ok_bind, Outcome.pure_eq]
      cases g x.2 with
      | ok y => simp [shrinkPair_of_map]
      | _ => rfl
    | _ => rfl

section tuple
variable {n : Nat} {A B : Fin n → Type}

theorem drawTuple_of_map (gens : (i : Fin n) → Gen σ (A i)) (f : (i : Fin n) → A i → B i) (order : List (Fin n)) (s : σ) :
    Gen.drawTuple (fun i => transform (gens i) (f i)) order s =
      (Gen.drawTuple gens order s).bind fun r => .ok (mapTup f r.1, r.2) := by
  have h : ∀ (order : List (Fin n)) (acc : (i : Fin n) → Option (Shr (A i))) (s : σ),
      Gen.drawInto (fun i => transform (gens i) (f i)) order (fun i => (acc i).map (Shr.map (f i))) s =
        (Gen.drawInto gens order acc s).bind fun r => .ok ((fun i => (r.1 i).map (Shr.map (f i))), r.2) := by
    intro order
    induction order with
    | nil => intro acc s; rfl
    | cons i order ih =>
      intro acc s
      simp only [Gen.drawInto, transform]
      cases gens i s with
      | ok x =>
        simp only [Outcome.ok_bind, Outcome.pure_eq]
        rw [← ih]
        congr 1
        funext j
        by_cases e : i = j
        · subst e; simp
        · simp [e]
      | _ => rfl
  have h0 := h order (fun _ => none) s
  simp only [Option.map_none] at h0
  simp only [Gen.drawTuple, h0]
  cases Gen.drawInto gens order (fun _ => none) s with
  | ok x =>
    simp only [Outcome.bind, Outcome.ok_bind, Option.isSome_map]
    split
    · simp only [Outcome.ok.injEq, Prod.mk.injEq, and_true]
      funext i
      simp [mapTup]
    · rfl
  | _ => rfl

/-- **C194, tuples.** A tuple of mapped values is the mapped tuple, in whichever order the components are generated. -/
theorem C194_tuple (order : List (Fin n)) (gens : (i : Fin n) → Gen σ (A i)) (f : (i : Fin n) → A i → B i) :
    tupleOf order (fun i => transform (gens i) (f i)) = transform (tupleOf order gens) fun v i => f i (v i) := by
  funext s
  simp only [tupleOf, drawTuple_of_map]
  rw [transform]
  simp only [tupleOf]
  cases Gen.drawTuple gens order s with
  | ok x => simp [Outcome.bind, shrinkTuple_of_map]
  | _ => rfl

/-- **C194, construct.** An object constructed from mapped values is the object constructed by the constructor that maps its
arguments first. -/
theorem C194_construct (ctor : ((i : Fin n) → B i) → Outcome γ) (order : List (Fin n)) (gens : (i : Fin n) → Gen σ (A i))
    (f : (i : Fin n) → A i → B i) :
    construct ctor (fun i => transform (gens i) (f i)) order = construct (fun v => ctor fun i => f i (v i)) gens order := by
  funext s
  simp only [construct, drawTuple_of_map]
  cases Gen.drawTuple gens order s with
  | ok x => simp [Outcome.bind, mapTup]
  | _ => rfl
end tuple

/-- Doubled numbers that are not 4: the values 3, 2, 1 are drawn from the state. -/
private def three : Gen Nat Nat := fun s => .ok (.node s [.node (s - 1) [.leaf 0]], s + 1)

example : (filter (transform three fun v => 2 * v) (fun v => v != 4) 2 2).bind (fun r => .ok (r.1.value, r.1.shrinks.map Shr.value, r.2)) =
    .ok (6, [0], 4) := by decide +kernel
example : (transform (filter three (fun v => 2 * v != 4) 2) (fun v => 2 * v) 2).bind
    (fun r => .ok (r.1.value, r.1.shrinks.map Shr.value, r.2)) = .ok (6, [0], 4) := by
  rw [← C194_filter three (fun v => 2 * v) (fun v => v != 4)]; decide +kernel

end Comb
end Verif
