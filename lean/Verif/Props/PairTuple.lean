import Verif.Lemmas.PairTuple
import Verif.Spec.Greedy
/-
C23: pairs and tuples.
-/
namespace Verif
open Shr PairTuple
variable {σ α β : Type}

/-! ### Pairs -/

theorem shrinkFirst_eq (p : Shr (Shr α × Shr β)) :
    shrinkFirst p = p.value.1.shrinks.map (fun c => c.map (fun v => (leaf v, p.value.2))) := by
  unfold shrinkFirst; rw [flatMap_eq_map, shrinks_map]; rfl
theorem shrinkSecond_eq (p : Shr (Shr α × Shr β)) :
    shrinkSecond p = p.value.2.shrinks.map (fun c => c.map (fun v => (p.value.1, leaf v))) := by
  unfold shrinkSecond; rw [flatMap_eq_map, shrinks_map]; rfl

theorem desc_first (a : Shr α) (b : Shr β) (s : Shr (Shr α × Shr β)) :
    Desc ((leaf (a, b)).concat shrinkFirst) s →
      (s = (leaf (a, b)).concat shrinkFirst) ∨
      ∃ c ∈ a.shrinks, ∃ d, Desc c d ∧ s = d.map (fun v => (leaf v, b)) := by
  intro h
  rcases desc_concat.mp h with ⟨s', h', rfl⟩ | ⟨s', h', w, hw, hd⟩
  · rw [desc_iff] at h'; simp at h'; subst h'; exact .inl rfl
  · rw [desc_iff] at h'; simp at h'; subst h'
    rw [shrinkFirst_eq, List.mem_map] at hw
    obtain ⟨c, hc, rfl⟩ := hw
    obtain ⟨d, hd', rfl⟩ := desc_map.mp hd
    exact .inr ⟨c, hc, d, hd', rfl⟩

/-- C23. For every two shrinkables, the pair built from them can be shrunk to `(x, y)` if and only if
the first can be shrunk to `x` and the second to `y`. -/
theorem C23_pair_product (a : Shr α) (b : Shr β) (x : α) (y : β) :
    Reach (shrinkPair a b) (x, y) ↔ Reach a x ∧ Reach b y := by
  unfold shrinkPair
  rw [flatMap_eq_map, reach_map]
  simp only [value_leaf, Prod.mk.injEq]
  constructor
  · rintro ⟨p, ⟨s, hs, rfl⟩, rfl, rfl⟩
    rcases desc_concat.mp hs with ⟨s', h', rfl⟩ | ⟨s', h', w, hw, hd⟩
    · rw [value_concat]
      rcases desc_first a b s' h' with rfl | ⟨c, hc, d, hd, rfl⟩
      · exact ⟨.self _, .self _⟩
      · exact ⟨⟨d, .step hc hd, by simp⟩, by simpa using Reach.self b⟩
    · rw [shrinkSecond_eq, List.mem_map] at hw
      obtain ⟨c, hc, rfl⟩ := hw
      obtain ⟨d, hd', rfl⟩ := desc_map.mp hd
      simp only [value_map, value_leaf]
      rcases desc_first a b s' h' with rfl | ⟨c', hc', d', hd'', rfl⟩
      · exact ⟨by simpa using Reach.self a, d, .step (by simpa using hc) hd', rfl⟩
      · exact ⟨⟨d', .step hc' hd'', by simp⟩, d, .step (by simpa using hc) hd', rfl⟩
  · rintro ⟨hx, hy⟩
    have h1 : ∃ s, Desc ((leaf (a, b)).concat shrinkFirst) s ∧ s.value.1.value = x ∧ s.value.2 = b := by
      rcases reach_iff.mp hx with e | ⟨c, hc, d, hd, e⟩
      · exact ⟨_, .refl _, by simpa using e, by simp⟩
      · refine ⟨d.map (fun v => (leaf v, b)), ?_, by simpa using e, by simp⟩
        exact desc_concat.mpr (.inr ⟨_, .refl _, _,
          by rw [shrinkFirst_eq]; exact List.mem_map.mpr ⟨c, hc, rfl⟩, desc_map.mpr ⟨d, hd, rfl⟩⟩)
    obtain ⟨s, hs, e1, e2⟩ := h1
    rcases reach_iff.mp hy with e | ⟨c, hc, d, hd, e⟩
    · exact ⟨s.value, ⟨_, desc_concat.mpr (.inl ⟨s, hs, rfl⟩), by simp⟩, e1.symm, by rw [e2, e]⟩
    · refine ⟨(s.value.1, leaf d.value), ⟨d.map (fun v => (s.value.1, leaf v)), ?_, by simp⟩, e1.symm,
        by simpa using e.symm⟩
      exact desc_concat.mpr (.inr ⟨s, hs, _,
          by rw [shrinkSecond_eq]; exact List.mem_map.mpr ⟨c, by rw [e2]; exact hc, rfl⟩,
          desc_map.mpr ⟨d, hd, rfl⟩⟩)

/-- C23. The pair starts as the pair of the two values. -/
theorem C23_pair_value (a : Shr α) (b : Shr β) : (shrinkPair a b).value = (a.value, b.value) := by
  simp [shrinkPair]

/-- C23. A step of a pair is a step of exactly one component (in that component's own tree) and leaves
the other component as it is. -/
theorem C23_pair_step (a : Shr α) (b : Shr β) (s c : Shr (α × β)) (hs : Desc (shrinkPair a b) s)
    (hc : c ∈ s.shrinks) :
    (c.value.2 = s.value.2 ∧ ∃ p, Desc a p ∧ p.value = s.value.1 ∧ ∃ q ∈ p.shrinks, q.value = c.value.1) ∨
    (c.value.1 = s.value.1 ∧ ∃ p, Desc b p ∧ p.value = s.value.2 ∧ ∃ q ∈ p.shrinks, q.value = c.value.2) := by
  let E : α × β → α × β → Prop := fun x y =>
    (y.2 = x.2 ∧ ∃ p, Desc a p ∧ p.value = x.1 ∧ ∃ q ∈ p.shrinks, q.value = y.1) ∨
    (y.1 = x.1 ∧ ∃ p, Desc b p ∧ p.value = x.2 ∧ ∃ q ∈ p.shrinks, q.value = y.2)
  have : AllEdges E (shrinkPair a b) := by
    unfold shrinkPair
    rw [flatMap_eq_map, AllEdges.map]
    refine AllEdges.concat (AllEdges.concat AllEdges.leaf ?_) ?_
    · intro s hs w hw
      rw [desc_iff] at hs; simp at hs; subst hs
      rw [shrinkFirst_eq, List.mem_map] at hw
      obtain ⟨c, hc, rfl⟩ := hw
      refine ⟨.inl ⟨by simp, a, .refl _, by simp, c, hc, by simp⟩, ?_⟩
      rw [AllEdges.map]
      intro d hd e he
      exact .inl ⟨by simp, d, .step hc hd, by simp, e, he, by simp⟩
    · intro s hs w hw
      have e2 : s.value.2 = b := by
        rcases desc_first a b s hs with rfl | ⟨c, hc, d, hd, rfl⟩ <;> simp
      rw [shrinkSecond_eq, List.mem_map] at hw
      obtain ⟨c, hc, rfl⟩ := hw
      refine ⟨.inr ⟨by simp, b, .refl _, by simp [e2], c, by rw [← e2]; exact hc, by simp⟩, ?_⟩
      rw [AllEdges.map]
      intro d hd e he
      exact .inr ⟨by simp, d, .step (by rw [← e2]; exact hc) hd, by simp, e, he, by simp⟩
  exact this s hs c hc

/-- C23. Whatever order the two generators are called in, what `pairOf` produces is the pair of a
shrinkable produced by the first and one produced by the second generator, and reaches exactly the
product. -/
theorem C23_pairOf (ff : Bool) (g : Gen σ α) (h : Gen σ β) (s s' : σ) (t : Shr (α × β))
    (e : pairOf ff g h s = .ok (t, s')) :
    ∃ a b s₁, (if ff then g s = .ok (a, s₁) ∧ h s₁ = .ok (b, s') else h s = .ok (b, s₁) ∧ g s₁ = .ok (a, s')) ∧
      t.value = (a.value, b.value) ∧ ∀ x y, Reach t (x, y) ↔ Reach a x ∧ Reach b y := by
  unfold pairOf at e
  cases ff <;> simp only [Bool.false_eq_true, if_true, if_false] at e ⊢
  case true =>
    simp only [Outcome.bind_eq_ok] at e
    obtain ⟨⟨a, s1⟩, h1, ⟨b, s2⟩, h2, h3⟩ := e
    simp at h3
    obtain ⟨rfl, rfl⟩ := h3
    exact ⟨a, b, s1, ⟨h1, h2⟩, C23_pair_value a b, C23_pair_product a b⟩
  case false =>
    simp only [Outcome.bind_eq_ok] at e
    obtain ⟨⟨b, s1⟩, h1, ⟨a, s2⟩, h2, h3⟩ := e
    simp at h3
    obtain ⟨rfl, rfl⟩ := h3
    exact ⟨a, b, s1, ⟨h1, h2⟩, C23_pair_value a b, C23_pair_product a b⟩

example : (shrinkPair (node 2 [node 1 [leaf 0]]) (node 'b' [leaf 'a'])).values =
    [(2, 'b'), (1, 'b'), (0, 'b'), (0, 'a'), (1, 'a'), (2, 'a')] := by decide
example : ∃ t s', pairOf (σ := Nat) true (fun s => .ok (leaf s, s + 1)) (fun s => .ok (leaf s, s + 1)) 7
    = .ok (t, s') ∧ t.value = (7, 8) := ⟨_, _, rfl, rfl⟩

/-! ### Tuples of any arity -/
variable {n : Nat} {A : Fin n → Type}

/-- C23. For every arity, component types and component trees: the tuple can be shrunk to `v` if and only
if each component can be shrunk to the corresponding component of `v`. -/
theorem C23_tuple_product (comps : (i : Fin n) → Shr (A i)) (v : (i : Fin n) → A i) :
    Reach (shrinkTuple comps) v ↔ ∀ i, Reach (comps i) (v i) := by
  have st := stage_final comps
  unfold shrinkTuple
  rw [flatMap_eq_map, reach_map]
  constructor
  · rintro ⟨x, ⟨s, hs, rfl⟩, rfl⟩ i
    exact (st.sound s hs i).1 i.isLt
  · intro h
    obtain ⟨s, hs, e⟩ := st.complete v h
    exact ⟨s.value, ⟨s, hs, rfl⟩, funext fun i => (e i i.isLt).symm⟩

/-- C23. The tuple starts as the tuple of the component values. -/
theorem C23_tuple_value (comps : (i : Fin n) → Shr (A i)) (i : Fin n) :
    (shrinkTuple comps).value i = (comps i).value := by
  have : ∀ N t, N ≤ n → (concatHelper (A := A) N t).value = t.value := by
    intro N t hN
    induction hk : n - N generalizing N t with
    | zero => rw [concatHelper, dif_neg (by omega)]
    | succ k ih => rw [concatHelper, dif_pos (by omega), ih _ _ (by omega) (by omega), value_concat]
  simp [shrinkTuple, this 0 _ (Nat.zero_le _)]

/-- C23. A step of a tuple is a step of exactly one component (in that component's own tree) and leaves
all other components as they are. -/
theorem C23_tuple_step (comps : (i : Fin n) → Shr (A i)) (s c : Shr ((i : Fin n) → A i))
    (hs : Desc (shrinkTuple comps) s) (hc : c ∈ s.shrinks) :
    ∃ i : Fin n, (∀ j, j ≠ i → c.value j = s.value j) ∧
      ∃ p, Desc (comps i) p ∧ p.value = s.value i ∧ ∃ q ∈ p.shrinks, q.value = c.value i := by
  have h0 : Stage comps 0 (leaf comps) := by
    refine ⟨?_, ?_⟩
    · intro s hs i
      rw [desc_iff] at hs
      simp at hs
      subst hs
      exact ⟨fun h => by omega, fun _ => rfl⟩
    · intro v _
      exact ⟨_, .refl _, fun i hi => by omega⟩
  have h := edges_final (Nat.zero_le _) h0 AllEdges.leaf
  unfold shrinkTuple at hs
  rw [flatMap_eq_map] at hs
  exact (AllEdges.map (E := fun x y => ∃ i : Fin n, (∀ j, j ≠ i → y j = x j) ∧
      ∃ p, Desc (comps i) p ∧ p.value = x i ∧ ∃ q ∈ p.shrinks, q.value = y i)).mpr h s hs c hc

/-- C23. The candidates offered for a freshly generated tuple: first all of the first component's own
candidates, then all of the second's, and so on, the other components unchanged. -/
theorem C23_tuple_candidates (comps : (i : Fin n) → Shr (A i)) :
    (shrinkTuple comps).shrinks.map Shr.value =
      (List.finRange n).flatMap (fun i => (comps i).shrinks.map
        (fun c => Function.update (fun j => (comps j).value) i c.value)) := by
  unfold shrinkTuple
  rw [flatMap_eq_map, shrinks_map, List.map_map]
  have h := congrArg (List.map (fun (t : Tup A) (i : Fin n) => (t i).value))
    (shrinks_concatHelper_leaf (A := A) 0 (Nat.zero_le _) (leaf comps))
  simp only [shrinks_leaf, List.map_nil, List.nil_append, List.drop_zero, List.map_flatMap, List.map_map,
    value_leaf] at h
  have e1 : (Shr.value ∘ Shr.map fun (v : Tup A) => (leaf fun i => (v i).value).value) =
      (fun (t : Tup A) (i : Fin n) => (t i).value) ∘ Shr.value := by
    funext t; simp
  rw [e1, h]
  congr 1
  funext i
  congr 1
  funext c
  funext j
  simp only [Function.comp]
  by_cases e : j = i
  · subst e; simp
  · simp [Function.update_of_ne e]

/-- C23. Whatever order the component generators are called in (each once, in the state its predecessor left the
engine in), what `tupleOf` produces reaches exactly the product of the shrinkables they returned. -/
theorem C23_tupleOf (order : List (Fin n)) (ho : order.Nodup) (gens : (i : Fin n) → Gen σ (A i)) (s s' : σ)
    (t : Shr ((i : Fin n) → A i)) (e : tupleOf order gens s = .ok (t, s')) :
    ∃ comps : (i : Fin n) → Shr (A i), Gen.DrawsTuple gens comps order s s' ∧ (∀ i, i ∈ order) ∧
      (∀ i, t.value i = (comps i).value) ∧ ∀ v, Reach t v ↔ ∀ i, Reach (comps i) (v i) := by
  unfold tupleOf at e
  rw [Outcome.bind_eq_ok] at e
  obtain ⟨⟨c, s1⟩, h1, h2⟩ := e
  simp at h2
  obtain ⟨rfl, rfl⟩ := h2
  obtain ⟨h3, h4⟩ := Gen.drawTuple_draws gens order ho s c _ h1
  exact ⟨c, h3, h4, C23_tuple_value c, C23_tuple_product c⟩

/-- C23. `tupleOf` returns whenever every component generator does. -/
theorem C23_tupleOf_total (order : List (Fin n)) (ho : ∀ i, i ∈ order) (gens : (i : Fin n) → Gen σ (A i))
    (hg : ∀ i s, ∃ r, gens i s = .ok r) (s : σ) : ∃ r, tupleOf order gens s = .ok r := by
  obtain ⟨⟨c, s1⟩, e⟩ := Gen.drawTuple_total gens order ho hg s
  exact ⟨_, by rw [tupleOf, e]; rfl⟩

/-- A tuple of a number and a Boolean. -/
def exampleTypes : Fin 2 → Type := fun i => if i = 0 then Nat else Bool
def exampleComps : (i : Fin 2) → Shr (exampleTypes i)
  | 0 => node (2 : Nat) [leaf (0 : Nat)]
  | 1 => node true [leaf false]
example : Reach (shrinkTuple exampleComps) (fun | 0 => (0 : Nat) | 1 => false) := by
  rw [C23_tuple_product]
  intro i
  match i with
  | 0 => exact ⟨leaf (0 : Nat), .child (List.mem_singleton.mpr rfl), rfl⟩
  | 1 => exact ⟨leaf false, .child (List.mem_singleton.mpr rfl), rfl⟩
example : ∃ r, tupleOf (σ := Nat) (A := fun _ : Fin 2 => Nat) [1, 0]
    (fun _ s => .ok (leaf s, s + 1)) 7 = .ok r ∧ r.1.value 0 = 8 ∧ r.1.value 1 = 7 :=
  ⟨_, rfl, C23_tuple_value _ 0, C23_tuple_value _ 1⟩

end Verif
