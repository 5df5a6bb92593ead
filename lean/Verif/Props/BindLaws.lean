import Verif.Lemmas.LiveLaws
/-
C184: `transform` and `derive` as mapping and binding.
-/
namespace Verif
namespace Live
variable {σ α β γ : Type}

/-- **C184, left identity.** `just(a)` followed by `flatMap(f)` is `f(a)`: the same values, shrinks and use of the engine. -/
theorem C184_left (a : α) (f : α → LGen σ β) : derive (ofGen (Comb.just a)) f = f a := by
  funext s
  simp only [derive, dependent, ofGen, Comb.just, Outcome.ok_bind, Outcome.pure_eq, ofShr, LShr.flatMap, inter, Shr.leaf, Shr.value]
  cases f a s with
  | ok x =>
    obtain ⟨u, s'⟩ := x
    simp [LShr.andThen, ofShrinks, ofList, Run.flatMap, Run.state, Run.isEmpty, expand, flatMap_pure_comp, leaf, flatMap_pure_id]
  | _ => rfl

/-- **C184, generators that do not draw.** If the generator for a value `v` always makes the same shrinkable `F v`, `flatMap` makes
the values of `F` in the shape of the first shrinkable, followed by the shrinks of `F` where that one ends, and draws what the
first generator draws. -/
theorem C184_derive (g : Gen σ α) (F : α → Shr β) :
    derive (ofGen g) (fun v => always (F v)) = ofGen fun s => (g s).bind fun r => .ok (bindTree F r.1, r.2) := by
  funext s
  simp only [derive, dependent, ofGen]
  cases g s with
  | ok x =>
    obtain ⟨t, s⟩ := x
    have h := bind_tree F t (σ := σ)
    simp only [Outcome.ok_bind, Outcome.pure_eq, LShr.flatMap, inter, always, ofGen, ofShr, Outcome.bind, LShr.andThen]
    obtain ⟨v, ss⟩ := t
    cases ss with
    | nil =>
      simp only [ofShrinks, ofList, Run.flatMap, Run.state, Run.isEmpty, ↓reduceIte, Outcome.ok_bind, Shr.value, bindTree, expand,
        flatMap_pure_comp, leaf, flatMap_pure_id]
    | cons d ds =>
      have hst : ((ofShrinks (.node v (d :: ds)) s).flatMap (inter fun v => always (F v))).state = .ok s := rfl
      have hne : ((ofShrinks (.node v (d :: ds)) s).flatMap (inter fun v => always (F v))).isEmpty = false := rfl
      have hs := fun s => (if_neg (show ¬ (Shr.node v (d :: ds)).shrinks = [] from List.cons_ne_nil _ _)).symm.trans (h s)
      simp only [Outcome.ok_bind, Shr.value]
      refine congrArg Outcome.ok (Prod.ext ?_ rfl)
      exact congrArg (LShr.mk _) (funext hs)
  | _ => rfl

/-- **C184, right identity.** `flatMap` with `just` changes nothing: the same values, shrinks and use of the engine. -/
theorem C184_right (g : Gen σ α) : derive (ofGen g) (fun v => ofGen (Comb.just v)) = ofGen g := by
  have := C184_derive g (Shr.leaf (α := α))
  have e : (fun v => always (Shr.leaf v) : α → LGen σ α) = fun v => ofGen (Comb.just v) := rfl
  rw [e] at this
  rw [this]
  congr 1
  funext s
  cases g s with
  | ok x => simp [Outcome.bind, bindTree_leaf]
  | _ => rfl

/-- **C184, mapping.** `flatMap` with `just` of a function of the value is `map` with this function. -/
theorem C184_map (g : Gen σ α) (f : α → β) : derive (ofGen g) (fun v => ofGen (Comb.just (f v))) = ofGen (Comb.transform g f) := by
  have := C184_derive g (fun v => Shr.leaf (f v))
  have e : (fun v => always (Shr.leaf (f v)) : α → LGen σ β) = fun v => ofGen (Comb.just (f v)) := rfl
  rw [e] at this
  rw [this]
  congr 1
  funext s
  simp only [Comb.transform]
  cases g s with
  | ok x => simp [Outcome.bind, bindTree_map]
  | _ => rfl

/-- **C184, mapping twice.** `map` with the identity changes nothing; `map` twice is `map` with both functions. -/
theorem C184_maps (g : Gen σ α) (f : α → β) (h : β → γ) :
    Comb.transform g id = g ∧ Comb.transform (Comb.transform g f) h = Comb.transform g fun v => h (f v) := by
  have hid : ∀ t : Shr α, t.map id = t := fun t => by rw [← bindTree_map]; exact bindTree_leaf t
  have hcomp : ∀ t : Shr α, (t.map f).map h = t.map fun v => h (f v) := fun t => by
    rw [← bindTree_map, ← bindTree_map, ← bindTree_map, bindTree_assoc]; rfl
  constructor
  · funext s
    simp only [Comb.transform]
    cases g s with
    | ok x => simp [hid]
    | _ => rfl
  · funext s
    simp only [Comb.transform]
    cases g s with
    | ok x => simp [hcomp]
    | _ => rfl

/-- **C184, associativity, partial.** `g.flatMap(f).flatMap(h)` and `g.flatMap(a -> f(a).flatMap(h))` are the same generators, with
the same values, shrinks and use of the engine, if `f` and `h` give generators that do not draw. (In general they are not, see
`C184_assoc_violated`.) -/
theorem C184_assoc_partial (g : Gen σ α) (F : α → Shr β) (H : β → Shr γ) :
    derive (derive (ofGen g) fun v => always (F v)) (fun w => always (H w)) =
      derive (ofGen g) fun v => derive (always (F v)) fun w => always (H w) := by
  have e : ∀ v, derive (always (F v) : LGen σ β) (fun w => always (H w)) = always (bindTree H (F v)) := fun v => by
    exact C184_derive (fun s => .ok (F v, s)) H
  simp only [e]
  rw [C184_derive, C184_derive, C184_derive]
  congr 1
  funext s
  cases g s with
  | ok x => simp [Outcome.bind, bindTree_assoc]
  | _ => rfl

/-- **C184, associativity, violated.** If all values have shrinks, `g.flatMap(f).flatMap(h)` calls generators 6 times and
`g.flatMap(a -> f(a).flatMap(h))` 7 times: the numbers that are drawn for the following values differ. -/
theorem C184_assoc_violated (calls : σ → Nat) (g : Gen σ α) (f : α → Gen σ β) (h : β → Gen σ γ) (hg : Simple calls g)
    (hf : ∀ v, Simple calls (f v)) (hh : ∀ w, Simple calls (h w)) (s : σ) :
    (∃ t s', derive (derive (ofGen g) fun v => ofGen (f v)) (fun w => ofGen (h w)) s = .ok (t, s') ∧ calls s' = calls s + 6) ∧
    ∃ t s', derive (ofGen g) (fun v => derive (ofGen (f v)) fun w => ofGen (h w)) s = .ok (t, s') ∧ calls s' = calls s + 7 := by
  constructor
  · obtain ⟨v, v', cs, s1, h1, c1⟩ := hg s
    obtain ⟨w, w', ds, s2, h2, c2⟩ := hf v s1
    obtain ⟨x, x', es, s3, h3, c3⟩ := hf v' s2
    obtain ⟨y, y', fs, s4, h4, c4⟩ := hh w s3
    obtain ⟨z, z', gs, s5, h5, c5⟩ := hf v' s4
    obtain ⟨u, u', us, s6, h6, c6⟩ := hh z s5
    refine ⟨⟨y, ?_⟩, s6, ?_, by omega⟩
    rotate_left
    · simp only [derive, dependent, ofGen, h1, Outcome.ok_bind, Outcome.pure_eq, LShr.flatMap, inter, ofShr, Shr.value, h2,
        LShr.andThen, ofShrinks, ofList, Run.flatMap, h3, Run.after, Run.state, Run.isEmpty, h4, Run.andThen, h5, h6,
        Bool.false_eq_true, ↓reduceIte]
      rfl
  · obtain ⟨v, v', cs, s1, h1, c1⟩ := hg s
    obtain ⟨w, w', ds, s2, h2, c2⟩ := hf v s1
    obtain ⟨x, x', es, s3, h3, c3⟩ := hh w s2
    obtain ⟨y, y', fs, s4, h4, c4⟩ := hh w' s3
    obtain ⟨z, z', gs, s5, h5, c5⟩ := hf v' s4
    obtain ⟨u, u', us, s6, h6, c6⟩ := hh z s5
    obtain ⟨p, p', ps, s7, h7, c7⟩ := hh z' s6
    refine ⟨⟨x, ?_⟩, s7, ?_, by omega⟩
    rotate_left
    · simp only [derive, dependent, ofGen, h1, Outcome.ok_bind, Outcome.pure_eq, LShr.flatMap, inter, ofShr, Shr.value, h2,
        LShr.andThen, ofShrinks, ofList, Run.flatMap, h3, Run.after, Run.state, Run.isEmpty, h4, Run.andThen, h5, h6, h7]
      rfl

/-- **C184, associativity, violated for the values.** From the same state of the engine the two generators generate different
values: in `g.flatMap(f).flatMap(h)` a value of `f` for the first shrink is generated before the value of `h`. -/
theorem C184_values_violated : ∃ (g : Gen Nat Nat) (f h : Nat → Gen Nat Nat) (s : Nat),
    ((derive (derive (ofGen g) fun v => ofGen (f v)) (fun w => ofGen (h w)) s).bind fun r => .ok r.1.value) ≠
      (derive (ofGen g) (fun v => derive (ofGen (f v)) fun w => ofGen (h w)) s).bind fun r => .ok r.1.value :=
  ⟨fun k => .ok (.node k [.leaf 0], k + 1), fun _ k => .ok (.node k [.leaf 0], k + 1), fun _ k => .ok (.node k [.leaf 0], k + 1), 1,
    by decide +kernel⟩

/-- A number that says how many numbers were drawn before, with the shrink 0. -/
private def tick (k : Nat) : Outcome (Shr Nat × Nat) := .ok (.node (k + 1) [.leaf 0], k + 1)

/-- The generators of `C184_assoc_violated`. -/
example : Simple id tick := fun _ => ⟨_, _, _, _, rfl, rfl⟩
example : ((derive (derive (ofGen tick) fun _ => ofGen tick) (fun _ => ofGen tick) 0).bind fun r => .ok (r.1.value, r.2)) =
    .ok (4, 6) := by decide +kernel
example : ((derive (ofGen tick) (fun _ => derive (ofGen tick) fun _ => ofGen tick) 0).bind fun r => .ok (r.1.value, r.2)) =
    .ok (3, 7) := by decide +kernel

/-- The generators for the values do not draw (`C184_derive`, `C184_assoc_partial`): a value that has shrinks keeps them, others get
those of the second generator. -/
example : bindTree (fun v => .node (10 * v) [.leaf (v + 1)]) (.node 3 [.leaf 2, .node 1 [.leaf 0]]) =
    .node 30 [.node 20 [.leaf 3], .node 10 [.node 0 [.leaf 1]]] := by simp [bindTree, bindTree.bindTrees, Shr.leaf, Shr.value]
example : ((derive (ofGen tick) (fun v => always (.node (10 * v) [.leaf (v + 1)])) 0).bind fun r => .ok (r.1.value, r.2)) =
    .ok (10, 1) := by decide +kernel

/-- `just` before a generator that draws (`C184_left`). -/
example : ((derive (ofGen (Comb.just 5)) (fun _ => ofGen tick) 0).bind fun r => .ok (r.1.value, r.2)) = .ok (1, 1) := by
  decide +kernel
example : ((derive (ofGen tick) (fun v => ofGen (Comb.just (v + 6))) 0).bind fun r => .ok (r.1.value, r.2)) = .ok (7, 1) := by
  decide +kernel

end Live
end Verif
