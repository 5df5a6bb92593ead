import Verif.Lemmas.LiveCalls
/-
What `flatMap` makes of generators that do not draw.
-/
namespace Verif
namespace Live
variable {σ α β γ : Type}

theorem flatMap_pure_comp (f : α → β) (g : β → γ) (r : Run σ α) :
    (r.flatMap fun v s => .ok (f v, s)).flatMap (fun v s => .ok (g v, s)) = r.flatMap fun v s => .ok (g (f v), s) := by
  induction r with
  | stop o => rfl
  | nil s => rfl
  | cons s v sh tl ihs iht => simp [Run.flatMap, Run.after, ihs, iht]

theorem flatMap_pure_id (r : Run σ α) : (r.flatMap fun v s => .ok (v, s)) = r := by
  induction r with
  | stop o => rfl
  | nil s => rfl
  | cons s v sh tl ihs iht => simp [Run.flatMap, Run.after, ihs, iht]

mutual
theorem bind_list (F : α → Shr β) : ∀ (ts : List (Shr α)) (s : σ),
    (((ofList ts s).flatMap (inter fun v => always (F v))).andThen expand).flatMap (fun p s => .ok (p.2.value, s)) =
      ofList (bindTree.bindTrees F ts) s
  | [], s => rfl
  | t :: ts, s => by
    have ih1 := bind_tree F t
    have ih2 := bind_list F ts
    simp only [ofList, Run.flatMap, inter, always, ofGen, Outcome.ok_bind, Outcome.pure_eq, Run.after, Run.andThen, bindTree.bindTrees]
    obtain ⟨v, ss⟩ := t
    cases ss with
    | nil =>
      simp only [ofShrinks, ofList, Run.flatMap, Run.state, Run.isEmpty, ↓reduceIte, Run.after, ofShr, Shr.value, bindTree,
        Run.cons.injEq, true_and]
      refine ⟨?_, funext ih2⟩
      funext s
      simp only [expand, flatMap_pure_comp, leaf, flatMap_pure_id]
    | cons d ds =>
      simp only [ofShrinks, ofList, Run.flatMap, Run.state, Run.isEmpty, Run.after, ofShr, Shr.value, bindTree, inter, ofGen,
        Outcome.ok_bind, Outcome.pure_eq, Bool.false_eq_true, ↓reduceIte, Run.cons.injEq, true_and]
      refine ⟨?_, funext ih2⟩
      funext s
      have := ih1 s
      rw [if_neg (show ¬ (Shr.node v (d :: ds)).shrinks = [] from List.cons_ne_nil _ _)] at this
      exact this
theorem bind_tree (F : α → Shr β) : ∀ (t : Shr α) (s : σ),
    (if t.shrinks = [] then ofShrinks (F t.value) s else
      (((ofShrinks t s).flatMap (inter fun v => always (F v))).andThen expand).flatMap (fun p s => .ok (p.2.value, s))) =
      ofShrinks (bindTree F t) s
  | .node v [], s => by simp [Shr.shrinks, bindTree, Shr.value]
  | .node v (c :: cs), s => by
    simp only [Shr.shrinks, reduceCtorEq, ↓reduceIte, bindTree, ofShrinks]
    exact bind_list F (c :: cs) s
end

/-- `bindTree` obeys the laws of a monad. -/
theorem bindTree_leaf : ∀ t : Shr α, bindTree Shr.leaf t = t := by
  have key : ∀ (t : Shr α), bindTree Shr.leaf t = t := by
    intro t
    refine Shr.rec (motive_1 := fun t => bindTree Shr.leaf t = t) (motive_2 := fun ts => bindTree.bindTrees Shr.leaf ts = ts)
      ?_ ?_ ?_ t
    · intro v ss ih
      cases ss with
      | nil => rfl
      | cons c cs =>
        simp only [bindTree.bindTrees, List.cons.injEq] at ih
        simp [bindTree, ih.1, ih.2, Shr.leaf, Shr.value]
    · rfl
    · intro c cs h1 h2
      simp [bindTree.bindTrees, h1, h2]
  exact key

theorem bindTree_value (F : α → Shr β) (t : Shr α) : (bindTree F t).value = (F t.value).value := by
  obtain ⟨v, ss⟩ := t
  cases ss <;> rfl

theorem bindTree_assoc (F : α → Shr β) (H : β → Shr γ) (t : Shr α) :
    bindTree H (bindTree F t) = bindTree (fun v => bindTree H (F v)) t := by
  refine Shr.rec (motive_1 := fun t => bindTree H (bindTree F t) = bindTree (fun v => bindTree H (F v)) t)
    (motive_2 := fun ts => bindTree.bindTrees H (bindTree.bindTrees F ts) = bindTree.bindTrees (fun v => bindTree H (F v)) ts) ?_ ?_ ?_ t
  · intro v ss ih
    cases ss with
    | nil => rfl
    | cons c cs =>
      simp only [bindTree.bindTrees, List.cons.injEq] at ih
      simp [bindTree, ih.1, ih.2, bindTree_value]
  · rfl
  · intro c cs h1 h2
    simp [bindTree.bindTrees, h1, h2]

theorem bindTree_map (f : α → β) (t : Shr α) : bindTree (fun v => Shr.leaf (f v)) t = t.map f := by
  refine Shr.rec (motive_1 := fun t => bindTree (fun v => Shr.leaf (f v)) t = t.map f)
    (motive_2 := fun ts => bindTree.bindTrees (fun v => Shr.leaf (f v)) ts = Shr.mapList f ts) ?_ ?_ ?_ t
  · intro v ss ih
    cases ss with
    | nil => rfl
    | cons c cs =>
      simp only [bindTree.bindTrees, Shr.mapList, List.cons.injEq] at ih
      simp only [bindTree, Shr.map, Shr.mapList, ih.1, ih.2]
      rfl
  · rfl
  · intro c cs h1 h2
    simp [bindTree.bindTrees, Shr.mapList, h1, h2]

end Live
end Verif
