import Verif.Lemmas.LiveLaws
/-
C194 for generators that depend on values: mapping before, inside or after `pairWith`, `tupleWith` and `flatMap`.
-/
namespace Verif
namespace Live
variable {σ α β γ δ : Type}

theorem flatMap_of_map (f : α → β) (k : β → σ → Outcome (γ × σ)) (r : Run σ α) :
    (r.flatMap fun v s => .ok (f v, s)).flatMap k = r.flatMap fun v => k (f v) := by
  induction r with
  | stop o => rfl
  | nil s => rfl
  | cons s v shrinks tail ih1 ih2 => simp only [Run.flatMap, Run.after, ih1, ih2]

theorem flatMap_then_map (f : α → σ → Outcome (β × σ)) (φ : β → γ) (r : Run σ α) :
    (r.flatMap fun v s => (f v s).bind fun x => .ok (φ x.1, x.2)) = (r.flatMap f).flatMap fun b s => .ok (φ b, s) := by
  induction r with
  | stop o => rfl
  | nil s => rfl
  | cons s v shrinks tail ih1 ih2 =>
    simp only [Run.flatMap]
    cases f v s with
    | ok x =>
      obtain ⟨b, s'⟩ := x
      simp only [Outcome.bind] at ih1 ih2 ⊢
      simp only [Run.after, Run.flatMap, ih1, ih2]
    | _ => rfl

/-- The values of a shrinkable mapped. -/
def LShr.mapped (φ : α → β) (t : LShr σ α) : LShr σ β := ⟨φ t.value, fun s => (t.shrinks s).flatMap fun v s => .ok (φ v, s)⟩

theorem state_of_map (φ : α → β) (r : Run σ α) : (r.flatMap fun v s => .ok (φ v, s)).state = r.state := by
  cases r <;> rfl

theorem isEmpty_of_map (φ : α → β) (r : Run σ α) : (r.flatMap fun v s => .ok (φ v, s)).isEmpty = r.isEmpty := by
  cases r <;> rfl

theorem andThen_of_map (φ : α → β) (k : LShr σ α → σ → Run σ α) (k' : LShr σ β → σ → Run σ β)
    (h : ∀ t s, k' (t.mapped φ) s = (k t s).flatMap fun v s => .ok (φ v, s)) (r : Run σ α) :
    (r.flatMap fun v s => .ok (φ v, s)).andThen k' = (r.andThen k).flatMap fun v s => .ok (φ v, s) := by
  induction r with
  | stop o => rfl
  | nil s => rfl
  | cons s v shrinks tail ih1 ih2 =>
    simp only [Run.flatMap, Run.after, Run.andThen, state_of_map, isEmpty_of_map]
    cases (shrinks s).state with
    | ok s' =>
      simp only [Run.flatMap, Run.after, ih2]
      congr 1
      split
      · funext s
        exact h ⟨v, shrinks⟩ s
      · funext s
        exact ih1 s
    | _ => rfl

theorem steps_mapped {ε ζ : Type} (f : α → σ → Outcome (ε × σ)) (f' : α → σ → Outcome (ζ × σ)) (φ : ε → ζ)
    (hf : ∀ v s, f' v s = (f v s).bind fun x => .ok (φ x.1, x.2)) (k : LShr σ ε → σ → Run σ ε) (k' : LShr σ ζ → σ → Run σ ζ)
    (h : ∀ t s, k' (t.mapped φ) s = (k t s).flatMap fun v s => .ok (φ v, s)) (t : LShr σ α) (s : σ) :
    ((t.flatMap f' s).bind fun x => x.1.andThen k' x.2) =
      ((t.flatMap f s).bind fun x => x.1.andThen k x.2).bind fun x => .ok (x.1.mapped φ, x.2) := by
  obtain rfl : f' = fun v s => (f v s).bind fun x => .ok (φ x.1, x.2) := by funext v s; exact hf v s
  simp only [LShr.flatMap]
  cases f t.value s with
  | ok x =>
    obtain ⟨b, s⟩ := x
    simp only [Outcome.bind, Outcome.ok_bind, Outcome.pure_eq, LShr.andThen]
    have e : ∀ s, ((t.shrinks s).flatMap fun v s => (f v s).bind fun x => .ok (φ x.1, x.2)) =
        ((t.shrinks s).flatMap f).flatMap fun b s => .ok (φ b, s) := fun s => flatMap_then_map f φ _
    have e1 := e s
    simp only [Outcome.bind] at e e1
    simp only [e, state_of_map, isEmpty_of_map]
    cases ((t.shrinks s).flatMap f).state with
    | ok s' =>
      simp only [Outcome.ok_bind, LShr.mapped, Outcome.ok.injEq, Prod.mk.injEq, and_true]
      congr 1
      split
      · funext s
        exact h ⟨b, fun s => (t.shrinks s).flatMap f⟩ s
      · funext s
        exact andThen_of_map φ k k' h _
    | _ => rfl
  | _ => rfl

theorem transform_eq (g : LGen σ α) (f : α → β) : transform g f = fun s => (g s).bind fun x => .ok (x.1.mapped f, x.2) := by
  funext s
  simp only [transform]
  cases g s <;> rfl

theorem transform_comp (g : LGen σ α) (f : α → β) (h : β → γ) : transform (transform g f) h = transform g fun v => h (f v) := by
  simp only [transform_eq]
  funext s
  cases g s with
  | ok x => simp only [Outcome.bind, LShr.mapped, flatMap_of_map]
  | _ => rfl

theorem dependent_mapped (g : LGen σ α) (f : α → β) (k : β → LGen σ γ) :
    dependent (transform g f) k = transform (dependent g fun v => k (f v)) (Prod.map f id) := by
  rw [transform_eq (dependent g _)]
  funext s
  have h := steps_mapped (inter fun v => k (f v)) (fun v => inter k (f v)) (Prod.map f id)
    (fun v s => by simp only [inter]; cases k (f v) s <;> rfl) expand expand
    (fun t s => by simp only [expand, LShr.mapped, Prod.map, id, flatMap_of_map])
  simp only [dependent, transform]
  cases g s with
  | ok x =>
    simp only [Outcome.ok_bind]
    refine Eq.trans ?_ (h x.1 x.2)
    simp only [LShr.flatMap, Outcome.ok_bind, Outcome.pure_eq, flatMap_of_map]
    rfl
  | _ => rfl

theorem dependent_inner (g : LGen σ α) (k : α → LGen σ β) (h : β → γ) :
    (dependent g fun v => transform (k v) h) = transform (dependent g k) fun p => (p.1, p.2.mapped h) := by
  rw [transform_eq (dependent g _)]
  funext s
  have h := steps_mapped (inter k) (inter fun v => transform (k v) h) (fun p => (p.1, p.2.mapped h))
    (fun v s => by simp only [inter, transform]; cases k v s <;> rfl) expand expand
    (fun t s => by simp only [expand, LShr.mapped, flatMap_of_map]; rfl)
  simp only [dependent]
  cases g s with
  | ok x => exact h x.1 x.2
  | _ => rfl

/-- **C194, flatMap.** Mapping before `flatMap` is mapping the argument of the function given to it; mapping after `flatMap` is
mapping the values of the generators it returns. The values, the shrinks and the use of the engine are the same, also for generators
whose shrinks draw. -/
theorem C194_flatMap (g : LGen σ α) (f : α → β) (k : β → LGen σ γ) (h : γ → δ) :
    derive (transform g f) k = derive g (fun v => k (f v)) ∧
    transform (derive (transform g f) k) h = derive g fun v => transform (k (f v)) h := by
  have hd : ∀ {α γ : Type} (g : LGen σ α) (k : α → LGen σ γ), derive g k = transform (dependent g k) fun p => p.2.value :=
    fun _ _ => rfl
  constructor
  · rw [hd, dependent_mapped, transform_comp]; rfl
  · rw [hd, hd, dependent_mapped, dependent_inner, transform_comp, transform_comp, transform_comp]; rfl

/-- **C194, pairWith.** Mapping the first components before `pairWith`, or the second in the generators returned by the function given
to it, is mapping the pairs. -/
theorem C194_pairWith (g : LGen σ α) (f : α → β) (k : β → LGen σ γ) (h : γ → δ) :
    dependency (transform g f) (fun v => transform (k v) h) = transform (dependency g fun v => k (f v)) (Prod.map f h) := by
  have hd : ∀ {α γ : Type} (g : LGen σ α) (k : α → LGen σ γ),
      dependency g k = transform (dependent g k) fun p => (p.1, p.2.value) := fun _ _ => rfl
  rw [hd, hd, dependent_mapped, dependent_inner, transform_comp, transform_comp, transform_comp]; rfl

/-- **C194, tupleWith.** Mapping the components of the tuples before `tupleWith`, or the new ones in the generators returned by the
function given to it, is mapping the components of the longer tuples. -/
theorem C194_tupleWith (g : LGen σ (List α)) (f : α → β) (k : List β → LGen σ α) :
    chain (fun l v => l ++ [v]) (transform g (List.map f)) (fun l => transform (k l) f) =
      transform (chain (fun l v => l ++ [v]) g fun l => k (l.map f)) (List.map f) := by
  have hd : ∀ {β : Type} (g : LGen σ (List β)) (k : List β → LGen σ β), chain (fun l v => l ++ [v]) g k =
      transform (dependent g k) fun p => p.1 ++ [p.2.value] := fun _ _ => rfl
  rw [hd, hd, dependent_mapped, dependent_inner, transform_comp, transform_comp, transform_comp]
  congr 1
  funext p
  simp [LShr.mapped]

/-- A number that says how many numbers were drawn before, with the shrink 0. -/
private def tick (k : Nat) : Outcome (Shr Nat × Nat) := .ok (.node (k + 1) [.leaf 0], k + 1)

/-- The shrinks of the first component draw a second one, so the pairs leave the engine in state 3. -/
example : ((dependency (transform (ofGen tick) fun v => 10 * v) (fun v => transform (ofGen tick) fun w => v + w) 0).bind fun r =>
    .ok (r.1.value, r.2)) = .ok ((10, 12), 3) := by decide +kernel
example : ((transform (dependency (ofGen tick) fun v => transform (ofGen tick) fun w => 10 * v + w)
    (Prod.map (fun v => 10 * v) id) 0).bind fun r => .ok (r.1.value, r.2)) = .ok ((10, 12), 3) := by decide +kernel

end Live
end Verif
