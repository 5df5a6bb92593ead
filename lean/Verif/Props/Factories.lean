import Verif.Model.Factories
import Verif.Lemmas.Tree
import Verif.Props.Combinator
/-!
C161: factories given to `dependency`, `chain` and `derive` that change their argument.
-/
namespace Verif
namespace Comb
open Shr
variable {σ α β γ : Type}

/-- A change of the first component. -/
def onFirst (g : α → α) (p : α × β) : α × β := (g p.1, p.2)

theorem interM_eq (f : Factory σ α β) (v : α) (s : σ) :
    interM f v s = (inter (fun v => (f v).2) v s).bind fun p => .ok (onFirst (fun v => (f v).1) p) := by
  simp only [interM, inter]
  cases (f v).2 s <;> simp [Bind.bind, Outcome.bind, onFirst, pure]

theorem lazyMapList_lift {δ ε : Type} {k : α → σ → Outcome δ} {k' : α → σ → Outcome ε} (h : δ → ε) (o : List Nat → σ) :
    ∀ (ss : List (Shr α)), (∀ t ∈ ss, ∀ p, lazyMap k' o p t = (lazyMap k o p t).map (Shr.map h)) →
      ∀ p i, lazyMapList k' o p i ss = (lazyMapList k o p i ss).map (Shr.map h)
  | [], _, p, i => by simp [lazyMapList]
  | s :: ss, hs, p, i => by
    rw [lazyMapList, lazyMapList, hs s (by simp) (i :: p)]
    cases e : lazyMap k o (i :: p) s with
    | none => simp
    | some t => simp [lazyMapList_lift h o ss (fun t ht => hs t (by simp [ht])) p (i + 1)]

theorem lazyMap_interM (f : Factory σ α β) (o : List Nat → σ) (t : Shr α) : ∀ p, lazyMap (interM f) o p t =
    (lazyMap (inter fun v => (f v).2) o p t).map (Shr.map (onFirst fun v => (f v).1)) := by
  induction t using Shr.ind with
  | h v ss ih =>
    intro p
    rw [lazyMap, lazyMap, interM_eq]
    cases inter (fun v => (f v).2) v (o p) <;>
      simp [Outcome.bind, lazyMapList_lift (onFirst fun v => (f v).1) o ss ih]

theorem mapId (t : Shr α) : Shr.map id t = t := by
  induction t using Shr.ind with
  | h v ss ih =>
    rw [map_node, List.map_congr_left ih, List.map_id']
    rfl

theorem expand_onFirst (g : α → α) (i : Shr (α × Shr β)) :
    expand (Shr.map (onFirst g) i) = (expand i).map (Shr.map (onFirst g)) := by
  unfold expand
  simp only [flatMap_eq_map, shrinks_map, List.map_map, value_map]
  change List.map _ i.value.2.shrinks = _
  refine List.map_congr_left fun t ht => ?_
  clear ht
  induction t using Shr.ind with
  | h v ss ih =>
    simp only [Function.comp, map_node, List.map_map, onFirst]
    congr 1
    exact List.map_congr_left ih

theorem andThen_onFirst (g : α → α) (t : Shr (α × Shr β)) :
    (Shr.map (onFirst g) t).andThen expand = Shr.map (onFirst g) (t.andThen expand) := by
  induction t using Shr.ind with
  | h v ss ih =>
    cases ss with
    | nil =>
      have := expand_onFirst g (node v [])
      simp only [map_node, List.map_nil] at this
      simp [andThen, this]
    | cons s ss =>
      simp only [map_node, List.map_cons, andThen, andThenList_eq, List.map_map, List.isEmpty_cons, Bool.false_eq_true,
        if_false]
      simp only [List.mem_cons, forall_eq_or_imp] at ih
      rw [ih.1]
      congr 2
      exact List.map_congr_left ih.2

theorem dependentM_eq (gen1 : Gen σ α) (f : Factory σ α β) (o : List Nat → σ) (s : σ) :
    dependentM gen1 f o s =
      (dependent gen1 (fun v => (f v).2) o s).bind fun r => .ok (Shr.map (onFirst fun v => (f v).1) r.1, r.2) := by
  unfold dependentM dependent
  cases gen1 s with
  | ok r =>
    obtain ⟨t, s⟩ := r
    simp only [Outcome.ok_bind]
    cases (f t.value).2 s with
    | ok r =>
      obtain ⟨u, s⟩ := r
      simp only [Outcome.ok_bind, pure]
      cases peek (fun v => (f v).2) t.shrinks s with
      | ok s =>
      simp only [Outcome.ok_bind, Outcome.bind]
      rw [← andThen_onFirst, map_node,
        lazyMapList_lift (onFirst fun v => (f v).1) o t.shrinks (fun t _ => lazyMap_interM f o t) [] 0]
      rfl
      | _ => rfl
    | _ => rfl
  | _ => rfl

/-- C161: whatever the factory does with its argument, the pairs and all their shrinks are those of a factory that
returns the same generators and leaves its argument alone, with the change applied to the first components. -/
theorem C161_dependency_partial (gen1 : Gen σ α) (f : Factory σ α β) (o : List Nat → σ) (s : σ) :
    dependencyM gen1 f o s = (dependency gen1 (fun v => (f v).2) o s).bind fun r =>
      .ok (r.1.map fun p => ((f p.1).1, p.2), r.2) := by
  unfold dependencyM dependency
  rw [dependentM_eq]
  cases dependent gen1 (fun v => (f v).2) o s with
  | ok r =>
    simp only [Outcome.bind, Bind.bind, pure, flatMap_eq_map, Shr.map_map]
    rfl
  | _ => rfl

/-- C161: the same for tuples. -/
theorem C161_chain_partial (cat : α → β → γ) (gen1 : Gen σ α) (f : Factory σ α β) (o : List Nat → σ) (s : σ) :
    chainM cat gen1 f o s = (dependency gen1 (fun v => (f v).2) o s).bind fun r =>
      .ok (r.1.map fun p => cat (f p.1).1 p.2, r.2) := by
  unfold chainM dependency
  rw [dependentM_eq]
  cases dependent gen1 (fun v => (f v).2) o s with
  | ok r =>
    simp only [Outcome.bind, Bind.bind, pure, flatMap_eq_map, Shr.map_map]
    rfl
  | _ => rfl

/-- C161: `derive` is not affected. -/
theorem C161_derive (gen1 : Gen σ α) (f : Factory σ α β) (o : List Nat → σ) :
    deriveM gen1 f o = derive gen1 (fun v => (f v).2) o := by
  funext s
  unfold deriveM derive
  rw [dependentM_eq]
  cases dependent gen1 (fun v => (f v).2) o s with
  | ok r =>
    simp only [Outcome.bind, Bind.bind, pure, flatMap_eq_map, Shr.map_map]
    rfl
  | _ => rfl

/-- C161, the part that holds: factories that leave their argument alone. -/
theorem C161_alone_partial (cat : α → β → γ) (gen1 : Gen σ α) (f : Factory σ α β) (o : List Nat → σ)
    (h : ∀ v, (f v).1 = v) : dependencyM gen1 f o = dependency gen1 (fun v => (f v).2) o ∧
      chainM cat gen1 f o = chain cat gen1 (fun v => (f v).2) o := by
  have h' : (onFirst fun v => (f v).1 : α × Shr β → α × Shr β) = id := by
    funext p
    simp [onFirst, h]
  have key : dependentM gen1 f o = dependent gen1 (fun v => (f v).2) o := by
    funext s
    rw [dependentM_eq, h']
    cases dependent gen1 (fun v => (f v).2) o s with
    | ok r => simp [Outcome.bind, mapId]
    | _ => rfl
  exact ⟨by unfold dependencyM dependency; rw [key], by unfold chainM chain; rw [key]⟩

/-- C161, violated: the first component of the pair is not the value of the first generator, exactly if the factory has
changed it; it is what the factory has left. -/
theorem C161_dependency_violated (gen1 : Gen σ α) (f : Factory σ α β) (o : List Nat → σ) {s s1 s' : σ} {a : Shr α}
    {t : Shr (α × β)} (h1 : gen1 s = .ok (a, s1)) (h : dependencyM gen1 f o s = .ok (t, s')) :
    t.value.1 = (f a.value).1 ∧ (t.value.1 ≠ a.value ↔ (f a.value).1 ≠ a.value) := by
  have : t.value.1 = (f a.value).1 := by
    simp only [dependencyM, dependentM, h1, Outcome.ok_bind] at h
    cases e : (f a.value).2 s1 with
    | ok r =>
      simp only [e, Outcome.ok_bind, pure] at h
      cases e' : peek (fun v => (f v).2) a.shrinks r.2 with
      | ok s2 =>
        simp only [e', Outcome.ok_bind, Outcome.ok.injEq, Prod.mk.injEq] at h
        rw [← h.1]
        simp
      | _ => simp [e', Bind.bind, Outcome.bind] at h
    | _ => simp [e, Bind.bind, Outcome.bind] at h
  exact ⟨this, by rw [this]⟩

/-- C161, violated: likewise for tuples. -/
theorem C161_chain_violated (cat : α → β → γ) (gen1 : Gen σ α) (f : Factory σ α β) (o : List Nat → σ) {s s1 s2 : σ}
    {a : Shr α} {u : Shr β} (h1 : gen1 s = .ok (a, s1)) (h2 : (f a.value).2 s1 = .ok (u, s2))
    (h3 : ∀ c ∈ a.shrinks.head?, ∃ r, (f c.value).2 s2 = .ok r) :
    ∃ t s3, chainM cat gen1 f o s = .ok (t, s3) ∧ t.value = cat (f a.value).1 u.value := by
  obtain ⟨s3, h3⟩ := peek_total (gen2gen := fun v => (f v).2) h3
  refine ⟨_, s3, by simp only [chainM, dependentM, h1, h2, h3, Outcome.ok_bind, pure]; rfl, ?_⟩
  simp

/-- The length of a string, drawn from 0 to 9, is used up by a factory that counts it down: the pair says 0. -/
example : let gen1 : Gen Nat Nat := fun s => .ok (node (s % 10) [leaf 0], s + 1)
    let f : Factory Nat Nat (List Nat) := fun n => (0, fun s => .ok (leaf (List.replicate n 7), s + 1))
    (match dependencyM gen1 f (fun _ => 0) 5 with
      | .ok (t, _) => some (t.value, t.shrinks.map (·.value))
      | _ => none) = some ((0, [7, 7, 7, 7, 7]), [(0, [])]) := by
  decide +kernel

/-- With a factory that leaves it alone it says 5. -/
example : let gen1 : Gen Nat Nat := fun s => .ok (node (s % 10) [leaf 0], s + 1)
    (match dependencyM gen1 (fun n => (n, fun s => .ok (leaf (List.replicate n 7), s + 1))) (fun _ => 0) 5 with
      | .ok (t, _) => some (t.value, t.shrinks.map (·.value))
      | _ => none) = some ((5, [7, 7, 7, 7, 7]), [(0, [])]) := by
  decide +kernel

end Comb
end Verif
