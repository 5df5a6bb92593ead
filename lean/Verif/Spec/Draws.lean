import Verif.Model.Gen
/-
Specification vocabulary for composite generators: which generator is called in which state of the engine.
Not part of /repo.
-/
namespace Verif
namespace Gen
variable {σ α : Type} {n : Nat} {A : Fin n → Type}

/-- `g.Draws s xs s'`: repeated calls of `g`, the first one in state `s`, each other one in the state the call
before it left, returned the trees `xs` in this order; the last call left the state `s'`. -/
inductive Draws (g : Gen σ α) : σ → List (Shr α) → σ → Prop where
  | nil (s : σ) : Draws g s [] s
  | cons {s s₁ s' : σ} {x : Shr α} {xs : List (Shr α)} :
      g s = .ok (x, s₁) → Draws g s₁ xs s' → Draws g s (x :: xs) s'

/-- `DrawsTuple gens c order s s'`: the generators with the indices `order` are called one after the other, the
first one in state `s`, each other one in the state the call before it left; generator `i` returned `c i`, and
the last call left the state `s'`. -/
inductive DrawsTuple (gens : (i : Fin n) → Gen σ (A i)) (c : (i : Fin n) → Shr (A i)) :
    List (Fin n) → σ → σ → Prop where
  | nil (s : σ) : DrawsTuple gens c [] s s
  | cons {i : Fin n} {is : List (Fin n)} {s s₁ s' : σ} :
      gens i s = .ok (c i, s₁) → DrawsTuple gens c is s₁ s' → DrawsTuple gens c (i :: is) s s'

/-- `DrawsChain f t s us s'`: starting with the tree `t`, each tree of `us` was drawn from the generator `f` gives
for the value of the tree before it, the first one in state `s`, each other one in the state the draw before it
left; the last draw left the state `s'`. -/
inductive DrawsChain (f : α → Gen σ α) : Shr α → σ → List (Shr α) → σ → Prop where
  | nil (t : Shr α) (s : σ) : DrawsChain f t s [] s
  | cons {t u : Shr α} {us : List (Shr α)} {s s₁ s' : σ} :
      f t.value s = .ok (u, s₁) → DrawsChain f u s₁ us s' → DrawsChain f t s (u :: us) s'

theorem Draws.makes {g : Gen σ α} {s s' : σ} {xs : List (Shr α)} (h : Draws g s xs s') : ∀ x ∈ xs, g.Makes x := by
  induction h with
  | nil => simp
  | cons h1 _ ih =>
    intro x hx
    rcases List.mem_cons.mp hx with rfl | hx
    · exact ⟨_, _, h1⟩
    · exact ih x hx

theorem Draws.append {g : Gen σ α} {s s₁ s' : σ} {xs ys : List (Shr α)} (h : Draws g s xs s₁)
    (h' : Draws g s₁ ys s') : Draws g s (xs ++ ys) s' := by
  induction h with
  | nil => exact h'
  | cons h1 _ ih => exact .cons h1 (ih h')

theorem DrawsTuple.makes {gens : (i : Fin n) → Gen σ (A i)} {c : (i : Fin n) → Shr (A i)} {order : List (Fin n)}
    {s s' : σ} (h : DrawsTuple gens c order s s') : ∀ i ∈ order, (gens i).Makes (c i) := by
  induction h with
  | nil => simp
  | cons h1 _ ih =>
    intro i hi
    rcases List.mem_cons.mp hi with rfl | hi
    · exact ⟨_, _, h1⟩
    · exact ih i hi

end Gen
end Verif
