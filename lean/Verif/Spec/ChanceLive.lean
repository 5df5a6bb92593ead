import Verif.Spec.Chance
import Verif.Model.Live
/-
The chances of the values of dependent generators whose shrinks draw.
-/
namespace Verif
namespace Live
variable {σ α β γ : Type}

/-- A generator of shrinkables whose shrinks may draw, for every engine. -/
abbrev LSrc (α : Type) := ∀ σ : Type, Rng σ → LGen σ α

/-- The value that a call of a generator returns, without the shrinks. -/
def valueOf (g : LSrc α) : Src α := fun σ R s => do
  let (t, s) ← g σ R s
  pure (t.value, s)

/-- The generators that are made of generators that always return, and whose draws are an experiment, with `pairWith`, `tupleWith`,
`flatMap` and `map`, nested to any depth. -/
inductive Built : {α : Type} → LSrc α → Prop
  | gen {α : Type} (g : Src (Shr α)) (h : ∃ e, Follows g e) (ok : ∀ σ R s, ∃ r, g σ R s = .ok r) :
      Built fun σ R => ofGen (g σ R)
  | pairWith {α β : Type} {g : LSrc α} {f : α → LSrc β} : Built g → (∀ v, Built (f v)) →
      Built fun σ R => dependency (g σ R) fun v => f v σ R
  | tupleWith {α β γ : Type} (cat : α → β → γ) {g : LSrc α} {f : α → LSrc β} : Built g → (∀ v, Built (f v)) →
      Built fun σ R => chain cat (g σ R) fun v => f v σ R
  | flatMap {α β : Type} {g : LSrc α} {f : α → LSrc β} : Built g → (∀ v, Built (f v)) →
      Built fun σ R => derive (g σ R) fun v => f v σ R
  | map {α β : Type} (f : α → β) {g : LSrc α} : Built g → Built fun σ R => transform (g σ R) f

end Live
end Verif
