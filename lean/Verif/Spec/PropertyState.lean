import Verif.Model.PropertyState
/-
Vocabulary for claims about generators with a state of their own. Not part of /repo.
-/
namespace Verif
namespace Engine
variable {n : Nat} {A : Fin n → Type} {ρ ω : Type}

/-- The second property is the first without the states of the generators, which do not influence the values, the random
engine and the exceptions. -/
structure SameBut (c : Cfg (ρ × ω) A) (c' : Cfg ρ A) : Prop where
  gens : ∀ i r w, c'.gens i r =
    match c.gens i (r, w) with
    | .ok (t, s) => .ok (t, s.1)
    | .throws e => .throws e
    | .ub => .ub
    | .diverges => .diverges
  orderRun : c'.orderRun = c.orderRun
  orderShrink : c'.orderShrink = c.orderShrink
  orderEach : c'.orderEach = c.orderEach
  thrown : ∀ r w, c'.thrown r = (c.thrown (r, w)).1
  func : c'.func = c.func
  startup : c'.startup = c.startup
  cleanup : c'.cleanup = c.cleanup
  numRuns : c'.numRuns = c.numRuns
  maxDurationMs : c'.maxDurationMs = c.maxDurationMs
  clock : c'.clock = c.clock

end Engine
end Verif
