import Verif.Spec.Chance
/-
`oneOf` of generators that may discard.
-/
namespace Verif
variable {α : Type}

/-- A generator that may discard: it draws and returns (`some t`) or throws `Discard` (`none`), leaving the engine in
some state in both cases. As an alternative of `oneOf`, /repo/proptest/combinator/oneof.hpp:28-38. -/
def mayDiscard {σ : Type} (h : σ → Outcome (Option (Shr α) × σ)) (w : Dbl) : Comb.Weighted σ α where
  gen s := match h s with
    | .ok (some t, s') => .ok (t, s')
    | .ok (none, _) => .throws .discard
    | .throws x => .throws x
    | .ub => .ub
    | .diverges => .diverges
  weight := w
  discarded s := match h s with
    | .ok (_, s') => s'
    | _ => s

/-- A call of the generator `oneOf(alternatives...)` (/repo/proptest/combinator/oneof.hpp:59-101) whose alternatives may
discard. -/
def oneOfDiscarding (alts : List (Src (Option (Shr α)) × Dbl)) (rounds : Nat) : Src (Shr α) := fun σ R s => do
  let ws ← Comb.oneOf (alts.map fun a => mayDiscard (a.1 σ R) a.2)
  Comb.oneOfLoop R ws rounds s

end Verif
