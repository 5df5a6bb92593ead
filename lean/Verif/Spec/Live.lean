import Verif.Model.Live
/-
What can be seen of a shrinkable whose shrinks draw from the engine.
-/
namespace Verif
namespace Live
variable {σ α : Type}

/-- The shrinkable is offered by the stream, if the engine is in whatever states when the stream is evaluated. -/
inductive Run.Has : Run σ α → LShr σ α → Prop where
  | head (s : σ) (v : α) (shrinks tail : σ → Run σ α) : Run.Has (.cons s v shrinks tail) ⟨v, shrinks⟩
  | tail (s s' : σ) (v : α) (shrinks tail : σ → Run σ α) (c : LShr σ α) :
      Run.Has (tail s') c → Run.Has (.cons s v shrinks tail) c

/-- The shrinkable is met by taking shrinks of shrinks, at whatever states of the engine. -/
inductive LShr.Desc : LShr σ α → LShr σ α → Prop where
  | self (t : LShr σ α) : LShr.Desc t t
  | step (t c d : LShr σ α) (s : σ) : (t.shrinks s).Has c → LShr.Desc c d → LShr.Desc t d

/-- The value is met by taking shrinks of shrinks, at whatever states of the engine. -/
def LShr.Reach (t : LShr σ α) (v : α) : Prop := ∃ d, t.Desc d ∧ d.value = v

/-- The generator may make the value, or a shrinkable that may be shrunk to it. -/
def LGen.Gives (g : LGen σ α) (v : α) : Prop := ∃ s t s', g s = .ok (t, s') ∧ t.Reach v

/-- All values of a stream read to the end without doing anything else, and the state of the engine at the end. -/
def Run.read : Run σ α → Outcome (List α × σ)
  | .stop o => o.bind fun x => nomatch x
  | .nil s => .ok ([], s)
  | .cons s v _ tail => do
    let (vs, s) ← (tail s).read
    pure (v :: vs, s)

/-- No evaluation of the stream fails to return, in whatever states of the engine. -/
def Run.Calm : Run σ α → Prop
  | .stop _ => False
  | .nil _ => True
  | .cons _ _ shrinks tail => (∀ s, (shrinks s).Calm) ∧ ∀ s, (tail s).Calm

/-- The generator always returns, and so does everything one can do with what it returns. -/
def LGen.Total (g : LGen σ α) : Prop := ∀ s, ∃ t s', g s = .ok (t, s') ∧ ∀ s, (t.shrinks s).Calm

/-- Every call of the generator returns, counts as one call, and the value it makes has a first shrink that has no shrinks
itself, like a number that is not 0. -/
def Simple (calls : σ → Nat) (g : Gen σ α) : Prop :=
  ∀ s, ∃ v w cs s', g s = .ok (.node v (.node w [] :: cs), s') ∧ calls s' = calls s + 1

/-- Every call of the generator returns, counts as one call, and the value it makes has no shrinks. -/
def Plain (calls : σ → Nat) (g : Gen σ α) : Prop :=
  ∀ s, ∃ v s', g s = .ok (.node v [], s') ∧ calls s' = calls s + 1

/-- A generator that always makes the same shrinkable and does not draw. -/
def always (t : Shr α) : LGen σ α := ofGen fun s => .ok (t, s)

/-- The shrinkable `derive` makes of `t`, if the second generator for a value `v` always makes `F v`: the values of `t` are
replaced by those of `F`; where `t` ends the shrinks of `F` follow. -/
def bindTree (F : α → Shr β) : Shr α → Shr β
  | .node v [] => F v
  | .node v (s :: ss) => .node (F v).value (bindTree F s :: bindTrees ss)
where
  bindTrees : List (Shr α) → List (Shr β)
    | [] => []
    | s :: ss => bindTree F s :: bindTrees ss

end Live
end Verif
