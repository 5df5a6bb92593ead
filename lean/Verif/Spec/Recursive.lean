import Verif.Model.Recursive
/-
Specification vocabulary for recursive generators. Not part of /repo.
-/
namespace Verif
namespace Recursive
open Random

/-- Every box inside (and the box itself) has at least `lo` and at most `hi` boxes directly inside. -/
inductive Box.Sized (lo hi : Nat) : Box → Prop where
  | node (kids : List Box) : lo ≤ kids.length → kids.length ≤ hi → (∀ k ∈ kids, Box.Sized lo hi k) →
      Box.Sized lo hi (.node kids)

/-- Boxes are not nested more than `n` deep. -/
inductive Box.Deep : Nat → Box → Prop where
  | node (n : Nat) (kids : List Box) : (∀ k ∈ kids, Box.Deep n k) → Box.Deep (n + 1) (.node kids)

/-- `Shrunk a b`: the box `a` is the box `b` without some of the boxes in it, in the same order. -/
inductive Box.Shrunk : Box → Box → Prop where
  | node (ks zs ls : List Box) : zs.Sublist ls → List.Forall₂ Box.Shrunk ks zs → Box.Shrunk (.node ks) (.node ls)

/-- An engine that always draws the upper bound. Not part of /repo. -/
def greatest : Rng Unit where
  draw := fun _ _ b => (b, ())
  draw_mem := by intro _ a b h; exact ⟨h, Int.le_refl _⟩

/-- The call returns and the draws `l` are all it needs. -/
def ReturnsWithin (hi : Nat) (l : List Nat) : Prop :=
  ∃ fuel t r, ∀ rest, boxGen script 0 hi fuel (l.map Int.ofNat ++ rest) = .ok (t, r ++ rest)

end Recursive
end Verif
