import Verif.Model.Floating
import Mathlib.Data.Rat.Floor
/-
Vocabulary for floating point numbers.
-/
namespace Verif
namespace Floating

/-- The numbers of the format. -/
def Fl.Valid (F : Fmt) : Fl → Prop
  | .fin _ f e => F.Finite f e
  | _ => True

instance (F : Fmt) (x : Fl) : Decidable (x.Valid F) :=
  match x with
  | .fin _ f e => inferInstanceAs (Decidable (F.Finite f e))
  | .nan => isTrue trivial
  | .inf _ => isTrue trivial
  | .zero _ => isTrue trivial

/-- The rational number, if it is one. -/
def Fl.toRat? (F : Fmt) : Fl → Option ℚ
  | .zero _ => some 0
  | .fin neg f e => some ((if neg then -1 else 1) * f * 2^(e - F.p))
  | _ => none

end Floating
end Verif
