import Verif.Model.Format
import Verif.Spec.Printing
/-
Vocabulary for what printing does to the format settings of a stream.
-/
namespace Verif
namespace Printing
open Unicode

/-- The overload of `show` that is chosen for a type, as `Ty.show`. -/
def Ty.write : (t : Ty) → Writer t.Val
  | .bool => writeBool
  | .int => writeInt
  | .str e => fun s => writeStr e.print s.1
  | .vec t => writeSeq 91 93 t.write
  | .pair t u => writePair t.write u.write
  | .tuple _ ts => writeTuple fun i => (ts i).write
  | .set => writeSeq 123 125 writeInt
  | .map k v => writeSeq 123 125 (writePair k.write v.write)
  | .nullable t => writeNullable t.write

/-- There is a string with at least one character in the value. -/
def Ty.HasString : (t : Ty) → t.Val → Prop
  | .bool, _ => False
  | .int, _ => False
  | .str _, s => s.1 ≠ []
  | .vec t, xs => let l : List t.Val := xs; ∃ x ∈ l, t.HasString x
  | .pair t u, x => t.HasString x.1 ∨ u.HasString x.2
  | .tuple _ ts, x => ∃ i, (ts i).HasString (x i)
  | .set, _ => False
  | .map k v, xs => let l : List (k.Val × v.Val) := xs; ∃ x ∈ l, k.HasString x.1 ∨ v.HasString x.2
  | .nullable t, x => let o : Option t.Val := x; ∃ a ∈ o, t.HasString a

end Printing
end Verif
