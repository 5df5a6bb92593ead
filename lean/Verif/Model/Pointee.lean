import Verif.Model.Property
/-
Property functions whose arguments contain pointers, e.g. of type `shared_ptr<T>` or `Nullable<T>`, and that may change the
objects pointed to. Values of `A i` stand for the arguments with the addresses in them, `H` for the contents of memory.
-/
namespace Verif
namespace Engine
variable {n : Nat} {A : Fin n → Type} {H : Type}

/-- A property function that works on objects in memory. `fresh` are the contents of the objects as generated: an object is
allocated for every value and every shrunken value, /repo/proptest/generator/shared_ptr.hpp:32-34 and
/repo/proptest/generator/nullable.hpp:33-36. `body` is the function: what the call does and the contents it leaves
behind. `same`: the generators hand out the same pointers whenever they are called, as `elementOf<shared_ptr<T>>(p)` does
(/repo/proptest/combinator/elementof.hpp:74-89 with /repo/proptest/combinator/just.hpp:53-62). -/
structure Pointees (A : Fin n → Type) (H : Type) where
  fresh : H
  body : H → Args A → Ev Bool × H
  same : Bool

/-- The contents of the objects generated for shrinking (/repo/proptest/Property.hpp:416-418) after the given events. `get()`
copies pointers, not the objects (/repo/proptest/Shrinkable.hpp:186, /repo/proptest/generator/util.hpp:35-39), so
the calls at /repo/proptest/Property.hpp:342-347 work on the objects of the candidates. A call in a run
(/repo/proptest/util/invokeWithGenTuple.hpp:10-14) works on objects of its own, unless the generators hand
out the same ones. Simplified: one `forAll`, with nothing before it. -/
def Pointees.heap (p : Pointees A H) : Trace A → H
  | [] => p.fresh
  | .call ph args _ :: tr => if p.same || ph = .shrink then (p.body (p.heap tr) args).2 else p.heap tr
  | _ :: tr => p.heap tr

/-- The property function as a function of what has happened before, /repo/proptest/Property.hpp:75-82. -/
def Pointees.func (p : Pointees A H) : Trace A → Args A → Ev Bool := fun tr args => (p.body (p.heap tr) args).1

end Engine
end Verif
