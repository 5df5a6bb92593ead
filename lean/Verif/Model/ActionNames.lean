import Verif.Model.Stateful
import Verif.Model.Printing
/-
The names of actions and how the actions of a stateful test are shown: /repo/proptest/util/action.hpp,
/repo/proptest/util/printing.hpp, /repo/proptest/stateful/stateful_function.hpp, /repo/proptest/stateful/stateful_class.hpp.
-/
namespace Verif
namespace Stateful
open Printing Engine
variable {O M : Type}

/-- Models the name of an action made without one, `Action<?>`, /repo/proptest/util/action.hpp:16, 36. -/
def noName : Text := [65, 99, 116, 105, 111, 110, 60, 63, 62]

/-- Models `SimpleAction`, /repo/proptest/util/action.hpp:13-31: a name and a function of the object (`func`). -/
structure SimpleAct (O : Type) where
  name : Text
  func : O → Ev O

/-- Models the constructor of `SimpleAction` without a name, /repo/proptest/util/action.hpp:16. -/
def SimpleAct.unnamed (f : O → Ev O) : SimpleAct O := ⟨noName, f⟩

/-- Models `Action` with its name, /repo/proptest/util/action.hpp:33-57 (`Act` is the function alone). -/
structure NamedAct (O M : Type) where
  name : Text
  func : Act O M

/-- Models the constructor of `Action` without a name, /repo/proptest/util/action.hpp:36. -/
def NamedAct.unnamed (f : Act O M) : NamedAct O M := ⟨noName, f⟩

/-- Models the constructor of `Action` from a `SimpleAction`, /repo/proptest/util/action.hpp:40-44, which
`statefulProperty` maps over the generator of simple actions (/repo/proptest/stateful/stateful_function.hpp:141-142). -/
def NamedAct.ofSimple (a : SimpleAct O) : NamedAct O M :=
  ⟨a.name, fun o m => andThen (a.func o) fun o' => ⟨[], .ok (o', m)⟩⟩

/-- Models `show` of an action, /repo/proptest/util/printing.hpp:275-280. -/
def showAction : Printer (NamedAct O M) := fun a => .ok a.name

/-- Models `show` of the two arguments of the property of a stateful test, an object and a list of actions
(/repo/proptest/stateful/stateful_function.hpp:32, /repo/proptest/util/printing.hpp:172-182, 199-212). -/
def showRun (p : Printer O) : Printer (O × List (NamedAct O M)) := fun x =>
  showTuple (n := 1) (A := Two O (List (NamedAct O M)))
    (fun i => match i with
      | 0 => p
      | 1 => showVector showAction)
    (fun i => match i with
      | 0 => x.1
      | 1 => x.2)

/-- Models the call of the property function of a stateful test with actions that have names,
/repo/proptest/stateful/stateful_function.hpp:99-108: `operator()` calls the function (/repo/proptest/util/action.hpp:46-48). -/
def runNamed (factory : O → Ev (O × M)) (postCheck : Option (O → M → Ev (O × M))) (obj : O)
    (actions : List (NamedAct O M)) : Ev Bool :=
  func factory postCheck obj (actions.map NamedAct.func)

/-- Models `show` of an action of the class style: the list holds `shared_ptr`s (/repo/proptest/stateful/stateful_class.hpp:75,
/repo/proptest/util/printing.hpp:252-260) to the class `Action`, which has no overload of `show` and no virtual function for
it (/repo/proptest/stateful/stateful_class.hpp:46-60). -/
def showClassAction : Printer (ClassAct O M) := fun a => showNullable showDefault (some a)

end Stateful
end Verif
