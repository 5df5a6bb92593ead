import Verif.Model.Context
/-
What a program with nested contexts should record.
-/
namespace Verif
namespace Context

/-- An exception leaves the program. -/
def Prog.raises : Prog → Bool
  | .done => false
  | .raise => true
  | .expect _ _ _ _ rest => rest.raises
  | .tag _ _ rest => rest.raises
  | .block body catches rest => (body.raises && !catches) || rest.raises

/-- The failed expectations of this level, those inside inner blocks and after an exception left out. -/
def Prog.own : Prog → List Txt
  | .done => []
  | .raise => []
  | .expect c name _ _ rest => if c then rest.own else name :: rest.own
  | .tag _ _ rest => rest.own
  | .block body catches rest => if body.raises && !catches then [] else rest.own

/-- The tags of this level. -/
def Prog.ownTags : Prog → List (Nat × Nat)
  | .done => []
  | .raise => []
  | .expect _ _ _ _ rest => rest.ownTags
  | .tag k v rest => (k, v) :: rest.ownTags
  | .block body catches rest => if body.raises && !catches then [] else rest.ownTags

/-- `a` is the current context, it is alive and has the contents `c`; no object lives at a fresh address. -/
structure Live (w : World) (a : Nat) (c : Ctx) : Prop where
  current : w.context = some a
  alive : w.ctxs a = some c
  fresh : ∀ b, w.used ≤ b → w.ctxs b = none

end Context
end Verif
