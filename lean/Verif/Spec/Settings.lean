import Verif.Model.Settings
/-
What the documentation promises of setters: the last one that sets something counts.
-/
namespace Verif
namespace Settings
variable {E : Type}

/-- The value of the last call that has one, or the value before. -/
def lastOr {β : Type} (f : Setter E → Option β) (b : β) : List (Setter E) → β
  | [] => b
  | s :: ss => lastOr f ((f s).getD b) ss

/-- The lower bound a call gives. -/
def Setter.lower : Setter E → Option Nat
  | .minSize n => some n
  | .size n => some n
  | .sizes a _ => some a
  | _ => none

/-- The upper bound a call gives. -/
def Setter.upper : Setter E → Option Nat
  | .maxSize n => some n
  | .size n => some n
  | .sizes _ b => some b
  | _ => none

/-- `r` is the generator `o` with all the settings made by the calls `ss`. -/
structure Configured (o : Obj E) (ss : List (Setter E)) (r : Obj E) : Prop where
  lower : r.minSize = lastOr Setter.lower o.minSize ss
  upper : r.maxSize = lastOr Setter.upper o.maxSize ss
  elem : r.elem = ss.foldl (fun e s => match s with | .gens f => f e | _ => e) o.elem

/-- A state that a sequence of statements leads to. -/
def Reached (st : Store E) : Prop := ∃ cs, execAll Store.empty cs = some st

/-- The statement declares the variable `x`. -/
def Cmd.declares : Cmd E → Nat → Prop
  | .new x _, z => x = z
  | .bind y _ _, z => y = z
  | _, _ => False

/-- The statement calls setters on the variable `x`. -/
def Cmd.sets : Cmd E → Nat → Prop
  | .set x _, z => x = z
  | .bind _ x _, z => x = z
  | .derive _ x _, z => x = z
  | .refer _ x _, z => x = z
  | _, _ => False

/-- The statement declares the generator `g`. -/
def Cmd.defines : Cmd E → Nat → Prop
  | .derive g _ _, z => g = z
  | .refer g _ _, z => g = z
  | _, _ => False

end Settings
end Verif
