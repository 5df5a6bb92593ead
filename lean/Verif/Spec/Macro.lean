import Verif.Model.Macro
/-
Vocabulary for claims about macro arguments. Not part of /repo.
-/
namespace Verif
namespace Context

/-- What each macro says it checks. -/
def Macro.meaning (m : Macro) (a b : Int) : Prop :=
  match m with
  | .EXPECT => a ≠ 0
  | .TRUE => a ≠ 0
  | .FALSE => a = 0
  | .EQ => a = b
  | .NE => a ≠ b
  | .LT => a < b
  | .GT => b < a
  | .LE => a ≤ b
  | .GE => b ≤ a

end Context

namespace Macros

/-- How strongly the outermost operator of an expression binds; operands, `!` and parentheses bind strongest. -/
def Expr.level : Expr → Nat
  | .num _ => 11
  | .paren _ => 11
  | .not _ => 11
  | .bin o _ _ => o.level
  | .cond _ _ _ => 0

/-- The expression needs no more parentheses than it has: what stands in it binds as strongly as its place demands. These
are the expressions a user can write. -/
def Expr.Written : Expr → Prop
  | .num _ => True
  | .paren e => e.Written
  | .not e => e.Written ∧ e.level = 11
  | .bin o a b => a.Written ∧ b.Written ∧ o.level ≤ a.level ∧ o.level < b.level
  | .cond c a b => c.Written ∧ a.Written ∧ b.Written ∧ 1 ≤ c.level

/-- Whether an expression is `Written` can be computed. -/
def Expr.decWritten : (e : Expr) → Decidable e.Written
  | .num _ => isTrue trivial
  | .paren e => e.decWritten
  | .not e => @instDecidableAnd _ _ e.decWritten _
  | .bin o a b => @instDecidableAnd _ _ a.decWritten
      (@instDecidableAnd _ _ b.decWritten (inferInstanceAs (Decidable (o.level ≤ a.level ∧ o.level < b.level))))
  | .cond c a b => @instDecidableAnd _ _ c.decWritten
      (@instDecidableAnd _ _ a.decWritten (@instDecidableAnd _ _ b.decWritten (inferInstanceAs (Decidable (1 ≤ c.level)))))

instance (e : Expr) : Decidable e.Written := e.decWritten

/-- An `if` with this text as condition goes into its first branch. -/
def Taken (ts : List Tok) : Prop := ∃ e, Compiled ts e ∧ e.value ≠ 0

/-- The operator a macro compares with. -/
def operator : Context.Macro → Option BinOp
  | .EQ => some .eq
  | .NE => some .ne
  | .LT => some .lt
  | .GT => some .gt
  | .LE => some .le
  | .GE => some .ge
  | _ => none

end Macros
end Verif
