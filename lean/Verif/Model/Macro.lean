import Verif.Model.Context
import Mathlib.Data.Int.Bitwise
/-
The text of expectation macros after the preprocessor, and how a compiler reads it:
/repo/proptest/PropertyBase.hpp:21-29 and /repo/proptest/assert.hpp:94-96.
-/
namespace Verif
namespace Macros

/-- The binary operators of C++ that are considered. Language, no code of /repo. Simplified: no division, remainder, right
shift, three way comparison, assignment and member access. -/
inductive BinOp where
  | mul | add | sub | shl | lt | gt | le | ge | eq | ne | band | bxor | bor | and | or
deriving DecidableEq

/-- How strongly an operator binds. Language, no code of /repo. -/
def BinOp.level : BinOp → Nat
  | .mul => 10
  | .add | .sub => 9
  | .shl => 8
  | .lt | .gt | .le | .ge => 7
  | .eq | .ne => 6
  | .band => 5
  | .bxor => 4
  | .bor => 3
  | .and => 2
  | .or => 1

/-- A truth value as an operand. Language, no code of /repo. -/
def ofBool (b : Bool) : Int := if b then 1 else 0

/-- The value of an operator on integers. Language, no code of /repo. Simplified: integers of any size. -/
def BinOp.eval : BinOp → Int → Int → Int
  | .mul, a, b => a * b
  | .add, a, b => a + b
  | .sub, a, b => a - b
  | .shl, a, b => a * 2 ^ b.toNat
  | .lt, a, b => ofBool (a < b)
  | .gt, a, b => ofBool (a > b)
  | .le, a, b => ofBool (a ≤ b)
  | .ge, a, b => ofBool (a ≥ b)
  | .eq, a, b => ofBool (a = b)
  | .ne, a, b => ofBool (a ≠ b)
  | .band, a, b => a.land b
  | .bxor, a, b => a.xor b
  | .bor, a, b => a.lor b
  | .and, a, b => ofBool (a ≠ 0 ∧ b ≠ 0)
  | .or, a, b => ofBool (a ≠ 0 ∨ b ≠ 0)

/-- The tokens of an expression; `num v` stands for a literal, a variable or a call with value `v`. Language, no code of
/repo. -/
inductive Tok where
  | num (v : Int)
  | op (o : BinOp)
  | bang
  | quest
  | colon
  | lpar
  | rpar
deriving DecidableEq

/-- Expressions as a compiler has read them. Language, no code of /repo. -/
inductive Expr where
  | num (v : Int)
  | paren (e : Expr)
  | not (e : Expr)
  | bin (o : BinOp) (a b : Expr)
  | cond (c a b : Expr)
deriving DecidableEq

/-- The value of an expression without side effects. Language, no code of /repo. -/
def Expr.value : Expr → Int
  | .num v => v
  | .paren e => e.value
  | .not e => ofBool (e.value = 0)
  | .bin o a b => o.eval a.value b.value
  | .cond c a b => if c.value ≠ 0 then a.value else b.value

/-- The text of an expression. Language, no code of /repo. -/
def Expr.text : Expr → List Tok
  | .num v => [.num v]
  | .paren e => .lpar :: e.text ++ [.rpar]
  | .not e => .bang :: e.text
  | .bin o a b => a.text ++ .op o :: b.text
  | .cond c a b => c.text ++ .quest :: a.text ++ .colon :: b.text

mutual
/-- Reads an operand with the `!` in front of it; what is left of the text comes back. Language, no code of /repo. -/
def readUnary : Nat → List Tok → Option (Expr × List Tok)
  | 0, _ => none
  | _ + 1, .num v :: ts => some (.num v, ts)
  | f + 1, .bang :: ts =>
    match readUnary f ts with
    | some (e, r) => some (.not e, r)
    | none => none
  | f + 1, .lpar :: ts =>
    match readExpr f 0 ts with
    | some (e, .rpar :: r) => some (.paren e, r)
    | _ => none
  | _ + 1, _ => none

/-- Reads an expression whose operators outside of parentheses bind at least as strongly as `l` (0 allows `?:`, too).
Language, no code of /repo. -/
def readExpr : Nat → Nat → List Tok → Option (Expr × List Tok)
  | 0, _, _ => none
  | f + 1, l, ts =>
    match readUnary f ts with
    | some (e, r) => readMore f l e r
    | none => none

/-- Goes on after the expression `e` has been read. Language, no code of /repo. -/
def readMore : Nat → Nat → Expr → List Tok → Option (Expr × List Tok)
  | 0, _, _, _ => none
  | f + 1, l, e, .op o :: ts =>
    if l ≤ o.level then
      match readExpr f (o.level + 1) ts with
      | some (b, r) => readMore f l (.bin o e b) r
      | none => none
    else some (e, .op o :: ts)
  | f + 1, l, e, .quest :: ts =>
    if l = 0 then
      match readExpr f 0 ts with
      | some (a, .colon :: r) =>
        match readExpr f 0 r with
        | some (b, r') => some (.cond e a b, r')
        | none => none
      | _ => none
    else some (e, .quest :: ts)
  | _ + 1, _, e, ts => some (e, ts)
end

/-- The compiler reads the text as the expression. Language, no code of /repo. -/
def Compiled (ts : List Tok) (e : Expr) : Prop := ∃ f, readExpr f 0 ts = some (e, [])

open Context in
/-- The text of the condition that is passed to `PROP_EXPECT_STREAM`, after the arguments have been put in. Models
/repo/proptest/PropertyBase.hpp:21-29. -/
def expectText (m : Macro) (a b : List Tok) : List Tok :=
  match m with
  | .EXPECT => a
  | .TRUE => a
  | .FALSE => a
  | .EQ => .lpar :: a ++ .op .eq :: b ++ [.rpar]
  | .NE => .lpar :: a ++ .op .ne :: b ++ [.rpar]
  | .LT => .lpar :: a ++ .op .lt :: b ++ [.rpar]
  | .GT => .lpar :: a ++ .op .gt :: b ++ [.rpar]
  | .LE => .lpar :: a ++ .op .le :: b ++ [.rpar]
  | .GE => .lpar :: a ++ .op .ge :: b ++ [.rpar]

open Context in
/-- The text of the test in `PROP_EXPECT_STREAM`, /repo/proptest/PropertyBase.hpp:10. -/
def expectTest (m : Macro) (a b : List Tok) : List Tok := .bang :: .lpar :: expectText m a b ++ [.rpar]

/-- The text of the test in `PROP_ASSERT_FALSE`, /repo/proptest/assert.hpp:77 and 96. -/
def assertFalseTest (a : List Tok) : List Tok := .bang :: .lpar :: .bang :: a ++ [.rpar]

/-! ### Arguments with side effects -/

/-- An argument that may change the state of the program when it is evaluated. Language, no code of /repo. -/
abbrev Arg (S : Type) := S → Int × S

/-- Evaluates two operands of a comparison, in the order the compiler chooses. Language, no code of /repo. -/
def operands {S : Type} (rightFirst : Bool) (a b : Arg S) (s : S) : (Int × Int) × S :=
  if rightFirst then
    let y := b s
    let x := a y.2
    ((x.1, y.1), x.2)
  else
    let x := a s
    let y := b x.2
    ((x.1, y.1), y.2)

/-- What an expectation with two arguments reports (if it fails, the two values shown), and the state afterwards. Models
`PROP_EXPECT_STREAM`, /repo/proptest/PropertyBase.hpp:8-19, for the macros with two arguments, lines 24-29: the values
shown are those of a second evaluation (line 12, from left to right). -/
def expectArgs {S : Type} (o : BinOp) (rightFirst : Bool) (a b : Arg S) (s : S) : Option (Int × Int) × S :=
  let x := operands rightFirst a b s
  if !(o.eval x.1.1 x.1.2 ≠ 0) then
    let y := operands false a b x.2
    (some y.1, y.2)
  else (none, x.2)

end Macros
end Verif
