import Verif.Model.Outcome
import Mathlib.Order.Defs.LinearOrder
import Mathlib.Order.Nat
/-
Property contexts, expectations and tag statistics: /repo/proptest/PropertyContext.hpp,
/repo/proptest/PropertyContext.cpp, /repo/proptest/PropertyBase.hpp, /repo/proptest/Property.cpp and the macros of
/repo/proptest/assert.hpp.
-/
namespace Verif
namespace Context

/-- Text. Simplified: characters instead of bytes. No code of /repo. -/
abbrev Txt := List Char

/-! ### std::map -/

section
variable {K V : Type} [LinearOrder K]

/-- `map::find`, as used at /repo/proptest/PropertyContext.cpp:29 and 33. A `std::map` is modelled by the list of its
entries in key order; keys are elements of any linearly ordered type instead of `std::string` compared bytewise. -/
def mapFind : List (K × V) → K → Option V
  | [], _ => none
  | (k, v) :: rest, key => if k = key then some v else mapFind rest key

/-- `map::insert`, as used at /repo/proptest/PropertyContext.cpp:39, 43 and 44: an existing entry is kept. -/
def mapInsert : List (K × V) → K → V → List (K × V)
  | [], key, val => [(key, val)]
  | (k, v) :: rest, key, val =>
    if key < k then (key, val) :: (k, v) :: rest
    else if k = key then (k, v) :: rest
    else (k, v) :: mapInsert rest key val

/-- Assignment through an iterator's `second`, /repo/proptest/PropertyContext.cpp:32, 36-37. -/
def mapSet : List (K × V) → K → V → List (K × V)
  | [], _, _ => []
  | (k, v) :: rest, key, val => if k = key then (k, val) :: rest else (k, v) :: mapSet rest key val

/-- `map<string, map<string, Tag>>`, /repo/proptest/PropertyContext.hpp:57. Simplified: of a `Tag` only the count is
kept. -/
abbrev Tags (K V : Type) := List (K × List (V × Nat))

variable [LinearOrder V]

/-- Models `PropertyContext::tag`, /repo/proptest/PropertyContext.cpp:27-46. -/
def tag (tags : Tags K V) (key : K) (value : V) : Tags K V :=
  match mapFind tags key with
  | some valueMap =>
    match mapFind valueMap value with
    | some count => mapSet tags key (mapSet valueMap value (count + 1))
    | none => mapSet tags key (mapInsert valueMap value 1)
  | none => mapInsert tags key (mapInsert [] value 1)

/-- Models `PropertyContext::printSummary`, /repo/proptest/PropertyContext.cpp:91-110: per key the lines
"value: count/total"; for the percentage see Model/Percent.lean. -/
def printSummary (tags : Tags K V) : List (K × List (V × Nat × Nat)) :=
  tags.map fun (key, valueMap) =>
    let total := valueMap.foldl (fun total valueKV => total + valueKV.2) 0
    (key, valueMap.map fun (value, count) => (value, count, total))

end

/-! ### std::stringstream -/

/-- A `std::stringstream`: its buffer and its put position. Library type, no code of /repo. -/
structure Stream where
  buf : Txt
  pos : Nat
deriving DecidableEq

/-- `stringstream()`. -/
def Stream.empty : Stream := ⟨[], 0⟩

/-- `stringstream(text)`, as used by /repo/proptest/PropertyContext.hpp:20-23: the buffer holds the text, the put
position is 0 (the open mode has no `ate`). -/
def Stream.ofText (text : Txt) : Stream := ⟨text, 0⟩

/-- `stream << text`: overwrites from the put position on. Library function, no code of /repo. -/
def Stream.write (s : Stream) (text : Txt) : Stream :=
  ⟨s.buf.take s.pos ++ text ++ s.buf.drop (s.pos + text.length), s.pos + text.length⟩

/-! ### Contexts -/

/-- Models `struct Failure`, /repo/proptest/PropertyContext.hpp:17-28. Simplified: no file name and line. -/
structure Failure where
  condition : Txt
  str : Stream
deriving DecidableEq

/-- Models `struct PropertyContext`, /repo/proptest/PropertyContext.hpp:35-57. -/
structure Ctx where
  tags : Tags Nat Nat
  failures : List Failure
  lastStreamExists : Bool
  oldContext : Option Nat

/-- The memory: the live contexts by address, the static `PropertyBase::context`
(/repo/proptest/Property.cpp:23), the static `defaultStr` of `getLastStream`
(/repo/proptest/PropertyContext.cpp:62), and the addresses used so far (a new object gets a new address). -/
structure World where
  ctxs : Nat → Option Ctx
  context : Option Nat
  defaultStr : Stream
  used : Nat

/-- Writes a live context. No particular code of /repo. -/
def World.set (w : World) (a : Nat) (c : Option Ctx) : World := ⟨fun b => if b = a then c else w.ctxs b, w.context, w.defaultStr, w.used⟩

/-- Models the constructor, /repo/proptest/PropertyContext.cpp:17-20; yields the address of the new object. -/
def ctor (w : World) : Nat × World :=
  let w' := w.set w.used (some ⟨[], [], false, w.context⟩)
  (w.used, ⟨w'.ctxs, some w.used, w'.defaultStr, w.used + 1⟩)

/-- Models the destructor, /repo/proptest/PropertyContext.cpp:22-25. -/
def dtor (a : Nat) (w : World) : Outcome World :=
  match w.ctxs a with
  | none => .ub
  | some c => let w' := w.set a none
    .ok ⟨w'.ctxs, c.oldContext, w'.defaultStr, w'.used⟩

/-- `if (!context) throw runtime_error(...); context->...`: changes the current context. Models the common part of
/repo/proptest/Property.cpp:32-54 and 61-67. A context that is no longer alive is undefined behaviour. -/
def onContext (w : World) (f : Ctx → Ctx) : Outcome World :=
  match w.context with
  | none => .throws .runtimeError
  | some a =>
    match w.ctxs a with
    | none => .ub
    | some c => .ok (w.set a (some (f c)))

/-- Models `PropertyContext::tag` on the current context, /repo/proptest/Property.cpp:32-38. -/
def baseTag (key value : Nat) (w : World) : Outcome World :=
  onContext w fun c => ⟨tag c.tags key value, c.failures, c.lastStreamExists, c.oldContext⟩

/-- Models `PropertyBase::succeed` and `PropertyContext::succeed`, /repo/proptest/Property.cpp:40-46,
/repo/proptest/PropertyContext.cpp:48-52. -/
def baseSucceed (w : World) : Outcome World :=
  onContext w fun c => ⟨c.tags, c.failures, false, c.oldContext⟩

/-- Models `PropertyBase::fail` and `PropertyContext::fail`, /repo/proptest/Property.cpp:48-54,
/repo/proptest/PropertyContext.cpp:54-58. -/
def baseFail (condition : Txt) (str : Stream) (w : World) : Outcome World :=
  onContext w fun c => ⟨c.tags, c.failures ++ [⟨condition, Stream.ofText str.buf⟩], true, c.oldContext⟩

/-- `getLastStream() << text`. Models /repo/proptest/Property.cpp:61-67 and
/repo/proptest/PropertyContext.cpp:60-67 followed by the user's `<<`. -/
def writeLast (text : Txt) (w : World) : Outcome World :=
  match w.context with
  | none => .throws .runtimeError
  | some a =>
    match w.ctxs a with
    | none => .ub
    | some c =>
      if c.failures.isEmpty || !c.lastStreamExists then
        .ok ⟨w.ctxs, w.context, w.defaultStr.write text, w.used⟩
      else
        .ok (w.set a (some ⟨c.tags, c.failures.modify (c.failures.length - 1)
          (fun f => ⟨f.condition, f.str.write text⟩), c.lastStreamExists, c.oldContext⟩))

/-- The text of one failure. Models `operator<<(ostream&, const Failure&)`, /repo/proptest/PropertyContext.cpp:7-15.
Simplified: no file name and line. -/
def Failure.show (f : Failure) : Txt :=
  if f.str.buf.isEmpty then f.condition else f.condition ++ " with ".toList ++ f.str.buf

/-- The texts of the failures in order, and the context without them. Models `PropertyContext::flushFailures`,
/repo/proptest/PropertyContext.cpp:69-89. Simplified: the texts are kept apart instead of joined by ",\n" and
spaces. -/
def flushFailures (c : Ctx) : List Txt × Ctx :=
  (c.failures.map Failure.show, ⟨c.tags, [], c.lastStreamExists, c.oldContext⟩)

/-- Models `PROP_EXPECT_STREAM(condition, a, sign, b) << msg`, /repo/proptest/PropertyBase.hpp:8-19; `name` is
`#condition`, `detail` the text of `a << sign << b`. -/
def expectStream (condition : Bool) (name detail msg : Txt) (w : World) : Outcome World := do
  let w ← if !condition then baseFail name (Stream.empty.write detail) w else baseSucceed w
  writeLast msg w

/-! ### Programs using contexts -/

/-- What a program does with contexts: expectations, tags, exceptions, and blocks with a `PropertyContext` of their
own that may catch exceptions: the bodies of /repo/proptest/Property.hpp:193-266, 268-300 and 376-403, which may be
nested in each other through the property function. -/
inductive Prog where
  | done
  | expect (condition : Bool) (name detail msg : Txt) (rest : Prog)
  | tag (key value : Nat) (rest : Prog)
  | raise
  | block (body : Prog) (catches : Bool) (rest : Prog)

/-- Runs the program; the flag tells whether an exception is in flight at the end. Destructors run also then.
Models C++ scopes; no particular code of /repo. -/
def exec : Prog → World → Outcome (Bool × World)
  | .done, w => .ok (false, w)
  | .raise, w => .ok (true, w)
  | .expect c name detail msg rest, w =>
    match expectStream c name detail msg w with
    | .ok w => exec rest w
    | .throws _ => .ok (true, w)
    | .ub => .ub
    | .diverges => .diverges
  | .tag k v rest, w =>
    match baseTag k v w with
    | .ok w => exec rest w
    | .throws _ => .ok (true, w)
    | .ub => .ub
    | .diverges => .diverges
  | .block body catches rest, w =>
    match exec body (ctor w).2 with
    | .ok (raised, w1) =>
      match dtor (ctor w).1 w1 with
      | .ok w2 => if raised && !catches then .ok (true, w2) else exec rest w2
      | .throws e => .throws e
      | .ub => .ub
      | .diverges => .diverges
    | .throws e => .throws e
    | .ub => .ub
    | .diverges => .diverges

/-! ### The macros -/

/-- The comparison macros `PROP_EXPECT_*` of one or two arguments, /repo/proptest/PropertyBase.hpp:21-29. -/
inductive Macro where
  | EXPECT
  | TRUE
  | FALSE
  | EQ
  | NE
  | LT
  | GT
  | LE
  | GE
deriving DecidableEq

/-- The condition passed on to `PROP_EXPECT_STREAM` by the macros, /repo/proptest/PropertyBase.hpp:21-29, for
arguments that are `int`s (the macros of one argument use `a` only; nonzero means true). -/
def Macro.condition (m : Macro) (a b : Int) : Bool :=
  match m with
  | .EXPECT => a ≠ 0
  | .TRUE => a ≠ 0
  | .FALSE => a ≠ 0
  | .EQ => a = b
  | .NE => a ≠ b
  | .LT => a < b
  | .GT => a > b
  | .LE => a ≤ b
  | .GE => a ≥ b

/-- The memory comparison: the sign of the first difference in the first `n` bytes; reading past the end of a buffer
is undefined. Library function `memcmp`, no code of /repo. -/
def memcmp (a b : List Nat) (n : Nat) : Outcome Int :=
  if a.length < n ∨ b.length < n then .ub
  else
    match ((a.take n).zip (b.take n)).find? (fun p => p.1 ≠ p.2) with
    | none => .ok 0
    | some (x, y) => if x < y then .ok (-1) else .ok 1

/-- The condition of `PROP_EXPECT_STREQ2(a, b, n1, n2)` and `PROP_ASSERT_STREQ2`, /repo/proptest/PropertyBase.hpp:32-34,
/repo/proptest/assert.hpp:117-128. -/
def streq2 (a b : List Nat) (n1 n2 : Nat) : Outcome Bool := do
  let r ← memcmp a b (if n1 ≤ n2 then n1 else n2)
  pure (decide (r = 0))

/-- The condition of `PROP_EXPECT_STRNE2(a, b, n1, n2)` and `PROP_ASSERT_STRNE2`, /repo/proptest/PropertyBase.hpp:37-39,
/repo/proptest/assert.hpp:141-152. -/
def strne2 (a b : List Nat) (n1 n2 : Nat) : Outcome Bool := do
  let r ← memcmp a b (if n1 ≤ n2 then n1 else n2)
  pure (decide (r ≠ 0))

/-- The text of a macro argument: a single operand, or two operands joined by an operator. Enough of the C++ grammar
to see what a `!` put in front of it applies to; no code of /repo. -/
inductive CondText where
  | operand (a : Int)
  | eq (a b : Int)
  | lt (a b : Int)

/-- The value of the condition as written by the user. No code of /repo. -/
def CondText.value : CondText → Bool
  | .operand a => a ≠ 0
  | .eq a b => a = b
  | .lt a b => a < b

/-- The text `!condition`: `!` binds stronger than `==` and `<`. Models the expansion of `PROP_ASSERT_FALSE`,
/repo/proptest/assert.hpp:96. -/
def CondText.bang : CondText → CondText
  | .operand a => .operand (if a = 0 then 1 else 0)
  | .eq a b => .eq (if a = 0 then 1 else 0) b
  | .lt a b => .lt (if a = 0 then 1 else 0) b

/-- Whether `PROP_ASSERT_FALSE(condition)` throws, /repo/proptest/assert.hpp:75-81 and 96. -/
def assertFalseThrows (t : CondText) : Bool := !(t.bang.value)

end Context
end Verif
