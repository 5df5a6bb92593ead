import Verif.Model.Outcome
/-
Random numbers: /repo/proptest/Random.hpp, /repo/proptest/Random.cpp.
-/
namespace Verif

/-- A random engine with state type `σ`: `draw s a b` is a draw from
`std::uniform_int_distribution(a, b)`. Models the members `engine` and `dist` of `class Random`,
/repo/proptest/Random.hpp:43-45. Nothing is assumed about the distribution, only that a draw lies in the
requested range. -/
structure Rng (σ : Type) where
  draw : σ → Int → Int → Int × σ
  draw_mem : ∀ s a b, a ≤ b → a ≤ (draw s a b).1 ∧ (draw s a b).1 ≤ b

/-- An integer type: signedness and number of bits. Models `int8_t` ... `uint64_t`,
/repo/proptest/generator/integral.cpp:27-35. -/
structure IntType where
  signed : Bool
  bits : Nat
deriving DecidableEq, Repr

namespace IntType
/-- `numeric_limits<T>::min()`, used in /repo/proptest/generator/integral.hpp:38-44. -/
def lo (T : IntType) : Int := if T.signed then -2^(T.bits - 1) else 0
/-- `numeric_limits<T>::max()`, used in /repo/proptest/generator/integral.hpp:38-44. -/
def hi (T : IntType) : Int := if T.signed then 2^(T.bits - 1) - 1 else 2^T.bits - 1
/-- `static_cast<T>(x)`: reduction modulo 2^bits into the range of the type (e.g.
/repo/proptest/generator/integral.hpp:24, 54, 58, 61). -/
def wrap (T : IntType) (x : Int) : Int := (x - T.lo) % 2^T.bits + T.lo

/-- `int8_t`, /repo/proptest/generator/integral.cpp:28. -/
def i8 : IntType := ⟨true, 8⟩
/-- `int16_t`, /repo/proptest/generator/integral.cpp:29. -/
def i16 : IntType := ⟨true, 16⟩
/-- `int32_t`, /repo/proptest/generator/integral.cpp:30. -/
def i32 : IntType := ⟨true, 32⟩
/-- `int64_t`, /repo/proptest/generator/integral.cpp:31. -/
def i64 : IntType := ⟨true, 64⟩
/-- `uint8_t`, /repo/proptest/generator/integral.cpp:32. -/
def u8 : IntType := ⟨false, 8⟩
/-- `uint16_t`, /repo/proptest/generator/integral.cpp:33. -/
def u16 : IntType := ⟨false, 16⟩
/-- `uint32_t`, /repo/proptest/generator/integral.cpp:34. -/
def u32 : IntType := ⟨false, 32⟩
/-- `uint64_t`, /repo/proptest/generator/integral.cpp:35. -/
def u64 : IntType := ⟨false, 64⟩
/-- The eight types of /repo/proptest/generator/integral.cpp:27-35 (`DEFINE_FOR_ALL_INTTYPES`). -/
def all : List IntType := [i8, i16, i32, i64, u8, u16, u32, u64]

/-- The value of `a op b` for operands of type `T`, given the exact result `r`: types narrower than `int`
are promoted to `int` (no overflow possible for sums and differences), wider signed types overflow with
undefined behaviour, wider unsigned types wrap. C++ usual arithmetic conversions, as in
/repo/proptest/generator/integral.hpp:51, 57, 333, 341. -/
def arith (T : IntType) (r : Int) : Outcome Int :=
  if T.bits < 32 then .ok r
  else if T.signed then (if T.lo ≤ r ∧ r ≤ T.hi then .ok r else .ub)
  else .ok (T.wrap r)
end IntType

namespace Random
variable {σ : Type}

/-- A draw from `uniform_int_distribution(a, b)`: undefined for `a > b`. Models the local `dist` objects of
/repo/proptest/Random.cpp:31-77. -/
def uniform (R : Rng σ) (a b : Int) (s : σ) : Outcome (Int × σ) :=
  if a ≤ b then .ok (R.draw s a b) else .ub

/-- Models `Random::next8U`, /repo/proptest/Random.cpp:18-22. -/
def next8U (R : Rng σ) (s : σ) : Int × σ := R.draw s 0 (2^64 - 1)

/-- Models `Random::getRandomBool(double)`, /repo/proptest/Random.cpp:24-29. `none` is threshold 1.0;
`some k` is a threshold with `k = static_cast<uint64_t>(double(UINT64_MAX) * threshold)` (0.5 gives
2^63, 0 gives 0). -/
def getRandomBool (R : Rng σ) (thr : Option Nat) (s : σ) : Bool × σ :=
  match thr with
  | none => (true, s)
  | some k => let (v, s') := next8U R s; (decide (v ≤ k), s')

/-- The threshold of the default probability 0.5, /repo/proptest/Random.hpp:14: the double 2^64 times
0.5. -/
def half : Option Nat := some (2^63)

/-- Models `Random::getRandomInt8` ... `getRandomUInt64`, /repo/proptest/Random.cpp:31-77, called through
`getRandom<T>`/`getRandomU<T>`, 123-175, whose 64-bit arguments are cast to `T` first. -/
def getRandomT (R : Rng σ) (T : IntType) (min max : Int) (s : σ) : Outcome (Int × σ) := do
  let (v, s') ← uniform R (T.wrap min) (T.wrap max) s
  pure (T.wrap v, s')

/-- Models `Random::getRandomSize`, /repo/proptest/Random.cpp:80-83: arguments of type `size_t` are
narrowed to 32 bits, `toExcluded-1` wraps. -/
def getRandomSize (R : Rng σ) (fromIncluded toExcluded : Nat) (s : σ) : Outcome (Int × σ) :=
  getRandomT R .u32 fromIncluded (IntType.u64.wrap (toExcluded - 1)) s

/-- Models `Random::getRandom<char>`, /repo/proptest/Random.cpp:117-121, on platforms with signed `char`:
the bounds are cast to `uint8_t`, the result is cast to `char`. -/
def getRandomChar (R : Rng σ) (min max : Int) (s : σ) : Outcome (Int × σ) := do
  let (v, s') ← uniform R (IntType.u8.wrap min) (IntType.u8.wrap max) s
  pure (IntType.i8.wrap v, s')

/-- An engine that returns a fixed wish whenever it is in range (else the lower bound). Not part of
/repo; used to show that a certain value can be drawn. -/
def wish (v : Int) : Rng Unit where
  draw := fun _ a b => (if a ≤ v ∧ v ≤ b then v else a, ())
  draw_mem := by intro s a b h; simp only; split <;> omega

/-- An engine that returns the wishes of a list one after the other (clamped into the range). Not part of
/repo; used in examples. -/
def script : Rng (List Int) where
  draw := fun l a b =>
    match l with
    | [] => (a, [])
    | v :: vs => (if a ≤ v ∧ v ≤ b then v else a, vs)
  draw_mem := by
    intro s a b h
    cases s with
    | nil => simp; omega
    | cons v vs => simp only; split <;> omega

end Random
end Verif
