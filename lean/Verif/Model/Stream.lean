import Mathlib.Data.Seq.Defs
import Verif.Model.Outcome
/-
Lazy streams: /repo/proptest/Stream.hpp, /repo/proptest/Stream.cpp.

A C++ `Stream` is either empty (`headPtr` null) or a head together with a function producing the tail
on demand; it may be infinite. The model is Mathlib's coinductive `Stream'.Seq`, with the observation
`destruct` (= `isEmpty`/`head`/`tail`) and the corecursor `corec` (= a lambda producing the tail).
Simplification: tail functions are pure (same result whenever they are called); element types are not
erased.
-/
namespace Verif

/-- Models `struct Stream`, /repo/proptest/Stream.hpp:11-110 (members `headPtr`, `tailGen`). -/
abbrev Strm (α : Type) := Stream'.Seq α

namespace Strm
variable {α β : Type}

/-- Models `Stream::empty`, /repo/proptest/Stream.cpp:58. -/
def empty : Strm α := Stream'.Seq.nil

/-- Models `Stream::isEmpty`, /repo/proptest/Stream.cpp:23-25. -/
def isEmpty (s : Strm α) : Bool := s.destruct.isNone

/-- Models `Stream::tail`, /repo/proptest/Stream.cpp:27-33 (the tail of an empty stream is empty). -/
def tail (s : Strm α) : Strm α :=
  match s.destruct with
  | none => empty
  | some (_, t) => t

/-- Models `Iterator<T>::next`, /repo/proptest/Stream.hpp:120-128: throws on an empty stream, otherwise
returns the head and moves on. -/
def next (s : Strm α) : Outcome (α × Strm α) :=
  match s.destruct with
  | none => .throws .invalidArgument
  | some (a, t) => .ok (a, t)

/-- Calling `Iterator<T>::next` (/repo/proptest/Stream.hpp:120-128) `n` times, as the library's
`for (auto itr = s.iterator(); itr.hasNext();)` loops do, but without asking `hasNext`. -/
def nextN : Nat → Strm α → Outcome (List α)
  | 0, _ => .ok []
  | n + 1, s => do
    let (a, t) ← next s
    let rest ← nextN n t
    pure (a :: rest)

/-- Models `Stream::transform`, /repo/proptest/Stream.hpp:54-65. -/
def transform (f : α → β) (s : Strm α) : Strm β :=
  Stream'.Seq.corec
    (fun (s : Strm α) =>
      match s.destruct with
      | none => none
      | some (a, t) => some (f a, t)) s

/-- Models `Stream::concat`, /repo/proptest/Stream.cpp:35-43. The state is the pair (this, other); once
`this` is empty the result is `other`. -/
def concat (s other : Strm α) : Strm α :=
  Stream'.Seq.corec
    (fun (st : Strm α × Strm α) =>
      match st.1.destruct with
      | some (a, t) => some (a, (t, st.2))
      | none =>
        match st.2.destruct with
        | none => none
        | some (a, t) => some (a, (empty, t))) (s, other)

/-- Models `Stream::take(int n)`, /repo/proptest/Stream.cpp:45-56: the emptiness test comes first, the
count is compared with zero only. Simplification: `n - 1` is exact (the C++ `int` would overflow only
after more than 2^31 elements starting from a negative `n`). -/
def take (n : Int) (s : Strm α) : Strm α :=
  Stream'.Seq.corec
    (fun (st : Int × Strm α) =>
      match st.2.destruct with
      | none => none
      | some (a, t) => if st.1 = 0 then none else some (a, (st.1 - 1, t))) (n, s)

/-- Models the search loop of `Stream::filter`, /repo/proptest/Stream.hpp:75-89: finds the next element
satisfying the criteria. `fuel` bounds the number of loop iterations; `diverges` means that the loop
is still running after that many iterations. `ok none` is `Stream::empty()`, `ok (some (a, t))` is the
stream with head `a` whose tail is `t.filter(criteria)`. -/
def filterSearch (c : α → Bool) : Nat → Strm α → Outcome (Option (α × Strm α))
  | 0, _ => .diverges
  | fuel + 1, s =>
    match s.destruct with
    | none => .ok none
    | some (a, t) => if c a then .ok (some (a, t)) else filterSearch c fuel t

/-- Iterating over `s.filter(criteria)` for at most `n` elements: repeated evaluation of the lazy tail
`tail.filter(criteria)`, /repo/proptest/Stream.hpp:84, each search with budget `fuel`. -/
def filterPull (c : α → Bool) (fuel : Nat) : Nat → Strm α → Outcome (List α)
  | 0, _ => .ok []
  | n + 1, s => do
    match ← filterSearch c fuel s with
    | none => pure []
    | some (a, t) =>
      let rest ← filterPull c fuel n t
      pure (a :: rest)

/-- Models `Stream::one` / the one-element constructor, /repo/proptest/Stream.hpp:31-33, 103. -/
def one (a : α) : Strm α := Stream'.Seq.cons a empty

/-- Models `Stream::two`, /repo/proptest/Stream.hpp:106-109. -/
def two (a b : α) : Strm α := Stream'.Seq.cons a (one b)

end Strm
end Verif
