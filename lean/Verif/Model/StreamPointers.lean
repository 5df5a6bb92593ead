import Verif.Model.Stream
import Verif.Model.Erasure
/-
Streams whose elements may be shared pointers: /repo/proptest/Stream.hpp with its two constructors for a head and a tail.

Simplifications of this file: a shared pointer is null or what it points to; tail functions are pure.
-/
namespace Verif
namespace StreamPointers
open Erasure
variable {B : Type} {W : B → Type}

/-- C++ types: some types `B` that are not shared pointers, and shared pointers. No particular code of /repo. -/
inductive Ty (B : Type) where
  | base (b : B)
  | ptr (t : Ty B)
deriving DecidableEq

/-- The values of a type. No particular code of /repo. -/
def Val (W : B → Type) : Ty B → Type
  | .base b => W b
  | .ptr t => Option (Val W t)

/-- Models `Stream` with elements of any type behind `headPtr`, /repo/proptest/Stream.hpp:95-96. -/
abbrev PStrm (W : B → Type) := Strm (Obj (Val W))

/-- What `headPtr` points to after the constructor with a head and a tail, null if nothing. Models the two constructors
/repo/proptest/Stream.hpp:17-27: the first, for `shared_ptr<T>`, is the more special one and is taken for heads that are shared
pointers. -/
def store : (t : Ty B) → Val W t → Option (Obj (Val W))
  | .base b, a => some ⟨.base b, a⟩
  | .ptr t, p =>
    match (p : Option (Val W t)) with
    | none => none
    | some a => some ⟨t, a⟩

/-- Models `Stream::one` with the constructor for a head alone, /repo/proptest/Stream.hpp:30-33 and 102-103. -/
def one (t : Ty B) (a : Val W t) : PStrm W := Stream'.Seq.cons ⟨t, a⟩ Strm.empty

/-- Models the constructor with a head and a tail, /repo/proptest/Stream.hpp:17-27: the stream is empty if the pointer is null,
/repo/proptest/Stream.cpp:23-33. -/
def cons (t : Ty B) (a : Val W t) (tail : PStrm W) : PStrm W :=
  match store t a with
  | none => Strm.empty
  | some o => Stream'.Seq.cons o tail

/-- Models `Stream::two`, /repo/proptest/Stream.hpp:105-109. -/
def two (t : Ty B) (a b : Val W t) : PStrm W := cons t a (one t b)

variable [DecidableEq B]

/-- One step of `Stream::transform<T, U>`, /repo/proptest/Stream.hpp:54-65: what `headPtr` of the result points to and the stream
whose transformation is the tail; nothing if the result is empty. -/
def transformStep {t u : Ty B} (f : Val W t → Val W u) (s : PStrm W) : Outcome (Option (Obj (Val W) × PStrm W)) :=
  match s.destruct with
  | none => .ok none
  | some (o, r) => do
    let a ← o.cast t
    pure ((store u (f a)).map fun p => (p, r))

/-- One step of `Stream::filter<T>`, /repo/proptest/Stream.hpp:74-89 (`fuel` bounds the number of iterations). -/
def filterStep {t : Ty B} (c : Val W t → Bool) : Nat → PStrm W → Outcome (Option (Obj (Val W) × PStrm W))
  | 0, _ => .diverges
  | fuel + 1, s =>
    match s.destruct with
    | none => .ok none
    | some (o, r) => do
      let a ← o.cast t
      if c a then pure ((store t a).map fun p => (p, r)) else filterStep c fuel r

/-- The step of a stream that is there. No particular code of /repo. -/
def plainStep (s : PStrm W) : Outcome (Option (Obj (Val W) × PStrm W)) := .ok s.destruct

/-- What a loop `for (auto itr = s.iterator<T>(); itr.hasNext();) itr.next()` reads in at most `n` rounds, given the steps of the
stream. Models `Iterator<T>`, /repo/proptest/Stream.hpp:113-131. -/
def read (t : Ty B) (step : PStrm W → Outcome (Option (Obj (Val W) × PStrm W))) : Nat → PStrm W → Outcome (List (Val W t))
  | 0, _ => .ok []
  | n + 1, s => do
    match ← step s with
    | none => pure []
    | some (o, r) =>
      let a ← o.cast t
      let rest ← read t step n r
      pure (a :: rest)

/-- A stream of elements of one type, each behind its own pointer. No particular code of /repo. -/
def stored (t : Ty B) (s : Strm (Val W t)) : PStrm W := Strm.transform (fun a => ⟨t, a⟩) s

end StreamPointers
end Verif
