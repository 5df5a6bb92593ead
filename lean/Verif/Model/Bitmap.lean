import Verif.Model.Outcome
/-
The lock-free slot allocator: /repo/proptest/util/bitmap.hpp and /repo/proptest/util/bitmap.cpp.
-/
namespace Verif
namespace Bitmap

/-- Models `Bitmap::State`, /repo/proptest/util/bitmap.hpp:13-18. -/
inductive State where
  | available
  | changing
  | unavailable
deriving DecidableEq

/-- The array `states`, /repo/proptest/util/bitmap.hpp:39. -/
abbrev Bits := Nat → State

/-- Models `Bitmap::size`, /repo/proptest/util/bitmap.hpp:11. -/
def size : Nat := 10000

/-- Models the constructor, /repo/proptest/util/bitmap.cpp:9-14. -/
def init : Bits := fun _ => .available

/-- Stores one element of `states`. No particular code of /repo. -/
def Bits.set (b : Bits) (n : Nat) (s : State) : Bits := fun m => if m = n then s else b m

/-! ### One thread -/

/-- Models the loops of `occupyAvailable(0)`, /repo/proptest/util/bitmap.cpp:90-104, from index `i` on; `todo` elements
are left. The second loop (lines 98-102) is empty for `n = 0`. -/
def occupyFrom (b : Bits) (i : Nat) : Nat → Option Nat × Bits
  | 0 => (none, b)
  | todo + 1 => if b i = .available then (some i, b.set i .changing) else occupyFrom b (i + 1) todo

/-- Models `take`, /repo/proptest/util/bitmap.cpp:68-74. -/
def take (b : Bits) (n : Nat) : Outcome Unit × Bits :=
  if b n ≠ .changing then (.throws .runtimeError, b) else (.ok (), b.set n .unavailable)

/-- Models `put`, /repo/proptest/util/bitmap.cpp:76-81. -/
def put (b : Bits) (n : Nat) : Outcome Unit × Bits :=
  if b n ≠ .changing then (.throws .runtimeError, b) else (.ok (), b.set n .available)

/-- Models `tryAcquire`, /repo/proptest/util/bitmap.cpp:33-38; `none` is -1. -/
def tryAcquire (b : Bits) : Outcome (Option Nat) × Bits :=
  match occupyFrom b 0 size with
  | (none, b) => (.ok none, b)
  | (some n, b) =>
    match take b n with
    | (.ok _, b) => (.ok (some n), b)
    | (.throws e, b) => (.throws e, b)
    | (.ub, b) => (.ub, b)
    | (.diverges, b) => (.diverges, b)

/-- Models `acquire`, /repo/proptest/util/bitmap.cpp:23-31, used by one thread: if no slot is free it loops forever. -/
def acquire (b : Bits) : Outcome Nat × Bits :=
  match occupyFrom b 0 size with
  | (none, b) => (.diverges, b)
  | (some n, b) =>
    match take b n with
    | (.ok _, b) => (.ok n, b)
    | (.throws e, b) => (.throws e, b)
    | (.ub, b) => (.ub, b)
    | (.diverges, b) => (.diverges, b)

/-- Models `unacquire` with `setChangingFromAcquired`, /repo/proptest/util/bitmap.cpp:40-43 and 54-59. An index out of
range is undefined. -/
def unacquire (b : Bits) (n : Nat) : Outcome Unit × Bits :=
  if size ≤ n then (.ub, b)
  else put (if b n = .unavailable then b.set n .changing else b) n

/-! ### Many threads

Every access to an element of `states` is one step (the atomics are sequentially consistent). -/

/-- What a thread is about to do: the accesses of /repo/proptest/util/bitmap.cpp:23-43, 54-59, 68-81 and 90-104. -/
inductive Pc where
  /-- between calls -/
  | idle
  /-- compare_exchange of element `i` at line 94; `retry` tells whether this is `acquire` (line 27) -/
  | scan (retry : Bool) (i : Nat)
  /-- the load at line 71 -/
  | takeLoad (n : Nat)
  /-- the store at line 73 -/
  | takeStore (n : Nat)
  /-- the compare_exchange at line 58 -/
  | putCas (n : Nat)
  /-- the load at line 78 -/
  | putLoad (n : Nat)
  /-- the store at line 80 -/
  | putStore (n : Nat)
deriving DecidableEq

/-- The next call of a thread. No particular code of /repo. -/
inductive Cmd where
  | acquire
  | tryAcquire
  | unacquire (n : Nat)

/-- The shared array, and per thread the position and the slots it holds (the values returned to it that it did not
give back). Threads are numbered; there may be any number of them. No particular code of /repo. -/
structure Sys where
  bits : Bits
  pc : Nat → Pc
  held : Nat → List Nat

/-- No thread has done anything. No particular code of /repo. -/
def Sys.init : Sys := ⟨Bitmap.init, fun _ => .idle, fun _ => []⟩

/-- Moves thread `t`. No particular code of /repo. -/
def Sys.goto (s : Sys) (t : Nat) (p : Pc) : Sys := ⟨s.bits, fun u => if u = t then p else s.pc u, s.held⟩

/-- Stores an element. No particular code of /repo. -/
def Sys.store (s : Sys) (n : Nat) (v : State) : Sys := ⟨s.bits.set n v, s.pc, s.held⟩

/-- Changes what thread `t` holds. No particular code of /repo. -/
def Sys.hold (s : Sys) (t : Nat) (l : List Nat) : Sys := ⟨s.bits, s.pc, fun u => if u = t then l else s.held u⟩

/-- One step of thread `t`; if it is between calls, `cmd` is the call it makes next. A thread gives back only what it
holds: any other `unacquire` is not taken. Models the accesses of /repo/proptest/util/bitmap.cpp:23-43, 54-59, 68-81
and 90-104 one by one. -/
def step (s : Sys) (t : Nat) (cmd : Cmd) : Outcome Sys :=
  match s.pc t with
  | .idle =>
    match cmd with
    | .acquire => .ok (s.goto t (.scan true 0))
    | .tryAcquire => .ok (s.goto t (.scan false 0))
    | .unacquire n => if n ∈ s.held t then .ok (s.goto t (.putCas n)) else .ok s
  | .scan retry i =>
    if i < size then
      if s.bits i = .available then .ok ((s.store i .changing).goto t (.takeLoad i))
      else .ok (s.goto t (.scan retry (i + 1)))
    else if retry then .ok (s.goto t (.scan true 0))
    else .ok (s.goto t .idle)
  | .takeLoad n =>
    if s.bits n ≠ .changing then .throws .runtimeError else .ok (s.goto t (.takeStore n))
  | .takeStore n => .ok (((s.store n .unavailable).goto t .idle).hold t (n :: s.held t))
  | .putCas n =>
    if s.bits n = .unavailable then .ok (((s.store n .changing).goto t (.putLoad n)).hold t ((s.held t).erase n))
    else .ok (s.goto t (.putLoad n))
  | .putLoad n =>
    if s.bits n ≠ .changing then .throws .runtimeError else .ok (s.goto t (.putStore n))
  | .putStore n => .ok ((s.store n .available).goto t .idle)

/-- An execution: the scheduler picks a thread for every step. No particular code of /repo. -/
def run : List (Nat × Cmd) → Sys → Outcome Sys
  | [], s => .ok s
  | (t, cmd) :: rest, s =>
    match step s t cmd with
    | .ok s' => run rest s'
    | .throws e => .throws e
    | .ub => .ub
    | .diverges => .diverges

end Bitmap
end Verif
