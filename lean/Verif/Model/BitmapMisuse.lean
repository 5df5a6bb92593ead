import Verif.Model.Bitmap
/-
The slot allocator when slots are given back by threads that do not hold them, when it is copied and when it is reset:
/repo/proptest/util/bitmap.cpp.
-/
namespace Verif
namespace Bitmap

/-- What is worth noting in an execution. No particular code of /repo. -/
inductive Note where
  /-- thread `t` calls `unacquire(n)` without holding `n` -/
  | wrong (t n : Nat)
  /-- `take(n)` or `put(n)` throws in thread `t`, /repo/proptest/util/bitmap.cpp:71-72 and 78-79 -/
  | threw (t n : Nat)
deriving DecidableEq

/-- `step` of Model/Bitmap.lean, but any slot can be given back, and after an exception the thread goes on with its next
call. An index out of range is undefined (a negative one as well, which is not in the model). Models the accesses of
/repo/proptest/util/bitmap.cpp:23-43, 54-59, 68-81 and 90-104 one by one. -/
def stepAny (s : Sys) (t : Nat) (cmd : Cmd) : Outcome (List Note × Sys) :=
  match s.pc t, cmd with
  | .idle, .unacquire n =>
    if size ≤ n then .ub else .ok (if n ∈ s.held t then [] else [.wrong t n], s.goto t (.putCas n))
  | .takeLoad n, _ =>
    if s.bits n ≠ .changing then .ok ([.threw t n], s.goto t .idle) else .ok ([], s.goto t (.takeStore n))
  | .putLoad n, _ =>
    if s.bits n ≠ .changing then .ok ([.threw t n], s.goto t .idle) else .ok ([], s.goto t (.putStore n))
  | _, _ => do
    let s' ← step s t cmd
    pure ([], s')

/-- An execution, as `run` in Model/Bitmap.lean, with the notes in order. No particular code of /repo. -/
def runAny : List (Nat × Cmd) → Sys → Outcome (List Note × Sys)
  | [], s => .ok ([], s)
  | (t, cmd) :: rest, s => do
    let (a, s) ← stepAny s t cmd
    let (b, s) ← runAny rest s
    pure (a ++ b, s)

/-- Models the copy constructor, /repo/proptest/util/bitmap.cpp:16-21, from element `i` on: before each `load` the other
threads may make steps (`others i`). Yields the elements read and the original afterwards. -/
def copyFrom (others : Nat → List (Nat × Cmd)) : Nat → Nat → Sys → Outcome (List State × Sys)
  | 0, _, s => .ok ([], s)
  | todo + 1, i, s => do
    let s ← run (others i) s
    let (r, s') ← copyFrom others todo (i + 1) s
    pure (s.bits i :: r, s')

/-- Models the copy constructor, /repo/proptest/util/bitmap.cpp:16-21: the copy and the original afterwards. -/
def copy (others : Nat → List (Nat × Cmd)) (s : Sys) : Outcome (Bits × Sys) := do
  let (r, s') ← copyFrom others size 0 s
  pure (fun n => r.getD n .available, s')

/-- Models `reset`, /repo/proptest/util/bitmap.cpp:83-88, while no other thread is in a call. -/
def reset (s : Sys) : Sys := { s with bits := init }

end Bitmap
end Verif
