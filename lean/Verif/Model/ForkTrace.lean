import Mathlib.Data.Finset.Basic
import Verif.Model.Fork
/-
What calls in a forked process leave behind in the process that makes them: descriptors, children and text.
/repo/proptest/util/fork.hpp and /repo/proptest/util/fork.cpp, as Model/Fork.lean, but with `pipe()`, `fork()` and `waitpid()`
that may fail.
-/
namespace Verif
namespace Fork

/-- What the system keeps for the calling process, and the text that has reached its standard output. No particular code
of /repo. -/
structure World where
  /-- open descriptors -/
  fds : Finset Nat
  /-- children that have not been waited for -/
  children : Finset Nat
  /-- text printed, but still in the buffer of the process -/
  buffer : List Char
  /-- text written -/
  out : List Char

/-- What the system does in a call. No particular code of /repo. -/
structure Sys where
  /-- the descriptors made by `pipe()`, `none` if it fails -/
  pipeFds : Option (Nat × Nat)
  /-- the child made by `fork()`, `none` if it fails -/
  pid : Option Nat
  /-- `waitpid` is interrupted by a signal handler: it returns -1 at once and leaves `state` as it is -/
  interrupted : Bool
  /-- the text the called function prints to `cout` (without flushing it) -/
  printed : List Char
  /-- the line about the end of the child, /repo/proptest/util/fork.hpp:123-125 -/
  status : List Char

/-- The descriptors are new ones. No particular code of /repo. -/
def Sys.Fresh (y : Sys) (w : World) : Prop :=
  (∀ p ∈ y.pipeFds, p.1 ≠ p.2 ∧ p.1 ∉ w.fds ∧ p.2 ∉ w.fds) ∧ ∀ i ∈ y.pid, i ∉ w.children

/-- What a call comes to. No particular code of /repo. -/
inductive Came where
  /-- threw "could not initialize pipe" -/
  | noPipe
  /-- threw "unable to fork" -/
  | noFork
  | done (r : Result)
deriving DecidableEq

/-- The call has come back. No particular code of /repo. -/
def Came.Back : Came → Prop
  | .done .hangs => False
  | .done .ub => False
  | _ => True

/-- Models `Pipe::Pipe()`, /repo/proptest/util/fork.cpp:6-12, `none` if it throws. -/
def openPipe (y : Sys) (w : World) : Option ((Nat × Nat) × World) :=
  match y.pipeFds with
  | none => none
  | some p => some (p, { w with fds := insert p.1 (insert p.2 w.fds) })

/-- Models `Pipe::~Pipe()` and `Pipe::close()`, /repo/proptest/util/fork.cpp:14-17 and 29-37. -/
def closePipe (p : Nat × Nat) (w : World) : World := { w with fds := (w.fds.erase p.1).erase p.2 }

/-- Models `Fork::Fork()`, /repo/proptest/util/fork.cpp:39-44, `none` if it throws. -/
def startChild (y : Sys) (w : World) : Option (Nat × World) :=
  match y.pid with
  | none => none
  | some i => some (i, { w with children := insert i w.children })

/-- All bytes the child writes, /repo/proptest/util/fork.hpp:102-117, if somebody reads them. -/
def stream : Child → Pipe
  | .returns bytes => 1 :: (encode 8 bytes.length ++ bytes)
  | .throwsStd msg => 0 :: (encode 8 msg.length ++ msg)
  | _ => []

/-- The text the child writes when it ends: `exit()`, called by `exitNormal` and `exitAbnormal`,
/repo/proptest/util/fork.cpp:46-58, writes the buffer, which is a copy of the one of the caller with what the function
has printed; a signal does not. -/
def flushed (f : Child) (y : Sys) (w : World) : List Char :=
  match f with
  | .returns _ => w.buffer ++ y.printed
  | .throwsStd _ => w.buffer ++ y.printed
  | .exits _ => w.buffer ++ y.printed
  | _ => []

/-- Models the parent's part of `safeCall`, /repo/proptest/util/fork.hpp:119-136. If `waitpid` is interrupted `state` is 0,
which means that the child has exited normally, and what the child writes is read as it comes. Simplified: the text of
the child then comes after that of the parent, and each `read` gets all bytes of the `write` it is made for. -/
def parent (cap sizeofRet : Nat) (y : Sys) (f : Child) (pid : Nat) (w : World) : Result × World :=
  if y.interrupted then
    (readResult sizeofRet (stream f),
      { w with out := w.out ++ w.buffer ++ y.status ++ flushed f y w, buffer := [] })
  else
    match child cap f with
    | .exited p => (readResult sizeofRet p, ended)
    | .signalled sig => (.threwSignal sig, ended)
    | .blocked => (.hangs, w)
    | .escaped => (.hangs, w)
where
  /-- after `waitpid` and the line about it, which ends with `endl` -/
  ended : World :=
    { w with children := w.children.erase pid, out := w.out ++ flushed f y w ++ w.buffer ++ y.status, buffer := [] }

/-- Models `safeCall`, /repo/proptest/util/fork.hpp:93-138, in the calling process: the pipe is closed when the scope is left,
by a return or an exception. -/
def traced (cap sizeofRet : Nat) (y : Sys) (f : Child) (w : World) : Came × World :=
  match openPipe y w with
  | none => (.noPipe, w)
  | some (p, w) =>
    match startChild y w with
    | none => (.noFork, closePipe p w)
    | some (i, w) =>
      let r := parent cap sizeofRet y f i w
      if Came.done r.1 = .done .hangs ∨ Came.done r.1 = .done .ub then (.done r.1, r.2) else (.done r.1, closePipe p r.2)

/-- Calls one after the other, until one does not come back. No particular code of /repo. -/
def tracedAll (cap sizeofRet : Nat) : List (Sys × Child) → World → World
  | [], w => w
  | c :: cs, w => tracedAll cap sizeofRet cs (traced cap sizeofRet c.1 c.2 w).2

end Fork
end Verif
