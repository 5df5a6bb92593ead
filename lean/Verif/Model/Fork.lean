import Verif.Model.Outcome
/-
Calls in a forked process: /repo/proptest/util/fork.hpp and /repo/proptest/util/fork.cpp.

Simplifications of this file: `pipe()` and `fork()` succeed; a `write` is done as a whole or blocks as a whole; `size_t` has
8 bytes and is little endian, `bool` has one byte; the returned type is copied as a sequence of bytes.
-/
namespace Verif
namespace Fork

/-- A byte. -/
abbrev Byte := Fin 256

/-- The bytes in the pipe. Models the pipe behind `fd`, /repo/proptest/util/fork.hpp:74-75. -/
abbrev Pipe := List Byte

/-- Models `Pipe::write`, /repo/proptest/util/fork.cpp:24-27, in the child: nobody reads while the parent is in `waitpid`, so
a write that does not fit blocks for good (`none`). `cap` is the capacity of the pipe. -/
def write (cap : Nat) (p : Pipe) (bytes : List Byte) : Option Pipe :=
  if p.length + bytes.length ≤ cap then some (p ++ bytes) else none

/-- Models `Pipe::read`, /repo/proptest/util/fork.cpp:19-22, in the parent after the child has ended: reads at most `n`
bytes; if the pipe is empty the call blocks for good, because the write end is still open in the parent (`fd[1]` is
closed in `close()` only). Reading 0 bytes returns at once. -/
def read (p : Pipe) (n : Nat) : Option (List Byte × Pipe) :=
  if n = 0 then some ([], p) else if p = [] then none else some (p.take n, p.drop n)

/-- The 8 bytes of a `size_t`, least significant first. No particular code of /repo. -/
def encode : Nat → Nat → List Byte
  | 0, _ => []
  | k + 1, n => ⟨n % 256, Nat.mod_lt _ (by decide)⟩ :: encode k (n / 256)

/-- The number with the given bytes, least significant first. No particular code of /repo. -/
def decode : List Byte → Nat
  | [] => 0
  | b :: bs => b + 256 * decode bs

/-- Models `PipeResult`, /repo/proptest/util/fork.hpp:14-35: success flag and data (`ret` or `msg`); `size` is the length of
the data. -/
structure PipeResult where
  success : Bool
  data : List Byte
deriving DecidableEq

/-- Models `Pipe::write(PipeResult&)`, /repo/proptest/util/fork.hpp:59-70. -/
def writeResult (cap : Nat) (p : Pipe) (r : PipeResult) : Option Pipe := do
  let p ← write cap p [if r.success then 1 else 0]
  let p ← write cap p (encode 8 r.data.length)
  write cap p r.data

/-- What a call can come to. No particular code of /repo. -/
inductive Result where
  /-- returned the value with these bytes -/
  | returned (bytes : List Byte)
  /-- threw `runtime_error` with a text ending in this message -/
  | threw (msg : List Byte)
  /-- threw `runtime_error` for a child ended by a signal -/
  | threwSignal (sig : Nat)
  /-- blocked for good -/
  | hangs
  | ub
deriving DecidableEq

/-- Models the size of `char buf[100]`, /repo/proptest/util/fork.hpp:52. -/
def bufSize : Nat := 100

/-- Models `Pipe::read(PipeResult&)` and what `safeCall` makes of it, /repo/proptest/util/fork.hpp:44-58 and 130-135. `sizeofRet`
is `sizeof(RET)`. Reading more than 100 bytes into `buf`, or making a string of more than 100 bytes of it, is
undefined; so is a result that has not been filled by the `read`. -/
def readResult (sizeofRet : Nat) (p : Pipe) : Result :=
  match read p 1 with
  | none => .hangs
  | some (s, p) =>
    match read p 8 with
    | none => .hangs
    | some (sz, p) =>
      let size := decode sz
      if s = [1] then
        match read p sizeofRet with
        | none => .hangs
        | some (ret, _) => if ret.length = sizeofRet then .returned ret else .ub
      else if size ≤ bufSize then
        match read p size with
        | none => .hangs
        | some (msg, _) => if msg.length = size then .threw msg else .ub
      else .ub

/-- What the function given to `safeCall` does in the child. No particular code of /repo. -/
inductive Child where
  /-- returns a value with these bytes -/
  | returns (bytes : List Byte)
  /-- throws a `std::exception` with this message -/
  | throwsStd (msg : List Byte)
  /-- throws something else -/
  | throwsOther
  /-- ends the process, as `exit` does -/
  | exits (code : Nat)
  /-- is ended by a signal, as by `abort` or a segmentation fault -/
  | signalled (sig : Nat)
  /-- runs forever -/
  | runsForever
deriving DecidableEq

/-- How the child process ends, as seen by `waitpid`; what it has written to the pipe; and whether the exception that
left `safeCall` goes on in the caller, in the child process. No particular code of /repo. -/
inductive Ended where
  | exited (p : Pipe)
  | signalled (sig : Nat)
  | blocked
  /-- the child has left `safeCall` by an exception and executes the code of the caller -/
  | escaped
deriving DecidableEq

/-- Models the child's part of `safeCall`, /repo/proptest/util/fork.hpp:102-117 (`exitNormal` and `exitAbnormal`,
/repo/proptest/util/fork.cpp:46-58, end the process). -/
def child (cap : Nat) : Child → Ended
  | .returns bytes =>
    match writeResult cap [] ⟨true, bytes⟩ with
    | some p => .exited p
    | none => .blocked
  | .throwsStd msg =>
    match writeResult cap [] ⟨false, msg⟩ with
    | some p => .exited p
    | none => .blocked
  | .throwsOther => .escaped
  | .exits _ => .exited []
  | .signalled sig => .signalled sig
  | .runsForever => .blocked

/-- Models the parent's part of `safeCall`, /repo/proptest/util/fork.hpp:119-136: `waitpid` returns when the child has ended. A
child that has left `safeCall` is treated as one that has not ended. -/
def safeCall (cap sizeofRet : Nat) (f : Child) : Result :=
  match child cap f with
  | .exited p => readResult sizeofRet p
  | .signalled sig => .threwSignal sig
  | .blocked => .hangs
  | .escaped => .hangs

end Fork
end Verif
