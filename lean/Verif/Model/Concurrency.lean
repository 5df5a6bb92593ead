import Mathlib.Data.List.FinRange
import Verif.Model.Stateful
/-
Concurrent testing: /repo/proptest/stateful/concurrency_function.hpp and /repo/proptest/stateful/concurrency_class.hpp.

Simplifications of this file: a step of a thread is one access to the shared counter, one access to the shared log, or
one whole user function; the counter does not overflow (it counts log entries and is an `int`); the two phases of the
start-up handshake (`thread_ready`, `sync_ready`) are left out here; see Model/Handshake.lean.
-/
namespace Verif
namespace Concurrency
open Engine Stateful
variable {O M : Type} {N : Nat}

/-- How the execution of the rear threads stands: it can go on, it ran into undefined behaviour, or the program was ended
by `std::terminate`, which happens when a thread function is left by an exception. No particular code of /repo. -/
inductive Res (α : Type) where
  | running (a : α)
  | ub
  | terminated
deriving DecidableEq

/-! ### Function style -/

/-- Where in the loop body of `RearRunner::operator()` a thread is,
/repo/proptest/stateful/concurrency_function.hpp:211-216. -/
inductive Pc where
  /-- `counter++` at line 212 -/
  | start
  /-- `log[i] = num` at line 212 -/
  | startStore (i : Nat)
  /-- `action(obj, model)` at line 213 -/
  | act
  /-- `counter++` at line 215 -/
  | stop
  /-- `log[i] = num` at line 215 -/
  | stopStore (i : Nat)
deriving DecidableEq

/-- A rear thread: the actions not finished yet, the position, and its own copy of the model
(/repo/proptest/stateful/concurrency_function.hpp:219-222; the member `model` is no reference). -/
structure Thr (O M : Type) where
  rest : List (Act O M)
  pc : Pc
  model : M

/-- What the rear threads share: the object, the counter and the log, and the threads themselves.
/repo/proptest/stateful/concurrency_function.hpp:243-248, 265-285. -/
structure Sys (N : Nat) (O M : Type) where
  obj : O
  counter : Nat
  log : List Int
  thr : Fin N → Thr O M

/-- Changes one thread. No particular code of /repo. -/
def Sys.setThr (s : Sys N O M) (t : Fin N) (x : Thr O M) : Sys N O M :=
  { s with thr := fun u => if u = t then x else s.thr u }

/-- One step of thread `t` in `RearRunner::operator()`, /repo/proptest/stateful/concurrency_function.hpp:211-216. An index
outside of the log is undefined. A finished thread stays as it is; so does a thread whose action runs forever. -/
def step (s : Sys N O M) (t : Fin N) : Res (Sys N O M) :=
  match s.thr t with
  | ⟨[], _, _⟩ => .running s
  | ⟨a :: as, .start, m⟩ => .running { s.setThr t ⟨a :: as, .startStore s.counter, m⟩ with counter := s.counter + 1 }
  | ⟨a :: as, .startStore i, m⟩ =>
    if i < s.log.length then .running { s.setThr t ⟨a :: as, .act, m⟩ with log := s.log.set i t } else .ub
  | ⟨a :: as, .act, m⟩ =>
    match (a s.obj m).out with
    | .ok (o, m') => .running { s.setThr t ⟨a :: as, .stop, m'⟩ with obj := o }
    | .throws _ => .terminated
    | .ub => .ub
    | .diverges => .running s
  | ⟨a :: as, .stop, m⟩ => .running { s.setThr t ⟨a :: as, .stopStore s.counter, m⟩ with counter := s.counter + 1 }
  | ⟨_ :: as, .stopStore i, m⟩ =>
    if i < s.log.length then .running { s.setThr t ⟨as, .start, m⟩ with log := s.log.set i t } else .ub

/-- An execution of the rear threads: the scheduler picks a thread for every step. No particular code of /repo. -/
def run : List (Fin N) → Sys N O M → Res (Sys N O M)
  | [], s => .running s
  | t :: sched, s =>
    match step s t with
    | .running s' => run sched s'
    | .ub => .ub
    | .terminated => .terminated

/-- Models `UNINITIALIZED_THREAD_ID`, /repo/proptest/stateful/concurrency_function.hpp:232. -/
def uninitialized : Int := -2
/-- Models `FRONT_THREAD_ID`, /repo/proptest/stateful/concurrency_function.hpp:233. -/
def frontId : Int := -1

/-- The state in which the rear threads start, /repo/proptest/stateful/concurrency_function.hpp:247-255 and 269-285: the log
has one entry for each front action and two for each rear action. -/
def rearInit (frontLength : Nat) (rears : Fin N → List (Act O M)) (obj : O) (model : M) : Sys N O M where
  obj := obj
  counter := frontLength
  log := List.replicate frontLength frontId ++
    ((List.finRange N).map fun t => List.replicate ((rears t).length * 2) uninitialized).flatten
  thr := fun t => ⟨rears t, .start, model⟩

/-- All threads have been joined, /repo/proptest/stateful/concurrency_function.hpp:293-295. -/
def Sys.Joined (s : Sys N O M) : Prop := ∀ t, (s.thr t).rest = []

/-- The condition can be computed. No particular code of /repo. -/
instance (s : Sys N O M) : Decidable s.Joined :=
  decidable_of_iff (∀ t, (s.thr t).rest.isEmpty = true) (by simp [Sys.Joined])

/-- What is printed for a log entry: the action number `k` of the front list, or of a rear list at its start or end.
/repo/proptest/stateful/concurrency_function.hpp:310, 316 and 320. -/
inductive Shown (N : Nat) where
  | front (k : Nat)
  | start (t : Fin N) (k : Nat)
  | stop (t : Fin N) (k : Nat)
deriving DecidableEq

/-- The variables of the replay: `frontItr`, `rearItrs` (as positions) and `rearStarted`,
/repo/proptest/stateful/concurrency_function.hpp:298-304. -/
structure Replay (N : Nat) where
  frontItr : Nat
  rearItrs : Fin N → Nat
  started : Fin N → Bool

/-- Models the loop of the replay, /repo/proptest/stateful/concurrency_function.hpp:306-324. Dereferencing an iterator past
the end, and an index that is no thread number, are undefined. -/
def replay (frontLength : Nat) (rearLength : Fin N → Nat) : List Int → Replay N → Outcome (List (Shown N))
  | [], _ => .ok []
  | id :: rest, r =>
    if id = frontId then
      if r.frontItr < frontLength then do
        let shown ← replay frontLength rearLength rest { r with frontItr := r.frontItr + 1 }
        pure (.front r.frontItr :: shown)
      else .ub
    else if h : 0 ≤ id ∧ id.toNat < N then
      let t : Fin N := ⟨id.toNat, h.2⟩
      if r.rearItrs t < rearLength t then
        if r.started t then do
          let shown ← replay frontLength rearLength rest
            { r with
              rearItrs := fun u => if u = t then r.rearItrs t + 1 else r.rearItrs u
              started := fun u => if u = t then false else r.started u }
          pure (.stop t (r.rearItrs t) :: shown)
        else do
          let shown ← replay frontLength rearLength rest
            { r with started := fun u => if u = t then true else r.started u }
          pure (.start t (r.rearItrs t) :: shown)
      else .ub
    else .ub

/-- Models the replay of the first `counter` entries, /repo/proptest/stateful/concurrency_function.hpp:297-324; reading the
log past its end is undefined. -/
def replayAll (frontLength : Nat) (rearLength : Fin N → Nat) (s : Sys N O M) : Outcome (List (Shown N)) :=
  if s.counter ≤ s.log.length then
    replay frontLength rearLength (s.log.take s.counter) ⟨0, fun _ => 0, fun _ => false⟩
  else .ub

/-- How a call of `invoke` stands for a given schedule. No particular code of /repo. -/
inductive Invoked (α : Type) where
  /-- `invoke` returned or threw; failed expectations of the front actions and the post check -/
  | done (e : Ev α)
  /-- the schedule ended before the rear threads did -/
  | unfinished
  | terminated
deriving DecidableEq

/-- The post check, if there is one. Models /repo/proptest/stateful/concurrency_function.hpp:259-260 and 331-332. -/
def postChecked (postCheck : Option (O → M → Ev (O × M))) (obj : O) (model : M) : Ev Unit :=
  match postCheck with
  | none => ⟨[], .ok ()⟩
  | some check => andThen (check obj model) fun _ => ⟨[], .ok ()⟩

/-- Models `Concurrency::invoke` after the generation of the object and the lists,
/repo/proptest/stateful/concurrency_function.hpp:243-334, for the given schedule of the rear threads. `N` is `numThreads`.
The replay (297-324) only prints; it is undefined if `replayAll` is. -/
def invoke (factory : O → Ev (O × M)) (postCheck : Option (O → M → Ev (O × M))) (obj : O)
    (front : List (Act O M)) (rears : Fin N → List (Act O M)) (sched : List (Fin N)) : Invoked Unit :=
  let fr := andThen (factory obj) (runActions front)
  match fr.out with
  | .throws e => .done ⟨fr.fails, .throws e⟩
  | .ub => .done ⟨fr.fails, .ub⟩
  | .diverges => .done ⟨fr.fails, .diverges⟩
  | .ok (obj, model) =>
    if N ≤ 1 then
      let p := postChecked postCheck obj model
      .done ⟨fr.fails ++ p.fails, p.out⟩
    else
      match run sched (rearInit front.length rears obj model) with
      | .ub => .done ⟨fr.fails, .ub⟩
      | .terminated => .terminated
      | .running s =>
        if s.Joined then
          match replayAll front.length (fun t => (rears t).length) s with
          | .ok _ =>
            let p := postChecked postCheck s.obj model
            .done ⟨fr.fails ++ p.fails, p.out⟩
          | _ => .done ⟨fr.fails, .ub⟩
        else .unfinished

/-! ### The loop of `go` -/

/-- Models the `do ... while (!pass)` loop, /repo/proptest/stateful/concurrency_function.hpp:149-165: `attempts k` is what
the `k`-th execution of startup hook, `invoke` and cleanup hook does. The loop ends with the number of the next attempt;
it runs on as long as attempts are discarded (`diverges` after `fuel` of them). The class style has the same loop,
/repo/proptest/stateful/concurrency_class.hpp:142-157. -/
def doWhile (attempts : Nat → Ev Unit) : Nat → Nat → Outcome Nat
  | 0, _ => .diverges
  | fuel + 1, k =>
    match (attempts k).out with
    | .ok _ => .ok (k + 1)
    | .throws e =>
      if e = .success then .ok (k + 1)
      else if e = .discard then doWhile attempts fuel (k + 1)
      else .throws e
    | .ub => .ub
    | .diverges => .diverges

/-- Models the `for` loop, /repo/proptest/stateful/concurrency_function.hpp:139-166 and 182-184; `timeUp k` tells whether the
time limit has passed before attempt `k`; `left` is `numRuns - i`. Class style:
/repo/proptest/stateful/concurrency_class.hpp:132-158, 174-176. -/
def forLoop (timeUp : Nat → Bool) (attempts : Nat → Ev Unit) (fuel : Nat) : Nat → Nat → Outcome Bool
  | 0, _ => .ok true
  | left + 1, k =>
    if timeUp k then .ok true
    else
      match doWhile attempts fuel k with
      | .ok k' => forLoop timeUp attempts fuel left k'
      | .throws e => .throws e
      | .ub => .ub
      | .diverges => .diverges

/-- Models `go`, /repo/proptest/stateful/concurrency_function.hpp:130-185 and
/repo/proptest/stateful/concurrency_class.hpp:122-177: a `std::exception` gives false (lines 167-180; `handleShrink` is
empty). The `PropertyContext` of line 135 collects the failed expectations and is not looked at again. -/
def go (timeUp : Nat → Bool) (attempts : Nat → Ev Unit) (fuel numRuns : Nat) : Outcome Bool :=
  match forLoop timeUp attempts fuel numRuns 0 with
  | .throws e => if e.isStd then .ok false else .throws e
  | r => r

/-- The conversion of a `uint32_t` to the `int` members `numRuns` and `numThreads`,
/repo/proptest/stateful/concurrency_function.hpp:98-108, 124-125 (modular, as in C++20 and in practice before). -/
def toInt32 (n : Nat) : Int := if n % 2^32 < 2^31 then (n % 2^32 : Nat) else (n % 2^32 : Nat) - 2^32

/-- Models `go` of the function style after `setNumRuns(runs)`,
/repo/proptest/stateful/concurrency_function.hpp:98-102 and 130-185: the loop condition `i < numRuns` is one of `int`s. -/
def goRuns (timeUp : Nat → Bool) (attempts : Nat → Ev Unit) (fuel runs : Nat) : Outcome Bool :=
  go timeUp attempts fuel (toInt32 runs).toNat

/-! ### Class style -/

/-- Where in the loop body of the class style `RearRunner::operator()` a thread is,
/repo/proptest/stateful/concurrency_class.hpp:204-210. -/
inductive ClassPc where
  /-- line 205 -/
  | pre
  /-- line 207 -/
  | run
  /-- `counter++` at line 209 -/
  | fetch
  /-- `log[i] = n` at line 209 -/
  | store (i : Nat)
deriving DecidableEq

/-- A rear thread of the class style. /repo/proptest/stateful/concurrency_class.hpp:213-220. -/
structure ClassThr (O M : Type) where
  rest : List (ClassAct O M)
  pc : ClassPc

/-- What the two rear threads share: the object, the model (a reference here), the counter and the log, and the threads.
/repo/proptest/stateful/concurrency_class.hpp:227-228, 244-252. -/
structure ClassSys (O M : Type) where
  obj : O
  model : M
  counter : Nat
  log : List Int
  thr : Fin 2 → ClassThr O M

/-- Models `log.resize(5000)`, /repo/proptest/stateful/concurrency_class.hpp:249. -/
def classLogSize : Nat := 5000

/-- Changes one thread. No particular code of /repo. -/
def ClassSys.setThr (s : ClassSys O M) (t : Fin 2) (x : ClassThr O M) : ClassSys O M :=
  { s with thr := fun u => if u = t then x else s.thr u }

/-- One step of thread `t` in the class style `RearRunner::operator()`,
/repo/proptest/stateful/concurrency_class.hpp:204-210. The two threads have the numbers 1 and 2 (lines 251-252).
`PROP_ASSERT` of `false` throws, so the program ends. -/
def classStep (s : ClassSys O M) (t : Fin 2) : Res (ClassSys O M) :=
  match s.thr t with
  | ⟨[], _⟩ => .running s
  | ⟨a :: as, .pre⟩ =>
    match (a.precondition s.obj s.model).out with
    | .ok true => .running (s.setThr t ⟨a :: as, .run⟩)
    | .ok false => .running (s.setThr t ⟨as, .pre⟩)
    | .throws _ => .terminated
    | .ub => .ub
    | .diverges => .running s
  | ⟨a :: as, .run⟩ =>
    match (a.run s.obj s.model).out with
    | .ok (true, o, m) => .running { s.setThr t ⟨a :: as, .fetch⟩ with obj := o, model := m }
    | .ok (false, _, _) => .terminated
    | .throws _ => .terminated
    | .ub => .ub
    | .diverges => .running s
  | ⟨a :: as, .fetch⟩ => .running { s.setThr t ⟨a :: as, .store s.counter⟩ with counter := s.counter + 1 }
  | ⟨_ :: as, .store i⟩ =>
    if i < s.log.length then .running { s.setThr t ⟨as, .pre⟩ with log := s.log.set i ((t : Nat) + 1) } else .ub

/-- An execution of the two rear threads. No particular code of /repo. -/
def classRun : List (Fin 2) → ClassSys O M → Res (ClassSys O M)
  | [], s => .running s
  | t :: sched, s =>
    match classStep s t with
    | .running s' => classRun sched s'
    | .ub => .ub
    | .terminated => .terminated

/-- The state in which the two rear threads start, /repo/proptest/stateful/concurrency_class.hpp:247-252. -/
def classInit (rears : Fin 2 → List (ClassAct O M)) (obj : O) (model : M) : ClassSys O M where
  obj := obj
  model := model
  counter := 0
  log := List.replicate classLogSize 0
  thr := fun t => ⟨rears t, .pre⟩

/-- All threads have been joined, /repo/proptest/stateful/concurrency_class.hpp:258-259. -/
def ClassSys.Joined (s : ClassSys O M) : Prop := ∀ t, (s.thr t).rest = []

/-- The condition can be computed. No particular code of /repo. -/
instance (s : ClassSys O M) : Decidable s.Joined :=
  decidable_of_iff (∀ t, (s.thr t).rest.isEmpty = true) (by simp [ClassSys.Joined])

/-- Models the class style `invoke` after the generation, /repo/proptest/stateful/concurrency_class.hpp:227-274, for the
given schedule. Reading the log past its end (262-264) is undefined. -/
def classInvoke (factory : O → Ev (O × M)) (postCheck : Option (O → M → Ev (O × M))) (obj : O)
    (front : List (ClassAct O M)) (rears : Fin 2 → List (ClassAct O M)) (sched : List (Fin 2)) : Invoked Unit :=
  let fr := andThen (factory obj) (runClassActions front)
  match fr.out with
  | .throws e => .done ⟨fr.fails, .throws e⟩
  | .ub => .done ⟨fr.fails, .ub⟩
  | .diverges => .done ⟨fr.fails, .diverges⟩
  | .ok (obj, model) =>
    match classRun sched (classInit rears obj model) with
    | .ub => .done ⟨fr.fails, .ub⟩
    | .terminated => .terminated
    | .running s =>
      if s.Joined then
        if s.counter ≤ s.log.length then
          let p := postChecked postCheck s.obj s.model
          .done ⟨fr.fails ++ p.fails, p.out⟩
        else .done ⟨fr.fails, .ub⟩
      else .unfinished

end Concurrency
end Verif
