import Verif.Model.Concurrency
/-
Creation, start and end of the rear threads of a concurrent test:
/repo/proptest/stateful/concurrency_function.hpp and /repo/proptest/stateful/concurrency_class.hpp.

What the threads do between start and end is a parameter here: `body` is one step of a thread, `ended` tells whether a
thread is at the end of its list. For the function style these are `step` and `fnEnded`, for the class style `classStep`
and `classEnded`. Simplified: the creation of a thread does not fail.
-/
namespace Verif
namespace Concurrency
variable {N : Nat} {μ : Type}

/-- Where the spawner thread is, /repo/proptest/stateful/concurrency_function.hpp:281-295 and
/repo/proptest/stateful/concurrency_class.hpp:251-259. -/
inductive MainPc where
  /-- about to create thread `i` -/
  | spawn (i : Nat)
  /-- in `while (!*thread_ready[i]) {}` -/
  | wait (i : Nat)
  /-- about to do `sync_ready = true` -/
  | release
  /-- in `rearRunners[i].join()` -/
  | join (i : Nat)
  /-- all threads have been joined -/
  | after
deriving DecidableEq

/-- Where a rear thread is, /repo/proptest/stateful/concurrency_function.hpp:208-217 and
/repo/proptest/stateful/concurrency_class.hpp:201-211. -/
inductive RearPc where
  /-- not created yet -/
  | unborn
  /-- about to do `thread_ready = true` -/
  | hello
  /-- in `while (!sync_ready) {}` -/
  | spin
  /-- in the loop over the actions -/
  | body
  /-- returned -/
  | exited
deriving DecidableEq

/-- The spawner, the flags, the threads and what the threads work on. The flags are those declared at
/repo/proptest/stateful/concurrency_function.hpp:265-266 and /repo/proptest/stateful/concurrency_class.hpp:244-246. -/
structure Hand (N : Nat) (μ : Type) where
  main : MainPc
  sync : Bool
  ready : Fin N → Bool
  pc : Fin N → RearPc
  mem : μ

/-- The state in which the spawner starts to create threads, /repo/proptest/stateful/concurrency_function.hpp:265-279 and
/repo/proptest/stateful/concurrency_class.hpp:244-249. -/
def handInit (N : Nat) (mem : μ) : Hand N μ := ⟨.spawn 0, false, fun _ => false, fun _ => .unborn, mem⟩

/-- One step of the spawner (one iteration of a spinning loop counts as a step). Models
/repo/proptest/stateful/concurrency_function.hpp:281-295 and /repo/proptest/stateful/concurrency_class.hpp:251-259. -/
def mainStep (s : Hand N μ) : Hand N μ :=
  match s.main with
  | .spawn i =>
    if h : i < N then
      { s with main := .spawn (i + 1), pc := fun u => if u = ⟨i, h⟩ then .hello else s.pc u }
    else { s with main := .wait 0 }
  | .wait i =>
    if h : i < N then (if s.ready ⟨i, h⟩ then { s with main := .wait (i + 1) } else s)
    else { s with main := .release }
  | .release => { s with main := .join 0, sync := true }
  | .join i =>
    if h : i < N then (if s.pc ⟨i, h⟩ = .exited then { s with main := .join (i + 1) } else s)
    else { s with main := .after }
  | .after => s

/-- One step of rear thread `t`. Models `RearRunner::operator()`, /repo/proptest/stateful/concurrency_function.hpp:206-217
and /repo/proptest/stateful/concurrency_class.hpp:199-211. -/
def rearStep (body : μ → Fin N → Res μ) (ended : μ → Fin N → Bool) (s : Hand N μ) (t : Fin N) : Res (Hand N μ) :=
  match s.pc t with
  | .unborn => .running s
  | .hello =>
    .running { s with
      ready := fun u => if u = t then true else s.ready u
      pc := fun u => if u = t then .spin else s.pc u }
  | .spin => .running (if s.sync then { s with pc := fun u => if u = t then .body else s.pc u } else s)
  | .body =>
    if ended s.mem t then .running { s with pc := fun u => if u = t then .exited else s.pc u }
    else
      match body s.mem t with
      | .running m => .running { s with mem := m }
      | .ub => .ub
      | .terminated => .terminated
  | .exited => .running s

/-- One step of the spawner (`none`) or of a rear thread. No particular code of /repo. -/
def handStep (body : μ → Fin N → Res μ) (ended : μ → Fin N → Bool) (s : Hand N μ) : Option (Fin N) → Res (Hand N μ)
  | none => .running (mainStep s)
  | some t => rearStep body ended s t

/-- An execution: the scheduler picks the spawner or a thread for every step. No particular code of /repo. -/
def handRun (body : μ → Fin N → Res μ) (ended : μ → Fin N → Bool) :
    List (Option (Fin N)) → Hand N μ → Res (Hand N μ)
  | [], s => .running s
  | a :: sched, s =>
    match handStep body ended s a with
    | .running s' => handRun body ended sched s'
    | .ub => .ub
    | .terminated => .terminated

/-- Thread `t` is at the end of its list; function style,
/repo/proptest/stateful/concurrency_function.hpp:211. -/
def fnEnded {O M : Type} (s : Sys N O M) (t : Fin N) : Bool := (s.thr t).rest.isEmpty

/-- Thread `t` is at the end of its list; class style, /repo/proptest/stateful/concurrency_class.hpp:204. -/
def classEnded {O M : Type} (s : ClassSys O M) (t : Fin 2) : Bool := (s.thr t).rest.isEmpty

end Concurrency
end Verif
