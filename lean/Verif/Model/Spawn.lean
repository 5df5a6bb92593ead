import Verif.Model.Handshake
import Verif.Model.ConcurrencyGo
/-
Threads that cannot be created, and the number of threads that is asked for:
/repo/proptest/stateful/concurrency_function.hpp and /repo/proptest/stateful/concurrency_class.hpp. `std::thread`'s
constructor throws `std::system_error` if the system has no thread left.
-/
namespace Verif
namespace Concurrency
open Engine Stateful
variable {N : Nat} {μ O M : Type}

/-- Where creating a thread fails: the one that runs the spawner, /repo/proptest/stateful/concurrency_function.hpp:264
and /repo/proptest/stateful/concurrency_class.hpp:243, or rear thread `i`,
/repo/proptest/stateful/concurrency_function.hpp:283-284 and /repo/proptest/stateful/concurrency_class.hpp:251-252. -/
structure Refusals where
  spawner : Bool
  rear : Nat → Bool

/-- `handStep` where creating a rear thread may fail: the exception leaves the function that the spawner thread runs
(there is no handler in it), so the program ends by `std::terminate`; it would end as well if there was a handler
outside, since the threads created before are destroyed while they can be joined. Models
/repo/proptest/stateful/concurrency_function.hpp:264-295 and /repo/proptest/stateful/concurrency_class.hpp:243-259. -/
def spawnStep (refused : Nat → Bool) (body : μ → Fin N → Res μ) (ended : μ → Fin N → Bool) (s : Hand N μ) :
    Option (Fin N) → Res (Hand N μ)
  | none =>
    match s.main with
    | .spawn i => if i < N ∧ refused i = true then .terminated else .running (mainStep s)
    | _ => .running (mainStep s)
  | some t => rearStep body ended s t

/-- An execution, as `handRun`. No particular code of /repo. -/
def spawnRun (refused : Nat → Bool) (body : μ → Fin N → Res μ) (ended : μ → Fin N → Bool) :
    List (Option (Fin N)) → Hand N μ → Res (Hand N μ)
  | [], s => .running s
  | a :: sched, s =>
    match spawnStep refused body ended s a with
    | .running s' => spawnRun refused body ended sched s'
    | .ub => .ub
    | .terminated => .terminated

/-- As `invoke` in Model/Concurrency.lean, with the creation of the threads, which may fail. Models
/repo/proptest/stateful/concurrency_function.hpp:243-334; the exception of line 264 leaves `invoke`. -/
def invokeSpawn (refused : Refusals) (factory : O → Ev (O × M)) (postCheck : Option (O → M → Ev (O × M))) (obj : O)
    (front : List (Act O M)) (rears : Fin N → List (Act O M)) (sched : List (Option (Fin N))) : Invoked Unit :=
  let fr := andThen (factory obj) (runActions front)
  match fr.out with
  | .throws e => .done ⟨fr.fails, .throws e⟩
  | .ub => .done ⟨fr.fails, .ub⟩
  | .diverges => .done ⟨fr.fails, .diverges⟩
  | .ok (obj, model) =>
    if N ≤ 1 then
      let p := postChecked postCheck obj model
      .done ⟨fr.fails ++ p.fails, p.out⟩
    else if refused.spawner then .done ⟨fr.fails, .throws .stdOther⟩
    else
      match spawnRun refused.rear step fnEnded sched (handInit N (rearInit front.length rears obj model)) with
      | .ub => .done ⟨fr.fails, .ub⟩
      | .terminated => .terminated
      | .running s =>
        if s.main = .after then
          match replayAll front.length (fun t => (rears t).length) s.mem with
          | .ok _ =>
            let p := postChecked postCheck s.mem.obj model
            .done ⟨fr.fails ++ p.fails, p.out⟩
          | _ => .done ⟨fr.fails, .ub⟩
        else .unfinished

/-- As `classInvoke` in Model/Concurrency.lean, with the creation of the threads. Models
/repo/proptest/stateful/concurrency_class.hpp:227-274; the exception of line 243 leaves `invoke`. -/
def classInvokeSpawn (refused : Refusals) (factory : O → Ev (O × M)) (postCheck : Option (O → M → Ev (O × M))) (obj : O)
    (front : List (ClassAct O M)) (rears : Fin 2 → List (ClassAct O M)) (sched : List (Option (Fin 2))) : Invoked Unit :=
  let fr := andThen (factory obj) (runClassActions front)
  match fr.out with
  | .throws e => .done ⟨fr.fails, .throws e⟩
  | .ub => .done ⟨fr.fails, .ub⟩
  | .diverges => .done ⟨fr.fails, .diverges⟩
  | .ok (obj, model) =>
    if refused.spawner then .done ⟨fr.fails, .throws .stdOther⟩
    else
      match spawnRun refused.rear classStep classEnded sched (handInit 2 (classInit rears obj model)) with
      | .ub => .done ⟨fr.fails, .ub⟩
      | .terminated => .terminated
      | .running s =>
        if s.main = .after then
          if s.mem.counter ≤ s.mem.log.length then
            let p := postChecked postCheck s.mem.obj s.mem.model
            .done ⟨fr.fails ++ p.fails, p.out⟩
          else .done ⟨fr.fails, .ub⟩
        else .unfinished

/-! ### The number of threads -/

/-- `setMaxConcurrency(n)` with its conversion of `uint32_t` to `int`, and how often the loops over `numThreads` run;
/repo/proptest/stateful/concurrency_function.hpp:104-108, 125, 239 and 281. -/
def rearThreads (n : Nat) : Nat := (toInt32 n).toNat

/-- The rest of `invoke` with `N` rear threads, from the generation of the lists on; the lists and what is done
with them. Models /repo/proptest/stateful/concurrency_function.hpp:236-334. -/
def drawAndInvoke {σ : Type} (N : Nat) (g : Draw σ (List (Act O M))) (factory : O → Ev (O × M))
    (postCheck : Option (O → M → Ev (O × M))) (obj : O) (sched : List (Fin N)) : Draw σ (Lists N O M × Invoked Unit) :=
  (drawLists g).bind fun ls s => (.ok (ls, invoke factory postCheck obj ls.front ls.rears sched), s)

end Concurrency
end Verif
