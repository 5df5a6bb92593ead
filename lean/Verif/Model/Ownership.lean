import Verif.Model.Outcome
/-
Who deletes the action objects of class-style stateful and concurrent tests: /repo/proptest/stateful/stateful_class.hpp:20-36.
Objects are numbered in the order they are allocated in; two pointers are equal iff they point to the same object.
-/
namespace Verif
namespace Ownership

/-- What happens to the action objects. `wrap p`: an action generator given to `actionListGenOf` produces the raw pointer `p`,
for an action or for a shrink of one, and the function at /repo/proptest/stateful/stateful_class.hpp:24-27 makes a
`shared_ptr` of it, with a new control block. `share k`: a `shared_ptr` with control block `k` is copied, as
lists of actions are copied (/repo/proptest/Shrinkable.hpp:186) and as a generator of `shared_ptr`s hands them out
(lines 31-36 of stateful_class.hpp). `call k`: `precondition` or `run` is called through one (lines 124-126 and 145-147).
`drop k`: one of them is destroyed. -/
inductive Op where
  | wrap (p : Nat)
  | share (k : Nat)
  | call (k : Nat)
  | drop (k : Nat)
deriving DecidableEq

/-- Control blocks, each with its object and the number of `shared_ptr`s that own it, and the objects that have been deleted,
latest first, /repo/proptest/stateful/stateful_class.hpp:24-27. -/
structure State where
  blocks : List (Nat × Nat) := []
  deleted : List Nat := []
deriving DecidableEq

/-- One operation, /repo/proptest/stateful/stateful_class.hpp:20-36. What `std::shared_ptr` does is part of the trusted base:
the last owner of a control block deletes the object, whatever other control blocks there are for it. To
delete an object a second time or to call a member function of a deleted object is undefined behaviour. There is no
`shared_ptr` to copy, call or destroy if a control block has no owners: the operation does nothing. -/
def step (s : State) : Op → Outcome State
  | .wrap p => .ok { s with blocks := s.blocks ++ [(p, 1)] }
  | .share k =>
    match s.blocks[k]? with
    | some (p, n + 1) => .ok { s with blocks := s.blocks.set k (p, n + 2) }
    | _ => .ok s
  | .call k =>
    match s.blocks[k]? with
    | some (p, _ + 1) => if p ∈ s.deleted then .ub else .ok s
    | _ => .ok s
  | .drop k =>
    match s.blocks[k]? with
    | some (p, 1) => if p ∈ s.deleted then .ub else .ok ⟨s.blocks.set k (p, 0), p :: s.deleted⟩
    | some (p, n + 2) => .ok { s with blocks := s.blocks.set k (p, n + 1) }
    | _ => .ok s

/-- A sequence of operations, /repo/proptest/stateful/stateful_class.hpp:20-36. -/
def steps (s : State) : List Op → Outcome State
  | [] => .ok s
  | o :: os => (step s o).bind fun s' => steps s' os

/-- The life of a list of actions in one run: generated (/repo/proptest/stateful/stateful_class.hpp:109-115), copied for the call
(/repo/proptest/util/invokeWithGenTuple.hpp:10-14), each action's `precondition` and `run` called in turn
(/repo/proptest/stateful/stateful_class.hpp:124-127), both lists destroyed. `ps`: what the generators of raw
pointers produced. Simplified: preconditions hold. -/
def oneRun (ps : List Nat) : List Op :=
  ps.map .wrap ++ (List.range ps.length).map .share ++ (List.range ps.length).flatMap (fun k => [.call k, .call k])
    ++ (List.range ps.length).map .drop ++ (List.range ps.length).map .drop

end Ownership
end Verif
