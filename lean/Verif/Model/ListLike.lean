import Mathlib.Data.List.Forall2
import Verif.Model.BinSearch
import Verif.Model.Gen
/-
Lists: /repo/proptest/shrinker/listlike.hpp, listlike.cpp, /repo/proptest/generator/vector.hpp, list.hpp.

Simplifications of this file: container sizes are natural numbers (below 2^63, so that the 64-bit
arithmetic of `binarySearchShrinkable` on sizes is exact, see C16 and `tree_pos`).
-/
namespace Verif
namespace ListLike
open Shr BinSearch Random
variable {σ α δ : Type}

/-- Sizes between `lo` and `hi`, starting at `hi`, shrinking towards `lo`. Models
`binarySearchShrinkable(hi - lo).map(s -> s + lo)`, /repo/proptest/shrinker/listlike.cpp:137 and
/repo/proptest/shrinker/listlike.hpp:116. Only used with `lo ≤ hi`. -/
def sizeRange (lo hi : Nat) : Shr Nat := (bsNat (hi - lo)).map (· + lo)

/-- Models `VectorShrinker::shrinkFrontAndThenMid`, /repo/proptest/shrinker/listlike.cpp:132-161.
`fuel` is a recursion budget; `frontAndMid_eq` shows that with the budget used below the function
satisfies the recursion of the C++ code exactly. The call of `shrinkMid` (line 151) is left out: its
guard contradicts the guard around it, see `mid_unreachable`. -/
def frontAndMid (minSize : Nat) : Nat → Nat → List δ → Shr (List δ)
  | 0, rear, xs => range rear xs
  | fuel + 1, rear, xs =>
    (range rear xs).concat fun parent =>
      if parent.value.length ≤ minSize ∨ parent.value.length ≤ rear then []
      else (frontAndMid minSize fuel (rear + 1) parent.value).shrinks
where
  /-- Models `minFrontSize`, /repo/proptest/shrinker/listlike.cpp:134. -/
  minFront (rear : Nat) : Nat := if minSize ≥ rear then minSize - rear else 0
  /-- Models `rangeShrinkable.flatMap(...)`, /repo/proptest/shrinker/listlike.cpp:134-144: the first
  `frontSize` elements followed by the last `rear` elements. -/
  range (rear : Nat) (xs : List δ) : Shr (List δ) :=
    (sizeRange (minFront rear) (xs.length - rear)).flatMap
      (fun frontSize => leaf (xs.take frontSize ++ xs.drop (xs.length - rear)))

/-- Models `shrinkMembershipwise`, /repo/proptest/shrinker/listlike.cpp:165-167. A container with fewer
than `minSize` elements makes the size arithmetic wrap around and iterators run out of the container:
undefined behaviour. -/
def membershipwise (xs : List δ) (minSize : Nat) : Outcome (Shr (List δ)) :=
  if xs.length < minSize then .ub else .ok (frontAndMid minSize xs.length 0 xs)

/-- Models one pass of the loop of `shrinkBulk`'s `genStream`, /repo/proptest/shrinker/listlike.cpp:33-42:
each element is replaced by the head of its stream, or by the ancestor's element if the stream is
exhausted. -/
def bulkRound : List (Shr α) → List (List (Shr α)) → List (Shr α)
  | a :: anc, [] :: sts => a :: bulkRound anc sts
  | _ :: anc, (h :: _) :: sts => h :: bulkRound anc sts
  | _, _ => []

theorem sum_tail_le (sts : List (List δ)) :
    ((sts.map List.tail).map List.length).sum ≤ (sts.map List.length).sum := by
  induction sts with
  | nil => simp
  | cons a as ih => simp at ih ⊢; omega

theorem sum_tail_lt (sts : List (List δ)) (h : sts.all List.isEmpty = false) :
    ((sts.map List.tail).map List.length).sum < (sts.map List.length).sum := by
  induction sts with
  | nil => simp at h
  | cons a as ih =>
    have hle := sum_tail_le as
    cases a with
    | nil => have := ih (by simpa using h); simpa using this
    | cons x xs => simp only [List.map_cons, List.tail_cons, List.length_cons, List.sum_cons] at hle ⊢; omega

/-- Models `newElemStreams`, the tails of all streams, /repo/proptest/shrinker/listlike.cpp:20-21, 36, 39. -/
def bulkTails (sts : List (List (Shr α))) : List (List (Shr α)) := sts.map List.tail

/-- Models the stream built by `genStream` in `shrinkBulk`, /repo/proptest/shrinker/listlike.cpp:11-54,
for the whole range (`power` = 0, `offset` = 0, the only arguments in use). -/
def bulkRounds (anc : List (Shr α)) (sts : List (List (Shr α))) : List (List (Shr α)) :=
  if _h : sts.all List.isEmpty then [] else bulkRound anc sts :: bulkRounds anc (bulkTails sts)
termination_by (sts.map List.length).sum
decreasing_by exact sum_tail_lt sts (by simpa using _h)

theorem nodes_bulkRound (anc : List (Shr α)) (sts : List (List (Shr α)))
    (h : List.Forall₂ (fun a st => ∀ s ∈ st, s ∈ a.shrinks) anc sts) :
    nodes.go (bulkRound anc sts) ≤ nodes.go anc ∧
    (sts.all List.isEmpty = false → nodes.go (bulkRound anc sts) < nodes.go anc) := by
  induction h with
  | nil => simp [bulkRound]
  | @cons a st anc sts h1 _ ih =>
    cases st with
    | nil =>
      simp only [bulkRound, nodes.go, List.all_cons, List.isEmpty_nil, Bool.true_and]
      exact ⟨by omega, fun h => by have := ih.2 h; omega⟩
    | cons b st =>
      have hb : nodes b < nodes a := by
        have := nodes_lt_of_mem (h1 b (by simp))
        cases a; simp only [nodes, shrinks] at this ⊢; omega
      simp only [bulkRound, nodes.go]
      exact ⟨by omega, fun _ => by omega⟩

theorem forall₂_tails {anc : List (Shr α)} {sts : List (List (Shr α))}
    (h : List.Forall₂ (fun a st => ∀ s ∈ st, s ∈ a.shrinks) anc sts) :
    List.Forall₂ (fun a st => ∀ s ∈ st, s ∈ a.shrinks) anc (bulkTails sts) := by
  induction h with
  | nil => exact .nil
  | cons h1 _ ih => exact .cons (fun s hs => h1 s (List.mem_of_mem_tail hs)) ih

theorem nodes_bulkRounds (anc : List (Shr α)) (sts : List (List (Shr α)))
    (h : List.Forall₂ (fun a st => ∀ s ∈ st, s ∈ a.shrinks) anc sts) {v : List (Shr α)}
    (hv : v ∈ bulkRounds anc sts) : nodes.go v < nodes.go anc := by
  fun_induction bulkRounds anc sts with
  | case1 => simp at hv
  | case2 sts he ih =>
    rcases List.mem_cons.mp hv with rfl | hv
    · exact (nodes_bulkRound anc sts h).2 (by simpa using he)
    · exact ih (forall₂_tails h) hv

theorem forall₂_shrinks (anc : List (Shr α)) :
    List.Forall₂ (fun a st => ∀ s ∈ st, s ∈ a.shrinks) anc (anc.map Shr.shrinks) := by
  induction anc with
  | nil => exact .nil
  | cons a anc ih => exact .cons (fun s h => h) ih

/-- Models `VectorShrinker::shrinkBulk(ancestor, 0, 0)`, /repo/proptest/shrinker/listlike.cpp:7-87. -/
def bulk (anc : List (Shr α)) : List (Shr (List (Shr α))) :=
  (bulkRounds anc (anc.map Shr.shrinks)).attach.map fun ⟨v, _⟩ => node v (bulk v)
termination_by nodes.go anc
decreasing_by exact nodes_bulkRounds anc _ (forall₂_shrinks anc) ‹_›

/-- Models `VectorShrinker::shrinkElementwise(shrinkable, 0, 0)`,
/repo/proptest/shrinker/listlike.cpp:89-109 (`numSplits` is 1). -/
def elementwise (shrinkable : Shr (List (Shr α))) : List (Shr (List (Shr α))) :=
  if shrinkable.value.isEmpty then []
  else (shrinkable.concat fun shr => if shr.value.length < 1 then [] else bulk shr.value).shrinks

/-- Models `shrinkListLike`, /repo/proptest/shrinker/listlike.hpp:79-101. -/
def listLike (xs : List (Shr α)) (minSize : Nat) (elemwise : Bool) : Outcome (Shr (List α)) := do
  let t ← membershipwise xs minSize
  let t := if elemwise then t.andThen elementwise else t
  pure (t.flatMap fun v => leaf (v.map Shr.value))

/-- Models `shrinkListLikeLength`, /repo/proptest/shrinker/listlike.hpp:110-123. -/
def listLikeLength (xs : List δ) (minSize : Nat) : Outcome (Shr (List δ)) :=
  if xs.length < minSize then .ub
  else .ok ((sizeRange minSize xs.length).map fun newSize => xs.take newSize)

/-- Models the loop calling the element generator `size` times, /repo/proptest/generator/vector.hpp:51-52
and /repo/proptest/generator/list.hpp:49-50. -/
def drawMany (g : Gen σ α) : Nat → σ → Outcome (List (Shr α) × σ)
  | 0, s => .ok ([], s)
  | n + 1, s => do
    let (x, s) ← g s
    let (xs, s) ← drawMany g n s
    pure (x :: xs, s)

/-- Models `Arbi<vector<T>>::operator()`, /repo/proptest/generator/vector.hpp:46-56, and
`Arbi<list<T>>::operator()`, /repo/proptest/generator/list.hpp:44-53. -/
def arbiVector (R : Rng σ) (g : Gen σ α) (minSize maxSize : Nat) : Gen σ (List α) := fun s => do
  let (size, s) ← getRandomSize R minSize (maxSize + 1) s
  let (xs, s) ← drawMany g size.toNat s
  let t ← listLike xs minSize true
  pure (t, s)

end ListLike
end Verif
