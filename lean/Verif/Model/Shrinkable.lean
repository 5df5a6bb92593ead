import Verif.Model.Outcome
/-
Shrinkable trees: /repo/proptest/Shrinkable.hpp, /repo/proptest/Shrinkable.cpp.

Simplifications (all definitions of this file): type erasure (`Any`, `ShrinkableAny`) is dropped; the
lazily evaluated stream of shrinks is a finite list; function objects are pure functions.
-/
namespace Verif

/-- A value with its shrinks.
Models `ShrinkableAny` / `Shrinkable<T>`, /repo/proptest/Shrinkable.hpp:87-268 (members `ptr` and
`shrinksPtr`). Simplified: the lazy stream of shrinks is a finite list of subtrees. -/
inductive Shr (α : Type) where
  | node (value : α) (shrinks : List (Shr α)) : Shr α
deriving Repr

namespace Shr
variable {α β γ : Type}

/-- Models `Shrinkable<T>::get`/`getRef`, /repo/proptest/Shrinkable.hpp:186-189. -/
def value : Shr α → α
  | node v _ => v

/-- Models `ShrinkableAny::shrinks`, /repo/proptest/Shrinkable.cpp:320. -/
def shrinks : Shr α → List (Shr α)
  | node _ ss => ss

/-- Models `make_shrinkable` / `make_shrinkable_any`, /repo/proptest/Shrinkable.hpp:355-367. -/
def leaf (v : α) : Shr α := node v []

/-- Models `ShrinkableAny::with`, /repo/proptest/Shrinkable.cpp:49-57. -/
def withShrinks (t : Shr α) (ss : List (Shr α)) : Shr α := node t.value ss

mutual
/-- Models `ShrinkableAny::map`, /repo/proptest/Shrinkable.cpp:61-85. -/
def map (f : α → β) : Shr α → Shr β
  | node v ss => node (f v) (mapList f ss)
/-- The stream part of `ShrinkableAny::map`, /repo/proptest/Shrinkable.cpp:72-73. -/
def mapList (f : α → β) : List (Shr α) → List (Shr β)
  | [] => []
  | s :: ss => map f s :: mapList f ss
end

mutual
/-- Models `ShrinkableAny::flatMap`, /repo/proptest/Shrinkable.cpp:87-101: the value of
`transformer(value)` with the shrinks replaced by the transformed shrinks of `this`. -/
def flatMap (f : α → Shr β) : Shr α → Shr β
  | node v ss => (f v).withShrinks (flatMapList f ss)
/-- The stream part of `ShrinkableAny::flatMap`, /repo/proptest/Shrinkable.cpp:98-99. -/
def flatMapList (f : α → Shr β) : List (Shr α) → List (Shr β)
  | [] => []
  | s :: ss => flatMap f s :: flatMapList f ss
end

mutual
/-- Models `ShrinkableAny::mapShrinkable`, /repo/proptest/Shrinkable.cpp:103-118. -/
def mapShrinkable (f : Shr α → Shr β) : Shr α → Shr β
  | node v ss => (f (node v ss)).withShrinks (mapShrinkableList f ss)
/-- The stream part of `mapShrinkable`, /repo/proptest/Shrinkable.cpp:115-116. -/
def mapShrinkableList (f : Shr α → Shr β) : List (Shr α) → List (Shr β)
  | [] => []
  | s :: ss => mapShrinkable f s :: mapShrinkableList f ss
end

mutual
/-- Models the recursion of `ShrinkableAny::filter(criteria)`,
/repo/proptest/Shrinkable.cpp:134-142 (everything after the test of the root). -/
def filterKept (c : α → Bool) : Shr α → Shr α
  | node v ss => node v (filterKeptList c ss)
/-- Models `stream.filter(criteria).transform(shr -> shr.filter(criteria))`,
/repo/proptest/Shrinkable.cpp:138-141. The recursive call's own root test cannot fail because the
stream was filtered before. -/
def filterKeptList (c : α → Bool) : List (Shr α) → List (Shr α)
  | [] => []
  | s :: ss => if c s.value then filterKept c s :: filterKeptList c ss else filterKeptList c ss
end

/-- Models `ShrinkableAny::filter(criteria)`, /repo/proptest/Shrinkable.cpp:121-143. -/
def filter (c : α → Bool) (t : Shr α) : Outcome (Shr α) :=
  if c t.value then .ok (filterKept c t) else .throws .invalidArgument

/-- `Stream::take(int)` on a finite list; a negative count never hits the `n == 0` test.
Models /repo/proptest/Stream.cpp:45-56 (see also `Verif/Model/Stream.lean`). -/
def takeInt {δ : Type} : Int → List δ → List δ
  | _, [] => []
  | n, x :: xs => if n = 0 then [] else x :: takeInt (n - 1) xs

/-- Total number of nodes of a list of trees (termination measure only).
Not part of /repo. -/
def nodes : Shr α → Nat
  | node _ ss => 1 + go ss
where
  /-- Helper of `nodes`. Not part of /repo. -/
  go : List (Shr α) → Nat
    | [] => 0
    | s :: ss => nodes s + go ss

theorem nodes_go_append (a b : List (Shr α)) : nodes.go (a ++ b) = nodes.go a + nodes.go b := by
  induction a with
  | nil => simp [nodes.go]
  | cons x xs ih => simp [nodes.go, ih]; omega

theorem nodes_go_takeInt (n : Int) (ss : List (Shr α)) : nodes.go (takeInt n ss) ≤ nodes.go ss := by
  induction ss generalizing n with
  | nil => simp [takeInt]
  | cons x xs ih =>
    unfold takeInt
    split
    · simp [nodes.go]
    · have := ih (n - 1)
      simp [nodes.go]; omega

/-- Models the local function `filterStream`, /repo/proptest/Shrinkable.cpp:159-181 (and the
identical 200-222): a rejected head is replaced by its first `tol` shrinks. -/
def filterStream (c : α → Bool) (tol : Int) : List (Shr α) → List (Shr α)
  | [] => []
  | s :: ss =>
    if c s.value then s :: filterStream c tol ss
    else filterStream c tol (takeInt tol s.shrinks ++ ss)
termination_by l => nodes.go l
decreasing_by
  · cases s; simp [nodes.go, nodes]; omega
  · rename_i h
    cases s with
    | node v cs =>
      have := nodes_go_takeInt tol cs
      simp only [nodes.go, nodes, nodes_go_append, shrinks]
      omega

theorem nodes_go_filterStream (c : α → Bool) (tol : Int) (l : List (Shr α)) :
    nodes.go (filterStream c tol l) ≤ nodes.go l := by
  fun_induction filterStream c tol l with
  | case1 => simp
  | case2 s ss h ih => simp [nodes.go]; omega
  | case3 s ss h ih =>
    cases s with
    | node v cs =>
      have := nodes_go_takeInt tol cs
      simp only [nodes.go, nodes, nodes_go_append, shrinks] at *
      omega

theorem nodes_lt_of_mem {s : Shr α} {l : List (Shr α)} (h : s ∈ l) : nodes s ≤ nodes.go l := by
  induction l with
  | nil => simp at h
  | cons x xs ih =>
    simp only [List.mem_cons] at h
    rcases h with rfl | h
    · simp [nodes.go]
    · have := ih h; simp [nodes.go]; omega

/-- Models the recursion of `ShrinkableAny::filter(criteria, tolerance)`,
/repo/proptest/Shrinkable.cpp:183-190 and 224-231 (everything after the test of the root). -/
def filterTolKept (c : α → Bool) (tol : Int) (t : Shr α) : Shr α :=
  node t.value ((filterStream c tol t.shrinks).attach.map fun ⟨s, _⟩ => filterTolKept c tol s)
termination_by nodes t
decreasing_by
  rename_i h
  have h1 := nodes_lt_of_mem h
  have h2 := nodes_go_filterStream c tol t.shrinks
  cases t
  simp only [nodes, shrinks] at *
  omega

/-- Models `ShrinkableAny::filter(criteria, tolerance)`,
/repo/proptest/Shrinkable.cpp:146-191 and 193-232. -/
def filterTol (c : α → Bool) (tol : Int) (t : Shr α) : Outcome (Shr α) :=
  if c t.value then .ok (filterTolKept c tol t) else .throws .invalidArgument

mutual
/-- Models `ShrinkableAny::concat(then)`, /repo/proptest/Shrinkable.cpp:252-266. `then_` receives a
copy of the unmodified node. -/
def concat (then_ : Shr α → List (Shr α)) : Shr α → Shr α
  | node v ss => node v (concatList then_ ss ++ then_ (node v ss))
/-- The stream part of `concat`, /repo/proptest/Shrinkable.cpp:262-263. -/
def concatList (then_ : Shr α → List (Shr α)) : List (Shr α) → List (Shr α)
  | [] => []
  | s :: ss => concat then_ s :: concatList then_ ss
end

/-- Models `ShrinkableAny::concatStatic(then)`, /repo/proptest/Shrinkable.cpp:235-249. -/
def concatStatic (then_ : List (Shr α)) (t : Shr α) : Shr α := concat (fun _ => then_) t

mutual
/-- Models `ShrinkableAny::andThen(then)`, /repo/proptest/Shrinkable.cpp:289-307. -/
def andThen (then_ : Shr α → List (Shr α)) : Shr α → Shr α
  | node v ss => if ss.isEmpty then node v (then_ (node v ss)) else node v (andThenList then_ ss)
/-- The stream part of `andThen`, /repo/proptest/Shrinkable.cpp:303-304. -/
def andThenList (then_ : Shr α → List (Shr α)) : List (Shr α) → List (Shr α)
  | [] => []
  | s :: ss => andThen then_ s :: andThenList then_ ss
end

/-- Models `ShrinkableAny::andThenStatic(then)`, /repo/proptest/Shrinkable.cpp:269-287. -/
def andThenStatic (then_ : List (Shr α)) (t : Shr α) : Shr α := andThen (fun _ => then_) t

mutual
/-- Models `ShrinkableAny::take(n)`, /repo/proptest/Shrinkable.cpp:309-316. -/
def take (n : Int) : Shr α → Shr α
  | node v ss => node v (takeList n n ss)
/-- Models `shrinks.take(k).transform(shr -> shr.take(n))`, /repo/proptest/Shrinkable.cpp:313-314,
with `Stream::take` of /repo/proptest/Stream.cpp:45-56 fused in. -/
def takeList (n : Int) : Int → List (Shr α) → List (Shr α)
  | _, [] => []
  | k, s :: ss => if k = 0 then [] else take n s :: takeList n (k - 1) ss
end

/-- Tree induction. Not part of /repo. -/
theorem ind {P : Shr α → Prop} (h : ∀ v ss, (∀ s ∈ ss, P s) → P (node v ss)) : ∀ t, P t
  | node v ss => h v ss (go ss)
where
  go : ∀ ss : List (Shr α), ∀ s ∈ ss, P s
    | [], _, hs => by simp at hs
    | x :: xs, s, hs => by
      rcases List.mem_cons.mp hs with e | hs
      · exact e ▸ ind h x
      · exact go xs s hs

end Shr
end Verif
