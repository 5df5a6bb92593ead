import Verif.Model.Combinator
import Verif.Model.ListLike
import Verif.Model.Stream
/-
Type erasure: /repo/proptest/util/any.hpp, and `ShrinkableAny`, `Shrinkable<T>` and `Stream` as in
/repo/proptest/Shrinkable.hpp, /repo/proptest/Shrinkable.cpp and /repo/proptest/Stream.hpp, where the objects behind the
pointers are of any type and are read as if they were of the type that is asked for.

`T` is the set of C++ types (types that may be read as each other, such as `int` and `unsigned`, count as one), `V t` the values
of the type `t`. Simplifications of this file: shrinks are explored as a
whole, an `ub` at one position is reported for the tree; reading a `ShrinkableAny` as a `Shrinkable<T>` is defined (it is the
same object with another interface), only reading its value is not.
-/
namespace Verif
namespace Erasure
open Shr
variable {σ T α β : Type} {V : T → Type}

/-- An object with its actual type. Models what `shared_ptr<void>` in `Any` points to, /repo/proptest/util/any.hpp:8-24. -/
structure Obj (V : T → Type) where
  ty : T
  val : V ty

/-- Models `Any::cast<T>()`, /repo/proptest/util/any.hpp:19-22: a static cast, without a check. -/
def Obj.cast [DecidableEq T] (o : Obj V) (t : T) : Outcome (V t) := if h : o.ty = t then .ok (h ▸ o.val) else .ub

/-- Models `ShrinkableAny`, /repo/proptest/Shrinkable.hpp:87-168, and `Shrinkable<T>` for all `T`, lines 171-268, which has no
members of its own. -/
abbrev AnyShr (V : T → Type) := Shr (Obj V)

/-- Models `Shrinkable<T>::get()`, `getRef()`, /repo/proptest/Shrinkable.hpp:186-189. -/
def getAs [DecidableEq T] (t : T) (s : AnyShr V) : Outcome (V t) := s.value.cast t

/-- All of a list of outcomes. No particular code of /repo. -/
def all : List (Outcome α) → Outcome (List α)
  | [] => .ok []
  | x :: xs => do
    let a ← x
    let as ← all xs
    pure (a :: as)

mutual
/-- Models `ShrinkableAny::map`, /repo/proptest/Shrinkable.cpp:61-85. -/
def mapE (f : α → Outcome β) : Shr α → Outcome (Shr β)
  | node v ss => do
    let w ← f v
    let ts ← mapListE f ss
    pure (node w ts)
/-- The stream part of `ShrinkableAny::map`, /repo/proptest/Shrinkable.cpp:72-73. -/
def mapListE (f : α → Outcome β) : List (Shr α) → Outcome (List (Shr β))
  | [] => .ok []
  | s :: ss => do
    let t ← mapE f s
    let ts ← mapListE f ss
    pure (t :: ts)
end

mutual
/-- Models `ShrinkableAny::flatMap`, /repo/proptest/Shrinkable.cpp:87-101. -/
def flatMapE (f : α → Outcome (Shr β)) : Shr α → Outcome (Shr β)
  | node v ss => do
    let t ← f v
    let ts ← flatMapListE f ss
    pure (t.withShrinks ts)
/-- The stream part of `ShrinkableAny::flatMap`, /repo/proptest/Shrinkable.cpp:98-99. -/
def flatMapListE (f : α → Outcome (Shr β)) : List (Shr α) → Outcome (List (Shr β))
  | [] => .ok []
  | s :: ss => do
    let t ← flatMapE f s
    let ts ← flatMapListE f ss
    pure (t :: ts)
end

mutual
/-- Models `ShrinkableAny::mapShrinkable`, /repo/proptest/Shrinkable.cpp:103-118. -/
def mapShrinkableE (f : Shr α → Outcome (Shr β)) : Shr α → Outcome (Shr β)
  | node v ss => do
    let t ← f (node v ss)
    let ts ← mapShrinkableListE f ss
    pure (t.withShrinks ts)
/-- The stream part of `mapShrinkable`, /repo/proptest/Shrinkable.cpp:115-116. -/
def mapShrinkableListE (f : Shr α → Outcome (Shr β)) : List (Shr α) → Outcome (List (Shr β))
  | [] => .ok []
  | s :: ss => do
    let t ← mapShrinkableE f s
    let ts ← mapShrinkableListE f ss
    pure (t :: ts)
end

mutual
/-- Models the recursion of `ShrinkableAny::filter(criteria)`, /repo/proptest/Shrinkable.cpp:134-142. -/
def filterKeptE (c : α → Outcome Bool) : Shr α → Outcome (Shr α)
  | node v ss => do
    let ts ← filterKeptListE c ss
    pure (node v ts)
/-- Models `stream.filter(criteria).transform(shr -> shr.filter(criteria))`, /repo/proptest/Shrinkable.cpp:138-141. -/
def filterKeptListE (c : α → Outcome Bool) : List (Shr α) → Outcome (List (Shr α))
  | [] => .ok []
  | s :: ss => do
    let b ← c s.value
    if b then do
      let t ← filterKeptE c s
      let ts ← filterKeptListE c ss
      pure (t :: ts)
    else filterKeptListE c ss
end

/-- Models `ShrinkableAny::filter(criteria)`, /repo/proptest/Shrinkable.cpp:121-143. -/
def filterShrE (c : α → Outcome Bool) (t : Shr α) : Outcome (Shr α) := do
  let b ← c t.value
  if b then filterKeptE c t else .throws .invalidArgument

mutual
/-- Models `ShrinkableAny::concat(then)`, /repo/proptest/Shrinkable.cpp:252-266. -/
def concatE (k : Shr α → Outcome (List (Shr α))) : Shr α → Outcome (Shr α)
  | node v ss => do
    let ts ← concatListE k ss
    let us ← k (node v ss)
    pure (node v (ts ++ us))
/-- The stream part of `concat`, /repo/proptest/Shrinkable.cpp:262-263. -/
def concatListE (k : Shr α → Outcome (List (Shr α))) : List (Shr α) → Outcome (List (Shr α))
  | [] => .ok []
  | s :: ss => do
    let t ← concatE k s
    let ts ← concatListE k ss
    pure (t :: ts)
end

mutual
/-- Models `ShrinkableAny::andThen(then)`, /repo/proptest/Shrinkable.cpp:289-307. -/
def andThenE (k : Shr α → Outcome (List (Shr α))) : Shr α → Outcome (Shr α)
  | node v ss =>
    if ss.isEmpty then do
      let us ← k (node v ss)
      pure (node v us)
    else do
      let ts ← andThenListE k ss
      pure (node v ts)
/-- The stream part of `andThen`, /repo/proptest/Shrinkable.cpp:303-304. -/
def andThenListE (k : Shr α → Outcome (List (Shr α))) : List (Shr α) → Outcome (List (Shr α))
  | [] => .ok []
  | s :: ss => do
    let t ← andThenE k s
    let ts ← andThenListE k ss
    pure (t :: ts)
end

/-- Models the local function `filterStream`, /repo/proptest/Shrinkable.cpp:159-181 and 200-222. -/
def filterStreamE (c : α → Outcome Bool) (tol : Int) : List (Shr α) → Outcome (List (Shr α))
  | [] => .ok []
  | s :: ss =>
    match c s.value with
    | .ok true => do
      let r ← filterStreamE c tol ss
      pure (s :: r)
    | .ok false => filterStreamE c tol (takeInt tol s.shrinks ++ ss)
    | .throws e => .throws e
    | .ub => .ub
    | .diverges => .diverges
termination_by l => nodes.go l
decreasing_by
  · cases s; simp only [nodes.go, nodes]; omega
  · cases s with
    | node v cs =>
      have := nodes_go_takeInt tol cs
      simp only [nodes.go, nodes, nodes_go_append, shrinks]
      omega

theorem nodes_filterStreamE (c : α → Outcome Bool) (tol : Int) (l r : List (Shr α)) (h : filterStreamE c tol l = .ok r) :
    nodes.go r ≤ nodes.go l := by
  fun_induction filterStreamE c tol l generalizing r with
  | case1 => cases h; exact Nat.le_refl _
  | case2 s ss hc ih =>
    cases hr : filterStreamE c tol ss with
    | ok q =>
      rw [hr] at h
      cases h
      have := ih q hr
      simp only [nodes.go]; omega
    | _ => rw [hr] at h; cases h
  | case3 s ss hc ih =>
    have := ih r h
    cases s with
    | node v cs =>
      have := nodes_go_takeInt tol cs
      simp only [nodes.go, nodes, nodes_go_append, shrinks] at *
      omega
  | _ => cases h

/-- Models the recursion of `ShrinkableAny::filter(criteria, tolerance)`, /repo/proptest/Shrinkable.cpp:183-190 and
224-231. -/
def filterTolKeptE (c : α → Outcome Bool) (tol : Int) (t : Shr α) : Outcome (Shr α) :=
  match _h : filterStreamE c tol t.shrinks with
  | .ok l => do
    let ts ← all (l.attach.map fun ⟨s, _⟩ => filterTolKeptE c tol s)
    pure (node t.value ts)
  | .throws e => .throws e
  | .ub => .ub
  | .diverges => .diverges
termination_by nodes t
decreasing_by
  rename_i hs
  have h1 := nodes_lt_of_mem hs
  have h2 := nodes_filterStreamE c tol _ _ _h
  cases t
  simp only [nodes, shrinks] at *
  omega

/-- Models `ShrinkableAny::filter(criteria, tolerance)`, /repo/proptest/Shrinkable.cpp:146-191 and 193-232. -/
def filterTolE (c : α → Outcome Bool) (tol : Int) (t : Shr α) : Outcome (Shr α) := do
  let b ← c t.value
  if b then filterTolKeptE c tol t else .throws .invalidArgument

section typed
variable [DecidableEq T]

/-- A function on values as one on objects. Models `AnyFunctionFunc`, /repo/proptest/Shrinkable.hpp:272-280, and
`TransformFunctor1`, /repo/proptest/combinator/transform.hpp:22-31. -/
def anyFunction {t u : T} (f : V t → V u) (a : Obj V) : Outcome (Obj V) := do
  let x ← a.cast t
  pure ⟨u, f x⟩

/-- Models `ShrinkableAnyFunctionFunc`, /repo/proptest/Shrinkable.hpp:282-290. -/
def shrinkableAnyFunction {t : T} (f : V t → AnyShr V) (a : Obj V) : Outcome (AnyShr V) := do
  let x ← a.cast t
  pure (f x)

/-- Models `BoolFunctionFunc`, /repo/proptest/Shrinkable.hpp:302-310, and `FilterCastFunctor`,
/repo/proptest/combinator/filter.hpp:20-30. -/
def boolFunction {t : T} (c : V t → Bool) (a : Obj V) : Outcome Bool := do
  let x ← a.cast t
  pure (c x)

/-- The shrinkable as a function that takes a `Shrinkable<T>` sees it, if it looks at everything. Models
`ShrinkableAny::as<T>()`, /repo/proptest/Shrinkable.hpp:350-353, with `get()`. -/
def readAs (t : T) (s : AnyShr V) : Outcome (Shr (V t)) := mapE (fun o => o.cast t) s

/-- A shrinkable with values of one type. No particular code of /repo. -/
def erase (t : T) (s : Shr (V t)) : AnyShr V := s.map fun x => ⟨t, x⟩

/-- Models `ShrinkableAnyFunction1Func`, /repo/proptest/Shrinkable.hpp:292-300. -/
def shrinkableFunction {t : T} (f : Shr (V t) → AnyShr V) (s : AnyShr V) : Outcome (AnyShr V) := do
  let x ← readAs t s
  pure (f x)

/-- Models `StreamFunctionFunc`, /repo/proptest/Shrinkable.hpp:312-320, for a function that returns a stream of
`Shrinkable<T>`. -/
def streamFunction {t : T} (k : Shr (V t) → List (Shr (V t))) (s : AnyShr V) : Outcome (List (AnyShr V)) := do
  let x ← readAs t s
  pure ((k x).map (erase t))

/-- Models `shrinkListLike`, /repo/proptest/shrinker/listlike.hpp:79-101: the elements are `ShrinkableAny` and are read as
elements of the type of the container in the end. -/
def listLikeE (t : T) (xs : List (AnyShr V)) (minSize : Nat) (elemwise : Bool) : Outcome (Shr (List (V t))) := do
  let r ← ListLike.membershipwise xs minSize
  let r := if elemwise then r.andThen ListLike.elementwise else r
  flatMapE (fun v => do
    let as ← all (v.map (getAs t))
    pure (leaf as)) r

/-- A generator as it is stored: the conversion of `Generator<U>` to `GenFunction<T>`, /repo/proptest/GenBase.hpp:34-35, by the
constructor `Shrinkable(const ShrinkableAny&)`, /repo/proptest/Shrinkable.hpp:176, which is not explicit and is there for all
pairs of types, does nothing. -/
def eraseGen (t : T) (g : Gen σ (V t)) : Gen σ (Obj V) := fun s => do
  let (x, s) ← g s
  pure (erase t x, s)

/-- Models `Arbi<vector<T>>::operator()`, /repo/proptest/generator/vector.hpp:46-56, with an element generator as it is
stored. -/
def arbiVectorE (R : Rng σ) (t : T) (g : Gen σ (Obj V)) (minSize maxSize : Nat) : Gen σ (List (V t)) := fun s => do
  let (size, s) ← Random.getRandomSize R minSize (maxSize + 1) s
  let (xs, s) ← ListLike.drawMany g size.toNat s
  let r ← listLikeE t xs minSize true
  pure (r, s)

/-- Models `transform<T, U>(gen, transformer)`, /repo/proptest/combinator/transform.hpp:33-63. -/
def transformE {t u : T} (g : Gen σ (Obj V)) (f : V t → V u) : Gen σ (Obj V) := fun s => do
  let (x, s) ← g s
  let y ← mapE (anyFunction f) x
  pure (y, s)

/-- Models `filter<T>(gen, criteria)`, /repo/proptest/combinator/filter.hpp:32-76 (`fuel` bounds the number of draws). -/
def filterE {t : T} (g : Gen σ (Obj V)) (c : V t → Bool) : Nat → Gen σ (Obj V)
  | 0, _ => .diverges
  | fuel + 1, s => do
    let (x, s) ← g s
    let b ← boolFunction c x.value
    if b then do
      let r ← filterTolE (boolFunction c) 1 x
      pure (r, s)
    else filterE g c fuel s

/-- The argument a property function with a parameter of type `t` gets. Models `util::invokeWithGenTuple`,
/repo/proptest/util/invokeWithGenTuple.hpp:10-24, for one parameter. -/
def argument (t : T) (g : Gen σ (Obj V)) (s : σ) : Outcome (V t × σ) := do
  let (x, s) ← g s
  let v ← getAs t x
  pure (v, s)

end typed
end Erasure
end Verif
