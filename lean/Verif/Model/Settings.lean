import Verif.Model.ListLike
/-
Settings of container generators and what becomes of them when the generator is copied, wrapped or referred to:
/repo/proptest/Arbitrary.hpp, /repo/proptest/generator/vector.hpp, /repo/proptest/generator/map.hpp,
/repo/proptest/combinator/reference.hpp.
-/
namespace Verif
namespace Settings
variable {E : Type}

/-- A container generator: its members `minSize` and `maxSize`, /repo/proptest/Arbitrary.hpp:207-208, and the
generators of what is in it (`E`), /repo/proptest/generator/vector.hpp:60, /repo/proptest/generator/map.hpp:77-78. -/
structure Obj (E : Type) where
  minSize : Nat
  maxSize : Nat
  elem : E

/-- A call of a setter. Models `setMinSize`, `setMaxSize` and the two `setSize`,
/repo/proptest/Arbitrary.hpp:181-205, and `setElemGen` and `setKeyGen`, /repo/proptest/generator/vector.hpp:40-44,
/repo/proptest/generator/map.hpp:53-75, as `gens` with the change of the generators. -/
inductive Setter (E : Type) where
  | minSize (n : Nat)
  | maxSize (n : Nat)
  | size (n : Nat)
  | sizes (a b : Nat)
  | gens (f : E → E)

/-- What the call does to the object it is called on. Models the assignments in the setters,
/repo/proptest/Arbitrary.hpp:183, 189, 195-196, 202-203, /repo/proptest/generator/vector.hpp:42,
/repo/proptest/generator/map.hpp:55, 61, 67, 73. -/
def Setter.apply : Setter E → Obj E → Obj E
  | .minSize n, o => { o with minSize := n }
  | .maxSize n, o => { o with maxSize := n }
  | .size n, o => { o with minSize := n, maxSize := n }
  | .sizes a b, o => { o with minSize := a, maxSize := b }
  | .gens f, o => { o with elem := f o.elem }

/-- Whether the call gives a new object back and not a reference to the one it was called on. Models the return
types: `Arbi<T>&`, /repo/proptest/Arbitrary.hpp:181, 187, 193, 200, but `Arbi<Vector>`,
/repo/proptest/generator/vector.hpp:40, and `Arbi<Map>`, /repo/proptest/generator/map.hpp:53, 59, 65, 71. -/
def Setter.copies : Setter E → Bool
  | .gens _ => true
  | _ => false

/-- The objects that were created, in this order; `none` if destroyed. Models the objects behind `this`,
/repo/proptest/Arbitrary.hpp:184, 190, 197, 204, and `clone`, /repo/proptest/Arbitrary.hpp:170. -/
abbrev Heap (E : Type) := List (Option (Obj E))

/-- A call of a setter on object number `a`; gives the number of the object that the call gives back. Models
the setters with their return values, /repo/proptest/Arbitrary.hpp:181-205,
/repo/proptest/generator/vector.hpp:40-44, /repo/proptest/generator/map.hpp:53-75. -/
def call (ha : Heap E × Nat) (s : Setter E) : Heap E × Nat :=
  let h := ha.1.modify ha.2 (Option.map s.apply)
  if s.copies then (h ++ [(h[ha.2]?).join], h.length) else (h, ha.2)

/-- Calls of setters chained with dots, for instance `mapGen.setElemGen(stringIntGen).setMaxSize(3)`,
/repo/proptest/test/compile/example.cpp:65; each is called on what the one before gave back. Models
/repo/proptest/Arbitrary.hpp:181-205, /repo/proptest/generator/vector.hpp:40-44,
/repo/proptest/generator/map.hpp:53-75. -/
def chain (ha : Heap E × Nat) (ss : List (Setter E)) : Heap E × Nat := ss.foldl call ha

/-- A statement with variables for container generators (`x`, `y`) and for generators made from them (`g`).
`set x ss` is `x.s1(..).s2(..)...;`, `bind y x ss` is `auto y = x.s1(..)...;`, `derive g x ss` is
`auto g = x.s1(..)....map(f);` or another method that calls `clone`, /repo/proptest/Arbitrary.hpp:56-167, or a
conversion to `GenFunction`, as in the arguments of combinators, and `refer g x ss` is
`auto g = reference(x.s1(..)...);`, /repo/proptest/combinator/reference.hpp:25-29. -/
inductive Cmd (E : Type) where
  | new (x : Nat) (o : Obj E)
  | set (x : Nat) (ss : List (Setter E))
  | bind (y x : Nat) (ss : List (Setter E))
  | derive (g x : Nat) (ss : List (Setter E))
  | refer (g x : Nat) (ss : List (Setter E))

/-- The objects, and which of them a variable names or a generator calls: `thisPtr` of `ArbiFunctor`,
/repo/proptest/Arbitrary.hpp:34, and the captured reference, /repo/proptest/combinator/reference.hpp:28. -/
structure Store (E : Type) where
  heap : Heap E
  vars : Nat → Option Nat
  gens : Nat → Option Nat

/-- Nothing exists. The setting in which the first declaration is made, for instance
/repo/proptest/test/compile/example.cpp:60-65. -/
def Store.empty : Store E := ⟨[], fun _ => none, fun _ => none⟩

/-- End of a full expression: what was created from number `n` on were temporaries and is destroyed. This is a rule
of C++ for the values returned by /repo/proptest/generator/vector.hpp:40-44 and
/repo/proptest/generator/map.hpp:53-75. -/
def sweep (n : Nat) (h : Heap E) : Heap E := h.take n ++ List.replicate (h.length - n) none

/-- Execution of a statement; `none` if a variable is not declared. Models the constructors,
/repo/proptest/generator/vector.hpp:29-38, /repo/proptest/generator/map.hpp:29, `clone` and its callers,
/repo/proptest/Arbitrary.hpp:56-170, and `reference`, /repo/proptest/combinator/reference.hpp:25-29. -/
def exec (st : Store E) : Cmd E → Option (Store E)
  | .new x o => some { st with
      heap := st.heap ++ [some o], vars := fun z => if z = x then some st.heap.length else st.vars z }
  | .set x ss => do
    let a ← st.vars x
    some { st with heap := sweep st.heap.length (chain (st.heap, a) ss).1 }
  | .bind y x ss => do
    let a ← st.vars x
    let r := chain (st.heap, a) ss
    some { st with
      heap := sweep st.heap.length r.1 ++ [(r.1[r.2]?).join]
      vars := fun z => if z = y then some r.1.length else st.vars z }
  | .derive g x ss => do
    let a ← st.vars x
    let r := chain (st.heap, a) ss
    some { st with
      heap := sweep st.heap.length r.1 ++ [(r.1[r.2]?).join]
      gens := fun z => if z = g then some r.1.length else st.gens z }
  | .refer g x ss => do
    let a ← st.vars x
    let r := chain (st.heap, a) ss
    some { st with
      heap := sweep st.heap.length r.1
      gens := fun z => if z = g then some r.2 else st.gens z }

/-- Execution of statements one after the other, as `exec`; models a function body that uses
/repo/proptest/Arbitrary.hpp:181-205 and /repo/proptest/combinator/reference.hpp:25-29. -/
def execAll : Store E → List (Cmd E) → Option (Store E)
  | st, [] => some st
  | st, c :: cs => (exec st c).bind fun st => execAll st cs

/-- The settings with which `x(rand)` generates, /repo/proptest/generator/vector.hpp:46-56. -/
def Store.var (st : Store E) (x : Nat) : Option (Obj E) :=
  (st.vars x).bind fun a => (st.heap[a]?).join

/-- The settings with which the generator `g` calls what it was made from; `none` if that does not exist any more
(which is undefined behaviour). Models `ArbiFunctor::operator()`, /repo/proptest/Arbitrary.hpp:33, and the lambda in
`reference`, /repo/proptest/combinator/reference.hpp:28. -/
def Store.gen (st : Store E) (g : Nat) : Option (Obj E) :=
  (st.gens g).bind fun a => (st.heap[a]?).join

/-- The size that a setter gets when it is called with a number `n` of a signed type, as in
/repo/docs/Combinators.md:338 and 357. Models the parameters of type `size_t`, /repo/proptest/Arbitrary.hpp:181, 187, 193, 200. -/
def toSizeT (n : Int) : Nat := (IntType.u64.wrap n).toNat

/-- `x(rand)` for a vector generator with these settings, /repo/proptest/generator/vector.hpp:46-56. -/
def Obj.vector {σ α : Type} (R : Rng σ) (o : Obj (Gen σ α)) : Gen σ (List α) :=
  ListLike.arbiVector R o.elem o.minSize o.maxSize

end Settings
end Verif
