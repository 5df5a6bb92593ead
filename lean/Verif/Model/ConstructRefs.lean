import Verif.Model.Combinator
import Verif.Model.PropertyMake
/-
Constructors called by `construct<CLASS, ARGTYPES...>` whose parameters are values or references, as in
`construct<Animal, int, string, vector<int>&>()`: /repo/proptest/combinator/construct.hpp:20-44, 67, 113-136, 160-180. Which
object a parameter refers to, who else refers to it, and how long it lives. Simplified: the arguments have one type `V`, which
stands for the union of their types. Pointers are not modelled: for a pointer type the overloads at lines 19-24 and
26-31 are both viable and the call does not compile.
-/
namespace Verif
namespace ConstructRefs
variable {σ V O : Type} {n : Nat}

/-- Where the arguments come from. `fresh g`: the generator makes an object with each call, as all arbitraries do
(`make_shrinkable`, /repo/proptest/Shrinkable.hpp). `same k`: the generator is `just(value)` for a type that is not trivial, which
puts the one object it holds, here number `k`, into all its shrinkables, /repo/proptest/combinator/just.hpp:31-37; likewise
the overloads for `shared_ptr`, lines 45-62. -/
inductive Source (σ V : Type) where
  | fresh (g : Gen σ V)
  | same (k : Nat)

/-- An argument: its generator, and whether the type given for it is a reference, /repo/proptest/combinator/construct.hpp:58. -/
structure Param (σ V : Type) where
  src : Source σ V
  ref : Bool

/-- What the generator produces if the objects held by `just` generators contain `m`,
/repo/proptest/combinator/just.hpp:31-37. -/
def Source.gen (m : Nat → V) : Source σ V → Gen σ V
  | .fresh g => g
  | .same k => Comb.just (m k)

/-- What a parameter refers to: an object that belongs to this call, or the one that is held by a `just` generator. -/
inductive Loc (n : Nat) where
  | arg (i : Fin n)
  | const (k : Nat)
deriving DecidableEq

/-- Models `autoCast`, /repo/proptest/combinator/construct.hpp:19-38: for a reference `getRef()`, the object in the shrinkable
itself; otherwise `get()`, a copy of it (/repo/proptest/Shrinkable.hpp:186-188). The objects in the shrinkables of generators
that make new ones, and the copies, belong to this call. -/
def Param.loc (p : Param σ V) (i : Fin n) : Loc n :=
  match p.src, p.ref with
  | .same k, true => .const k
  | _, _ => .arg i

/-- What a constructor may do with its arguments: look at them, change them, throw, and finish with an object that contains
`own` and keeps references to some of the arguments. Called by `make_shrinkable<CLASS>`,
/repo/proptest/combinator/construct.hpp:121-125. -/
inductive Body (V O : Type) (n : Nat) where
  | ret (own : O) (kept : List (Fin n))
  | throw (e : Exn)
  | read (i : Fin n) (k : V → Body V O n)
  | write (i : Fin n) (v : V) (k : Body V O n)

/-- An object made by `construct`: what it contains, and the references it has kept,
/repo/proptest/combinator/construct.hpp:121-125. -/
structure Obj (O : Type) (n : Nat) where
  own : O
  kept : List (Loc n)

/-- The objects in memory while a constructor runs: those of the call, and those held by `just` generators,
/repo/proptest/combinator/construct.hpp:121-125. -/
structure Mem (V : Type) (n : Nat) where
  args : Fin n → V
  consts : Nat → V

/-- Contents of an object during the call, /repo/proptest/combinator/construct.hpp:121-125. -/
def Mem.get (m : Mem V n) : Loc n → V
  | .arg i => m.args i
  | .const k => m.consts k

/-- Memory after an assignment to an object, /repo/proptest/combinator/construct.hpp:121-125. -/
def Mem.set (m : Mem V n) (l : Loc n) (v : V) : Mem V n :=
  match l with
  | .arg i => { m with args := Function.update m.args i v }
  | .const k => { m with consts := Function.update m.consts k v }

/-- Runs a constructor, /repo/proptest/combinator/construct.hpp:121-125, whose parameters refer to the objects `loc`. -/
def Body.exec (loc : Fin n → Loc n) : Body V O n → Mem V n → Outcome (Obj O n) × Mem V n
  | .ret own kept, m => (.ok ⟨own, kept.map loc⟩, m)
  | .throw e, m => (.throws e, m)
  | .read i k, m => (k (m.get (loc i))).exec loc m
  | .write i v k, m => k.exec loc (m.set (loc i) v)

/-- Models `Construct::operator()`, /repo/proptest/combinator/construct.hpp:67, 113-136: the arguments are generated, in the
order `order`, which C++ leaves open, and the constructor is called. `consts` are the contents of the objects that `just`
generators hold; those left behind are returned. The tuple with the arguments is destroyed at the end of line 67. -/
def call (ps : Fin n → Param σ V) (b : Body V O n) (order : List (Fin n)) (consts : Nat → V) (s : σ) :
    Outcome (Obj O n × σ) × (Nat → V) :=
  match Gen.drawTuple (fun i => (ps i).src.gen consts) order s with
  | .ok (ts, s') =>
    let r := b.exec (fun i => (ps i).loc i) ⟨fun i => (ts i).value, consts⟩
    (r.1.bind fun o => .ok (o, s'), r.2.consts)
  | .throws e => (.throws e, consts)
  | .ub => (.ub, consts)
  | .diverges => (.diverges, consts)

/-- The generator is called once for each of the given states of the random engine, one after the other, as in the runs of
a test, /repo/proptest/Property.hpp:176-239. What the calls produce, and the contents of the objects `just` generators hold. -/
def calls (ps : Fin n → Param σ V) (b : Body V O n) (order : List (Fin n)) (consts : Nat → V) :
    List σ → List (Outcome (Obj O n × σ)) × (Nat → V)
  | [] => ([], consts)
  | s :: ss =>
    let r := call ps b order consts s
    let rs := calls ps b order r.2 ss
    (r.1 :: rs.1, rs.2)

/-- Reading through references after the call. The objects of the call are gone: undefined behaviour.
/repo/proptest/combinator/construct.hpp:67. -/
def readAll (consts : Nat → V) : List (Loc n) → Outcome (List V)
  | [] => .ok []
  | .arg _ :: _ => .ub
  | .const k :: ls => (readAll consts ls).bind fun vs => .ok (consts k :: vs)

/-- Using an object made by `construct` after the call: what it contains, and what the references it keeps refer to,
/repo/proptest/combinator/construct.hpp:67. -/
def Obj.use (o : Obj O n) (consts : Nat → V) : Outcome (O × List V) :=
  (readAll consts o.kept).bind fun vs => .ok (o.own, vs)

/-- Models `construct<CLASS, ARGTYPES...>(gens...)`, /repo/proptest/combinator/construct.hpp:160-180: the generators of a
constructor with `n` parameters, where `arb i` is `Arbi` of the type of parameter number `i`. `none`: does not compile, as
`ImplicitSize` wraps around. -/
def constructGens {G : Type} (n : Nat) (arb : Nat → G) (gens : List G) : Option (List G) :=
  if gens.length = 0 then some (Make.createGenHelperListed arb (List.range n))
  else if gens.length ≤ n then
    some (gens ++ Make.createGenHelperListed arb (Make.addOffset gens.length (List.range (n - gens.length))))
  else none

end ConstructRefs
end Verif
