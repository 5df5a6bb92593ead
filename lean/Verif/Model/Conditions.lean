import Verif.Model.Throwing
/-
`filter` with conditions that throw or change their argument, which they get by reference:
/repo/proptest/combinator/filter.hpp and /repo/proptest/Shrinkable.cpp.
-/
namespace Verif
namespace Throwing
variable {σ α β : Type}

/-- A condition: its result, and the argument as it leaves it. Models a `criteria` of type `bool(T&)`,
/repo/proptest/combinator/filter.hpp:20-30: `cast` gives a reference to the value stored in the shrinkable
(/repo/proptest/util/any.hpp:17-20). -/
abbrev Cond (α : Type) := α → Outcome (Bool × α)

/-- The first shrink of a shrinkable and how the evaluation of `shr.shrinks().take(1)` ends after it. Models
`Stream::take(1)`, /repo/proptest/Stream.cpp:47-58: the stream is evaluated one element further than needed. -/
def firstShrink (t : Lazy α) : List (Lazy α) × Outcome Unit :=
  match t.shrinks with
  | [] => ([], t.value.2)
  | [x] => ([x], t.value.2)
  | x :: _ => ([x], .ok ())

theorem nodes_firstShrink (t : Lazy α) : 1 + Shr.nodes.go (firstShrink t).1 ≤ Shr.nodes t := by
  rcases t with ⟨v, _ | ⟨x, _ | ⟨y, r⟩⟩⟩ <;> simp [firstShrink, Shr.nodes, Shr.nodes.go, Shr.shrinks] <;> omega

/-- Models the local function `filterStream`, /repo/proptest/Shrinkable.cpp:159-181 (and the identical 200-222), with tolerance
1, for a stream with the given elements that ends with `done`: `itr.next()` evaluates the stream one element further
before the condition is called for the element; a rejected element is replaced by its first shrink. Simplified: the
shrinks of a value are those of the value as it was made (see C114 for strings, whose shrinks are
made from the stored value). -/
def filterStreamE (c : Cond α) (done : Outcome Unit) : List (Lazy α) → List (Lazy α) × Outcome Unit
  | [] => ([], done)
  | s :: ss =>
    match ahead done ss with
    | .ok () =>
      match c s.value.1 with
      | .ok (true, v) => (.node (v, s.value.2) s.shrinks :: (filterStreamE c done ss).1, (filterStreamE c done ss).2)
      | .ok (false, _) =>
        match (firstShrink s).2 with
        | .ok () => filterStreamE c done ((firstShrink s).1 ++ ss)
        | e => filterStreamE c e (firstShrink s).1
      | .throws e => ([], .throws e)
      | .ub => ([], .ub)
      | .diverges => ([], .diverges)
    | e => ([], e)
termination_by l => Shr.nodes.go l
decreasing_by
  · cases s; simp [Shr.nodes.go, Shr.nodes]; omega
  · have := nodes_firstShrink s; simp only [Shr.nodes.go, Shr.nodes_go_append]; omega
  · have := nodes_firstShrink s; simp only [Shr.nodes.go]; omega

theorem nodes_filterStreamE (c : Cond α) (done : Outcome Unit) (l : List (Lazy α)) :
    Shr.nodes.go (filterStreamE c done l).1 ≤ Shr.nodes.go l := by
  fun_induction filterStreamE c done l with
  | case1 => simp
  | case2 done s ss h v hc ih => cases s; simp only [Shr.nodes.go, Shr.nodes, Shr.shrinks] at *; omega
  | case3 done s ss h v hc h2 ih =>
    have := nodes_firstShrink s; simp only [Shr.nodes.go, Shr.nodes_go_append] at *; omega
  | case4 done s ss h v hc h2 ih =>
    have := nodes_firstShrink s; simp only [Shr.nodes.go] at *; omega
  | _ => simp [Shr.nodes.go]

/-- Models `Stream::transform` with a function whose results are given, /repo/proptest/Stream.hpp:54-65. -/
def untilThrow (done : Outcome Unit) : List (Outcome (Lazy α)) → List (Lazy α) × Outcome Unit
  | [] => ([], done)
  | .ok u :: r => (u :: (untilThrow done r).1, (untilThrow done r).2)
  | .throws e :: _ => ([], .throws e)
  | .ub :: _ => ([], .ub)
  | .diverges :: _ => ([], .diverges)

/-- Models `ShrinkableAny::filter(criteria, tolerance)`, /repo/proptest/Shrinkable.cpp:146-191 and 193-232, with tolerance 1. -/
def filterE (c : Cond α) (t : Lazy α) : Outcome (Lazy α) :=
  match c t.value.1 with
  | .ok (true, v) =>
    let r := untilThrow (filterStreamE c t.value.2 t.shrinks).2
      ((filterStreamE c t.value.2 t.shrinks).1.attach.map fun ⟨s, _⟩ => filterE c s)
    .ok (.node (v, r.2) r.1)
  | .ok (false, _) => .throws .invalidArgument
  | .throws e => .throws e
  | .ub => .ub
  | .diverges => .diverges
termination_by Shr.nodes t
decreasing_by
  rename_i h
  have h1 := Shr.nodes_lt_of_mem h
  have h2 := nodes_filterStreamE c t.value.2 t.shrinks
  cases t
  simp only [Shr.nodes, Shr.shrinks, Shr.value] at *
  omega

/-- Models `FilterFunctor::operator()`, /repo/proptest/combinator/filter.hpp:38-46. -/
def filterGenE (c : Cond α) (g : Gen σ (α × Outcome Unit)) : Nat → Gen σ (α × Outcome Unit)
  | 0, _ => .diverges
  | fuel + 1, s => do
    let (t, s) ← g s
    let (b, v) ← c t.value.1
    if b then do
      let u ← filterE c (.node (v, t.value.2) t.shrinks)
      pure (u, s)
    else filterGenE c g fuel s

end Throwing
end Verif
