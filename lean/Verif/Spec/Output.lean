import Verif.Model.Output
import Verif.Spec.Property
/-
What the output of `forAll` is compared with: the calls of the property function and the tags recorded in them.
-/
namespace Verif
namespace Output
open PairTuple Engine Context
variable {n : Nat} {A : Fin n → Type} {σ K V : Type}

/-- The tags recorded by the functions called in runs (not while shrinking), oldest first. -/
def runTags (tags : Trace A → Event A → List (K × V)) : Trace A → List (K × V)
  | [] => []
  | x :: tr => runTags tags tr ++
    match x with
    | .startup .run _ => tags tr x
    | .cleanup .run _ => tags tr x
    | .call .run _ _ => tags tr x
    | _ => []

/-- Only the property function records tags, and which ones depends on its arguments only. -/
structure TagsBy (tags : Trace A → Event A → List (K × V)) (T : Args A → List (K × V)) : Prop where
  call : ∀ tr ph a e, tags tr (.call ph a e) = T a
  startup : ∀ tr ph e, tags tr (.startup ph e) = []
  cleanup : ∀ tr ph e, tags tr (.cleanup ph e) = []

/-- The failed expectations not shown yet after the given calls: those recorded since the last call that returned. -/
def leftover (cs : List (Args A × Ev Bool)) : List String :=
  cs.foldl (fun l x => match x.2.out with
    | .ok _ => []
    | _ => l ++ x.2.fails) []

/-- The reason given for a failing call when `left` are the failed expectations not shown yet. -/
def whyOf (left : List String) (e : Ev Bool) : Why :=
  match e.out with
  | .ok _ => if left ++ e.fails = [] then .nothing else .expectations (left ++ e.fails)
  | .throws x => .exception (if x = .assertFailed then .propertyFailed else x)
  | _ => .nothing

/-- Shrinking from the arguments given first to those given last: the calls of the property function, and the lines
printed. Every call is made for the current arguments with one of them replaced by a shrink offered for it. A call that
returns true without a failed expectation is not mentioned; every other one is printed and becomes the current one. -/
inductive Steps : Tup A → List (Args A × Ev Bool) → List (Line A K V) → Tup A → Prop
  | done (vals : Tup A) : Steps vals [] [] vals
  | passed (vals : Tup A) (N : Fin n) (child : Shr (A N)) (e : Ev Bool) (cs : List (Args A × Ev Bool))
      (ls : List (Line A K V)) (last : Tup A) : child ∈ (vals N).shrinks → ¬ e.Rejects → Steps vals cs ls last →
      Steps vals ((Tup.get (Function.update vals N child), e) :: cs) ls last
  | adopted (vals : Tup A) (N : Fin n) (child : Shr (A N)) (e : Ev Bool) (cs : List (Args A × Ev Bool))
      (ls : List (Line A K V)) (last : Tup A) : child ∈ (vals N).shrinks → e.Rejects →
      Steps (Function.update vals N child) cs ls last →
      Steps vals ((Tup.get (Function.update vals N child), e) :: cs)
        (.simpler N (Tup.get (Function.update vals N child)) ::
          (if e.fails = [] then ls else .byExpectations e.fails :: ls)) last

end Output
end Verif
