import Verif.Lemmas.Erasure
import Verif.Props.Stream
import Verif.Model.StreamPointers
/-
C172: streams of shared pointers.
-/
namespace Verif
namespace StreamPointers
open Erasure Stream'
variable {B : Type} {W : B → Type} [DecidableEq B]

theorem stored_nil (t : Ty B) : stored (W := W) t Seq.nil = Seq.nil := Strm.transform_nil _
theorem stored_cons (t : Ty B) (a : Val W t) (s : Strm (Val W t)) :
    stored t (Seq.cons a s) = Seq.cons ⟨t, a⟩ (stored t s) := Strm.transform_cons _ _ _

omit [DecidableEq B] in
theorem ptr_ne (t : Ty B) : t ≠ .ptr t := by
  induction t with
  | base b => simp
  | ptr t ih => intro h; injection h with h; exact ih h

/-- C172 (partial: elements that are not shared pointers; the elements `transform` starts from may be any). Streams of values
that are not shared pointers are read as they were made, also after `transform` (as C01), `filter` (as C02) and `two`. -/
theorem C172_values_partial {t : Ty B} {b : B} (n : Nat) :
    (∀ (f : Val W t → Val W (.base b)) (s : Strm (Val W t)),
      read (.base b) (transformStep f) n (stored t s) = .ok (Seq.take n (Strm.transform f s))) ∧
    (∀ (c : Val W (.base b) → Bool) (fuel : Nat) (s : Strm (Val W (.base b))),
      read (.base b) (filterStep c fuel) n (stored (.base b) s) = Strm.filterPull c fuel n s) ∧
    (∀ x y : Val W (.base b), read (.base b) plainStep n (two (.base b) x y) = .ok ([x, y].take n)) ∧
    (∀ x : Val W t, read t plainStep n (one t x) = .ok ([x].take n)) := by
  refine ⟨?_, ?_, ?_, ?_⟩
  · intro f s
    induction n generalizing s with
    | zero => rfl
    | succ n ih =>
      rcases strm_cases s with rfl | ⟨a, r, rfl⟩
      · simp only [stored_nil, Strm.transform_nil, read, transformStep, Seq.destruct_nil, Outcome.ok_bind, Seq.take]
        rfl
      · simp only [stored_cons, Strm.transform_cons, read, transformStep, Seq.destruct_cons, Outcome.ok_bind, cast_self, store,
          Outcome.pure_eq, Option.map_some, Seq.take, ih r]
  · intro c fuel s
    have hs : ∀ (fuel : Nat) (s : Strm (Val W (.base b))), filterStep c fuel (stored (.base b) s)
        = (do let r ← Strm.filterSearch c fuel s; pure (r.map fun p => (⟨.base b, p.1⟩, stored (.base b) p.2))) := by
      intro fuel
      induction fuel with
      | zero => exact fun _ => rfl
      | succ fuel ih =>
        intro s
        rcases strm_cases s with rfl | ⟨a, r, rfl⟩
        · simp only [stored_nil, filterStep, Seq.destruct_nil, Strm.filterSearch]
          rfl
        · simp only [stored_cons, filterStep, Seq.destruct_cons, Strm.filterSearch, cast_self, Outcome.ok_bind, store, ih r]
          split <;> rfl
    induction n generalizing s with
    | zero => rfl
    | succ n ih =>
      simp only [read, hs, Strm.filterPull]
      cases Strm.filterSearch c fuel s with
      | ok r =>
        cases r with
        | none => rfl
        | some p => simp only [Outcome.ok_bind, Outcome.pure_eq, Option.map_some, cast_self, ih p.2]
      | _ => rfl
  · intro x y
    rcases n with _ | _ | n
    · rfl
    · simp only [read, plainStep, two, cons, store, Seq.destruct_cons, Outcome.ok_bind, cast_self, Outcome.pure_eq]
      rfl
    · simp only [read, plainStep, two, cons, store, one, Seq.destruct_cons, Outcome.ok_bind, cast_self, Outcome.pure_eq]
      rcases n with _ | n <;> rfl
  · intro x
    cases n with
    | zero => rfl
    | succ n =>
      simp only [read, plainStep, one, Seq.destruct_cons, Outcome.ok_bind, cast_self, Outcome.pure_eq]
      rcases n with _ | n <;> rfl

/-- Numbers as the only type that is not a shared pointer. -/
def numbers : Unit → Type := fun _ => Nat

example : read (W := numbers) (.base ()) plainStep 5 (two (.base ()) (3 : Nat) (4 : Nat)) = .ok [(3 : Nat), (4 : Nat)] :=
  (C172_values_partial (t := .base ()) 5).2.2.1 _ _

/-- C172, violated. A stream transformed to shared pointers cannot be read as one: if the first pointer is not null, reading it
reads what it points to as if it were a pointer; if it is null the stream is empty, whatever comes after it. -/
theorem C172_transform_violated {t u : Ty B} (f : Val W t → Val W (.ptr u)) (a : Val W t) (s : Strm (Val W t)) (n : Nat) :
    (f a ≠ (none : Option (Val W u)) → read (.ptr u) (transformStep f) (n + 1) (stored t (Seq.cons a s)) = .ub) ∧
    (f a = (none : Option (Val W u)) → read (.ptr u) (transformStep f) n (stored t (Seq.cons a s)) = .ok []) := by
  constructor
  · intro h
    obtain ⟨p, hp⟩ : ∃ p, f a = some p := Option.ne_none_iff_exists'.1 h
    simp only [read, stored_cons, transformStep, Seq.destruct_cons, cast_self, Outcome.ok_bind, Outcome.pure_eq, hp, store,
      Option.map_some]
    rw [cast_other (ptr_ne u)]
    rfl
  · intro h
    cases n with
    | zero => rfl
    | succ n =>
      simp only [read, stored_cons, transformStep, Seq.destruct_cons, cast_self, Outcome.ok_bind, Outcome.pure_eq, h, store,
        Option.map_none]

example : read (W := numbers) (.ptr (.base ()))
    (transformStep (t := .base ()) (u := .ptr (.base ())) fun k : Nat => if k = 0 then none else some k) 3
    (stored (.base ()) (Seq.cons (7 : Nat) Seq.nil)) = .ub :=
  (C172_transform_violated (t := .base ()) (u := .base ()) _ _ _ 2).1 (by simp only [show ¬ ((7 : Nat) = 0) by decide, if_false]; exact Option.some_ne_none _)

/-- C172, violated. The same for `filter`, for the first pointer that is kept, also if nothing is left out, and for `two`. -/
theorem C172_filter_two_violated {u : Ty B} (p : Val W (.ptr u)) (n fuel : Nat) :
    (∀ (c : Val W (.ptr u) → Bool) (s : Strm (Val W (.ptr u))), c p = true →
      (p ≠ (none : Option (Val W u)) →
        read (.ptr u) (filterStep c (fuel + 1)) (n + 1) (stored (.ptr u) (Seq.cons p s)) = .ub) ∧
      (p = (none : Option (Val W u)) →
        read (.ptr u) (filterStep c (fuel + 1)) n (stored (.ptr u) (Seq.cons p s)) = .ok [])) ∧
    (∀ q : Val W (.ptr u),
      (p ≠ (none : Option (Val W u)) → read (.ptr u) plainStep (n + 1) (two (.ptr u) p q) = .ub) ∧
      (p = (none : Option (Val W u)) → read (.ptr u) plainStep n (two (.ptr u) p q) = .ok [])) := by
  refine ⟨fun c s hc => ⟨fun h => ?_, fun h => ?_⟩, fun q => ⟨fun h => ?_, fun h => ?_⟩⟩
  · obtain ⟨a, ha⟩ : ∃ a, p = some a := Option.ne_none_iff_exists'.1 h
    simp only [read, stored_cons, filterStep, Seq.destruct_cons, cast_self, Outcome.ok_bind, Outcome.pure_eq, hc, if_true]
    subst ha
    simp only [store, Option.map_some]
    rw [cast_other (ptr_ne u)]
    rfl
  · cases n with
    | zero => rfl
    | succ n =>
      simp only [read, stored_cons, filterStep, Seq.destruct_cons, cast_self, Outcome.ok_bind, Outcome.pure_eq, hc, if_true]
      subst h
      rfl
  · obtain ⟨a, ha⟩ : ∃ a, p = some a := Option.ne_none_iff_exists'.1 h
    subst ha
    simp only [read, plainStep, two, cons, store, Seq.destruct_cons, Outcome.ok_bind]
    rw [cast_other (ptr_ne u)]
    rfl
  · subst h
    cases n with
    | zero => rfl
    | succ n => rfl

example : read (W := numbers) (.ptr (.base ())) plainStep 4
    (two (W := numbers) (.ptr (.base ())) (none : Option Nat) (some 5 : Option Nat)) = .ok [] :=
  ((C172_filter_two_violated (W := numbers) (u := .base ()) (none : Option Nat) 4 0).2 (some 5 : Option Nat)).2 rfl

end StreamPointers
end Verif
