import Verif.Model.Pointee
import Verif.Lemmas.PropertyLoop
import Verif.Props.Property
/-
C144: reports show the arguments the property was called with, also if the property function changes what they point to.
-/
namespace Verif
namespace Engine
open PairTuple
variable {n : Nat} {A : Fin n → Type} {σ H : Type}

private theorem heap_unchanged {p : Pointees A H} (h : ∀ m a, (p.body m a).2 = m) : ∀ tr, p.heap tr = p.fresh
  | [] => rfl
  | .call ph args e :: tr => by
    rw [Pointees.heap, h, heap_unchanged h tr]
    split <;> rfl
  | .startup _ _ :: tr => heap_unchanged h tr
  | .cleanup _ _ :: tr => heap_unchanged h tr
  | .genThrew _ _ :: tr => heap_unchanged h tr

private theorem heap_before_shrinking {p : Pointees A H} (hs : p.same = false) :
    ∀ tr : Trace A, calls .shrink tr = [] → p.heap tr = p.fresh
  | [], _ => rfl
  | .call ph args e :: tr, h => by
    have e1 : calls .shrink (.call ph args e :: tr) = calls .shrink tr ++ if ph = .shrink then [(args, e)] else [] := by
      simp only [calls, List.reverse_cons, List.filterMap_append, List.filterMap_cons, List.filterMap_nil, Event.call?]
      split <;> simp_all
    rw [e1, List.append_eq_nil_iff] at h
    have hp : ph ≠ .shrink := fun hp => by rw [if_pos hp] at h; simp at h
    rw [Pointees.heap, hs, if_neg (by simpa using hp), heap_before_shrinking hs tr h.1]
  | .startup ph e :: tr, h => heap_before_shrinking hs tr (by simpa [calls, Event.call?] using h)
  | .cleanup ph e :: tr, h => heap_before_shrinking hs tr (by simpa [calls, Event.call?] using h)
  | .genThrew ph e :: tr, h => heap_before_shrinking hs tr (by simpa [calls, Event.call?] using h)

/-- **C144** The arguments printed as "with args" are those of the failing run, and the objects they point to are printed with
the contents that run has found in them, whatever that run or earlier ones have done to them: they are generated again
before they are printed. -/
theorem C144_with_args {c : Cfg σ A} (hc : Setting c) (p : Pointees A H) (hp : c.func = p.func) (hs : p.same = false)
    (fuel : Nat) (seed : σ) (a : Nat) (start shrunk : Tup A) (tr : Trace A)
    (h : forAll c fuel seed [] = (.ok (.falsified a start shrunk), tr)) :
    ∃ x, (calls .run tr).getLast? = some x ∧ x.1 = (fun i => (start i).value) ∧ x.2 = (p.body p.fresh x.1).1 := by
  have hr := forAll_result hc fuel seed
  rw [h] at hr
  obtain ⟨i, hi, hst⟩ := hr.stop a start shrunk rfl
  obtain ⟨pre, x, s', t', _, _, hR, ⟨h1, _⟩, hx, ⟨tr', h0, hfx⟩, _⟩ := hst.ex
  cases hR
  refine ⟨x, by rw [h1]; simp, by rw [hx]; rfl, ?_⟩
  rw [hfx, hp, Pointees.func, heap_before_shrinking hs tr' h0]

/-- **C144** If the property function leaves the objects as they are, then the arguments reported as the simplest, with the
contents the objects have when they are printed, make the property function fail.

Partial: false if the function changes the objects, see `C144_simplest_violated`. -/
theorem C144_unchanged_partial {c : Cfg σ A} (hc : Setting c) (p : Pointees A H) (hp : c.func = p.func)
    (hu : ∀ m a, (p.body m a).2 = m)
    (hq : ∀ a, (p.body p.fresh a).1.out = .throws .success ∨ (p.body p.fresh a).1.out = .throws .discard →
      (p.body p.fresh a).1.fails = [])
    (fuel : Nat) (seed : σ) (a : Nat) (start shrunk : Tup A) (tr : Trace A)
    (h : forAll c fuel seed [] = (.ok (.falsified a start shrunk), tr)) :
    (p.body (p.heap tr) (fun i => (shrunk i).value)).1.Rejects := by
  rw [heap_unchanged hu]
  exact (C48_shrunk_arguments_fail_partial (f := fun a => (p.body p.fresh a).1) hc
    (fun tr args => by rw [hp, Pointees.func, heap_unchanged hu]) hq fuel seed a start shrunk tr h).1

/-- A property function of one pointer: checks the object, then stores `d` in it. Memory is a function from addresses
to numbers; object number `a` contains `a` when generated. -/
def storing (check : Nat → Ev Bool) (d : Nat) : Pointees (fun _ : Fin 1 => Nat) (Nat → Nat) where
  fresh := id
  body := fun m a => (check (m (a 0)), Function.update m (a 0) d)
  same := false

private theorem stored {check : Nat → Ev Bool} {d : Nat} {a : Args (fun _ : Fin 1 => Nat)} :
    ∀ tr : Trace (fun _ : Fin 1 => Nat), (∃ e, Event.call .shrink a e ∈ tr) → (storing check d).heap tr (a 0) = d
  | [], h => by simp at h
  | .call ph args e' :: tr, ⟨e, h⟩ => by
    rcases List.mem_cons.mp h with h | h
    · cases h
      rw [Pointees.heap, if_pos (by simp)]
      simp [storing]
    · rw [Pointees.heap]
      have ih := stored (check := check) (d := d) tr ⟨e, h⟩
      split
      · show Function.update ((storing check d).heap tr) (args 0) d (a 0) = d
        by_cases hE : a 0 = args 0
        · rw [hE, Function.update_self]
        · rw [Function.update_of_ne hE, ih]
      · exact ih
  | .startup ph e' :: tr, ⟨e, h⟩ => stored (check := check) tr ⟨e, by simpa using h⟩
  | .cleanup ph e' :: tr, ⟨e, h⟩ => stored (check := check) tr ⟨e, by simpa using h⟩
  | .genThrew ph e' :: tr, ⟨e, h⟩ => stored (check := check) tr ⟨e, by simpa using h⟩

/-- **C144** is false of the code for the arguments reported as the simplest: if the function stores `d` in the object its
argument points to, then `d` is what is printed, whatever the object has contained when the property failed. For all
checks, all `d` and all generators. -/
theorem C144_simplest_violated {c : Cfg σ (fun _ : Fin 1 => Nat)} (hc : Setting c) (check : Nat → Ev Bool) (d : Nat)
    (hp : c.func = (storing check d).func) (fuel : Nat) (seed : σ) (a : Nat) (start shrunk : Tup (fun _ : Fin 1 => Nat))
    (tr : Trace (fun _ : Fin 1 => Nat)) (h : forAll c fuel seed [] = (.ok (.falsified a start shrunk), tr))
    (hne : shrunk ≠ start) : (storing check d).heap tr (shrunk 0).value = d := by
  obtain ⟨he, -⟩ := C48_observed hc fuel seed a start shrunk tr h
  obtain ⟨e, he, -⟩ := he.resolve_left hne
  exact stored (a := fun i => (shrunk i).value) tr ⟨e, he⟩

/-- The property "the object contains less than 3", which stores 0 in it. -/
private def resetting : Cfg Nat (fun _ : Fin 1 => Nat) :=
  { demo (fun k => .node (k + 5) [.node (k + 1) [], .node (k + 4) [.node (k + 3) []]]) (fun _ => returns true) 2 with
    func := (storing (fun v => returns (decide (v < 3))) 0).func }

/-- Object 5 makes the property fail, so does object 3, which is the simplest: both are reported, the second with 0 in it. The
property holds for an object with 0 in it. -/
example : shown (forAll resetting 5 0 []) = (.ok false, some (1, 5, 3), [5], [1, 4, 3]) ∧
    (storing (fun v => returns (decide (v < 3))) 0).heap (forAll resetting 5 0 []).2 3 = 0 := by decide +kernel

example : Setting resetting where
  quiet := ⟨fun _ h => (by cases h), fun _ h => (by cases h)⟩
  order := rfl
  nodup := by decide
  gens := fun s => by
    obtain ⟨ts, r, h⟩ : ∃ ts r, Gen.drawTuple resetting.gens resetting.orderRun s = .ok (ts, r) := ⟨_, _, rfl⟩
    rw [h]
    exact fun h => nomatch h

/-- A pointer and a number: the property "the object contains at most 1 or the number is 0" adds 1 to the object. -/
private def adding : Pointees (fun _ : Fin 2 => Nat) (Nat → Nat) where
  fresh := id
  body := fun m a => (returns (decide (m (a 0) ≤ 1 ∨ a 1 = 0)), Function.update m (a 0) (m (a 0) + 1))
  same := false

private def addingCfg : Cfg Nat (fun _ : Fin 2 => Nat) :=
  { demo2 (fun _ _ => returns true) with
    gens := fun _ s => .ok (if s = 0 then .node 2 [.node 1 []] else .node 5 [.node 3 [.node 0 []]], s + 1)
    func := adding.func }

/-- **C144** is false of the code for calls made while another argument is shrunk: these share the object. Here the property
fails for the object that contains 2, and holds for that with 1, so that the pointer to 2 is kept; then the number is shrunk
from 5 to 3, and 0 is tried, and the report shows an object that contains 4. -/
theorem C144_other_argument_violated : ∃ start shrunk tr, forAll addingCfg 5 0 [] = (.ok (.falsified 1 start shrunk), tr) ∧
    (start 0).value = 2 ∧ (start 1).value = 5 ∧ (shrunk 0).value = 2 ∧ (shrunk 1).value = 3 ∧
    adding.heap tr 2 = 4 ∧ adding.fresh 2 = 2 := by
  have h : (match (forAll addingCfg 5 0 []).1 with
    | .ok (.falsified k s t) => some (k, (s 0).value, (s 1).value, (t 0).value, (t 1).value)
    | _ => none) = some (1, 2, 5, 2, 3) ∧ adding.heap (forAll addingCfg 5 0 []).2 2 = 4 := by decide +kernel
  obtain ⟨h1, h2⟩ := h
  generalize hr : forAll addingCfg 5 0 [] = r at h1 h2
  obtain ⟨o, tr⟩ := r
  cases o with
  | ok R =>
    cases R with
    | falsified k s t =>
      simp only [Option.some.injEq, Prod.mk.injEq] at h1
      obtain ⟨rfl, e1, e2, e3, e4⟩ := h1
      exact ⟨s, t, tr, rfl, e1, e2, e3, e4, h2, rfl⟩
    | passed => cases h1
    | timedOut k => cases h1
  | throws e => cases h1
  | ub => cases h1
  | diverges => cases h1

/-- The property "the object contains 0", which then adds 1 to it, for `elementOf` of one pointer. -/
private def counting : Pointees (fun _ : Fin 1 => Nat) (Nat → Nat) where
  fresh := fun _ => 0
  body := fun m a => (returns (decide (m (a 0) = 0)), Function.update m (a 0) (m (a 0) + 1))
  same := true

/-- **C144** is false of the code for generators that hand out the same pointer every time: the first run passes, as the
object given to `elementOf` contains 0, but the second run works on the object left behind by the first, and fails. -/
theorem C144_same_object_violated :
    shown (forAll { demo (fun _ => .leaf 7) (fun _ => returns true) 9 with func := counting.func } 5 0 []) =
      (.ok false, some (2, 7, 7), [7, 7], []) ∧ (counting.body counting.fresh (fun _ => 7)).1 = returns true := by
  decide +kernel

end Engine
end Verif
