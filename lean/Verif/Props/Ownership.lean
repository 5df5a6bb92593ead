import Verif.Model.Ownership
import Mathlib.Data.List.Nodup
import Mathlib.Data.List.Perm.Basic
/-
C155: action objects given as raw pointers are deleted once, and not used afterwards.
-/
namespace Verif
namespace Ownership

/-- The objects for which a `shared_ptr` has been made from a raw pointer, in order. -/
def given (os : List Op) : List Nat := os.filterMap fun o => match o with | .wrap p => some p | _ => none

/-- The numbers of owners of the control blocks, irrespective of what is deleted. -/
def owners (c : List Nat) : List Op → List Nat
  | [] => c
  | .wrap _ :: os => owners (c ++ [1]) os
  | .share k :: os => owners (if c[k]?.getD 0 = 0 then c else c.set k (c[k]?.getD 0 + 1)) os
  | .call _ :: os => owners c os
  | .drop k :: os => owners (c.set k (c[k]?.getD 0 - 1)) os

/-- Every `shared_ptr` made has been destroyed. -/
def Finished (os : List Op) : Prop := ∀ n ∈ owners [] os, n = 0

instance (os : List Op) : Decidable (Finished os) := inferInstanceAs (Decidable (∀ n ∈ owners [] os, n = 0))

/-- The objects of the blocks without owners are those deleted; none was deleted twice. -/
private structure Inv (s : State) : Prop where
  nodup : s.deleted.Nodup
  perm : s.deleted.Perm ((s.blocks.filter (·.2 = 0)).map (·.1))

private theorem getElem?_split {α : Type} {l : List α} {k : Nat} {x : α} (h : l[k]? = some x) :
    ∃ a b, l = a ++ x :: b ∧ a.length = k := by
  obtain ⟨hk, rfl⟩ := List.getElem?_eq_some_iff.mp h
  exact ⟨l.take k, l.drop (k + 1), by rw [← List.drop_eq_getElem_cons hk, List.take_append_drop],
    by rw [List.length_take]; omega⟩

private theorem step_cases (s : State) (hs : Inv s) (o : Op) :
    (∃ s', step s o = .ok s' ∧ Inv s' ∧ s'.blocks.map (·.1) = s.blocks.map (·.1) ++ given [o] ∧
      ∀ os, owners (s'.blocks.map (·.2)) os = owners (s.blocks.map (·.2)) (o :: os)) ∨
    (step s o = .ub ∧ ¬ (s.blocks.map (·.1)).Nodup) := by
  have two : ∀ (k p n : Nat), s.blocks[k]? = some (p, n + 1) → p ∈ s.deleted → ¬ (s.blocks.map (·.1)).Nodup := by
    intro k p n hk hp hn
    obtain ⟨a, b, hab, _⟩ := getElem?_split hk
    have hm := hs.perm.mem_iff.mp hp
    simp only [List.mem_map, List.mem_filter, decide_eq_true_eq] at hm
    obtain ⟨y, ⟨hy, hy0⟩, rfl⟩ := hm
    rw [hab] at hy hn
    rw [List.map_append, List.map_cons, List.nodup_middle, List.nodup_cons] at hn
    rcases List.mem_append.mp hy with h | h
    · exact hn.1 (List.mem_append_left _ (List.mem_map.mpr ⟨y, h, rfl⟩))
    · rcases List.mem_cons.mp h with h | h
      · rw [h] at hy0; simp at hy0
      · exact hn.1 (List.mem_append_right _ (List.mem_map.mpr ⟨y, h, rfl⟩))
  cases o with
  | wrap p =>
    refine .inl ⟨_, rfl, ⟨hs.nodup, ?_⟩, by simp [given], fun os => by simp [owners]⟩
    simpa [List.filter_append] using hs.perm
  | share k =>
    rcases hk : s.blocks[k]? with _ | ⟨p, _ | n⟩
    · exact .inl ⟨s, by simp [step, hk], hs, by simp [given], fun os => by simp [owners, hk]⟩
    · exact .inl ⟨s, by simp [step, hk], hs, by simp [given], fun os => by simp [owners, hk]⟩
    · obtain ⟨a, b, hab, hl⟩ := getElem?_split hk
      subst hl
      refine .inl ⟨{ s with blocks := s.blocks.set a.length (p, n + 2) }, by simp only [step, hk], ⟨hs.nodup, ?_⟩, ?_, fun os => ?_⟩
      · have := hs.perm
        simpa [hab, List.filter_append] using this
      · simp [hab, given]
      · simp [hab, owners]
  | call k =>
    rcases hk : s.blocks[k]? with _ | ⟨p, _ | n⟩
    · exact .inl ⟨s, by simp [step, hk], hs, by simp [given], fun os => by simp [owners]⟩
    · exact .inl ⟨s, by simp [step, hk], hs, by simp [given], fun os => by simp [owners]⟩
    · by_cases hp : p ∈ s.deleted
      · exact .inr ⟨by simp [step, hk, hp], two k p n hk hp⟩
      · exact .inl ⟨s, by simp [step, hk, hp], hs, by simp [given], fun os => by simp [owners]⟩
  | drop k =>
    rcases hk : s.blocks[k]? with _ | ⟨p, _ | _ | n⟩
    · refine .inl ⟨s, by simp [step, hk], hs, by simp [given], fun os => ?_⟩
      rw [owners, List.set_eq_of_length_le (by simpa using hk)]
    · refine .inl ⟨s, by simp [step, hk], hs, by simp [given], fun os => ?_⟩
      obtain ⟨a, b, hab, hl⟩ := getElem?_split hk
      subst hl
      simp [hab, owners]
    · by_cases hp : p ∈ s.deleted
      · exact .inr ⟨by simp [step, hk, hp], two k p 0 hk hp⟩
      · obtain ⟨a, b, hab, hl⟩ := getElem?_split hk
        subst hl
        refine .inl ⟨⟨s.blocks.set a.length (p, 0), p :: s.deleted⟩, by simp [step, hk, hp], ⟨List.nodup_cons.mpr ⟨hp, hs.nodup⟩, ?_⟩, ?_, fun os => ?_⟩
        · have := hs.perm
          simp only [hab, List.filter_append, List.filter_cons] at this
          simp only [hab, List.set_append_right _ _ (Nat.le_refl _), Nat.sub_self, List.set_cons_zero,
            List.filter_append, List.filter_cons]
          simp only [List.map_append] at this ⊢
          simp at this ⊢
          exact (List.Perm.cons p this).trans List.perm_middle.symm
        · simp [hab, given]
        · simp [hab, owners]
    · obtain ⟨a, b, hab, hl⟩ := getElem?_split hk
      subst hl
      refine .inl ⟨{ s with blocks := s.blocks.set a.length (p, n + 1) }, by simp only [step, hk], ⟨hs.nodup, ?_⟩, ?_, fun os => ?_⟩
      · have := hs.perm
        simpa [hab, List.filter_append] using this
      · simp [hab, given]
      · simp [hab, owners]

private theorem given_cons (o : Op) (os : List Op) : given (o :: os) = given [o] ++ given os := by
  rw [given, given, given, ← List.filterMap_append]
  rfl

private theorem steps_cases : ∀ (os : List Op) (s : State), Inv s →
    (∃ s', steps s os = .ok s' ∧ Inv s' ∧ s'.blocks.map (·.1) = s.blocks.map (·.1) ++ given os ∧
      s'.blocks.map (·.2) = owners (s.blocks.map (·.2)) os) ∨
    (steps s os = .ub ∧ ¬ (s.blocks.map (·.1) ++ given os).Nodup)
  | [], s, hs => .inl ⟨s, rfl, hs, by simp [given], rfl⟩
  | o :: os, s, hs => by
    rcases step_cases s hs o with ⟨s1, h1, hs1, e1, w1⟩ | ⟨h1, hn⟩
    · rw [given_cons, ← List.append_assoc, ← e1, ← w1]
      rcases steps_cases os s1 hs1 with ⟨s2, h2, hs2, e2, w2⟩ | ⟨h2, hn⟩
      · exact .inl ⟨s2, by rw [steps, h1]; exact h2, hs2, e2, w2⟩
      · exact .inr ⟨by rw [steps, h1]; exact h2, hn⟩
    · exact .inr ⟨by rw [steps, h1]; rfl, fun h => hn (List.Nodup.of_append_left h)⟩

private theorem inv_start : Inv {} := ⟨List.nodup_nil, List.Perm.refl _⟩

private theorem all_deleted {s : State} (hs : Inv s) (h : ∀ n ∈ s.blocks.map (·.2), n = 0) :
    s.deleted.Perm (s.blocks.map (·.1)) := by
  have := hs.perm
  rwa [List.filter_eq_self.mpr (fun x hx => by simpa using h x.2 (List.mem_map_of_mem hx))] at this

/-- **C155** If the generators of actions produce a new object whenever they produce a pointer, then in whatever order the
actions are copied, called and destroyed, no member function of a deleted object is called, no object is deleted
twice, only objects that were generated are deleted, and when all is done, all of them have been.

Partial: needs new objects, see `C155_same_object_violated`. -/
theorem C155_new_objects_partial (os : List Op) (h : (given os).Nodup) :
    ∃ s, steps {} os = .ok s ∧ s.deleted.Nodup ∧ (∀ p ∈ s.deleted, p ∈ given os) ∧
      (Finished os → s.deleted.Perm (given os)) := by
  rcases steps_cases os {} inv_start with ⟨s, h1, hs, e, w⟩ | ⟨_, hn⟩
  · simp only [List.map_nil, List.nil_append] at e w
    refine ⟨s, h1, hs.nodup, fun p hp => ?_, fun hf => ?_⟩
    · rw [← e]
      obtain ⟨y, hy, rfl⟩ := List.mem_map.mp (hs.perm.mem_iff.mp hp)
      exact List.mem_map_of_mem (List.mem_filter.mp hy).1
    · rw [← e]
      exact all_deleted hs (by rw [w]; exact hf)
  · exact absurd h hn

/-- **C155** is violated by every generator that produces a pointer to the same object twice, as `just` and `elementOf` do:
whatever is done with the actions, once all of them have been destroyed, an object has been deleted twice or used
after it was deleted. -/
theorem C155_same_object_violated (os : List Op) (hf : Finished os) (h : ¬ (given os).Nodup) : steps {} os = .ub := by
  rcases steps_cases os {} inv_start with ⟨s, _, hs, e, w⟩ | ⟨h1, _⟩
  · simp only [List.map_nil, List.nil_append] at e w
    exact absurd (e ▸ (all_deleted hs (by rw [w]; exact hf)).nodup_iff.mp hs.nodup) h
  · exact h1

private theorem owners_append : ∀ (a b : List Op) (c : List Nat), owners c (a ++ b) = owners (owners c a) b
  | [], _, _ => rfl
  | .wrap _ :: a, b, c => owners_append a b _
  | .share _ :: a, b, c => owners_append a b _
  | .call _ :: a, b, c => owners_append a b _
  | .drop _ :: a, b, c => owners_append a b _

private theorem owners_wrap : ∀ (ps c : List Nat), owners c (ps.map .wrap) = c ++ List.replicate ps.length 1
  | [], c => by simp [owners]
  | p :: ps, c => by
    rw [List.map_cons, owners, owners_wrap ps, List.length_cons, List.replicate_succ, List.append_assoc]
    rfl

private theorem owners_call : ∀ (ks : List Nat) (c : List Nat), owners c (ks.flatMap fun k => [.call k, .call k]) = c
  | [], _ => rfl
  | k :: ks, c => by rw [List.flatMap_cons, owners_append, owners_call ks]; rfl

private theorem at_middle (m n x y : Nat) (h : m < n) :
    (List.replicate m x ++ List.replicate (n - m) y)[m]? = some y ∧ ∀ z,
      (List.replicate m x ++ List.replicate (n - m) y).set m z =
        List.replicate m x ++ z :: List.replicate (n - (m + 1)) y := by
  have e : n - m = n - (m + 1) + 1 := by omega
  constructor
  · rw [List.getElem?_append_right (by simp), e]; simp
  · intro z
    rw [List.set_append_right _ _ (by simp), e]; simp [List.replicate_succ]

private theorem owners_share (n x : Nat) : ∀ m, m ≤ n → owners (List.replicate n (x + 1)) ((List.range m).map .share) =
    List.replicate m (x + 2) ++ List.replicate (n - m) (x + 1)
  | 0, _ => by simp [owners]
  | m + 1, h => by
    obtain ⟨h1, h2⟩ := at_middle m n (x + 2) (x + 1) (by omega)
    rw [List.range_succ, List.map_append, owners_append, owners_share n x m (by omega), List.map_singleton, owners, h1]
    simp only [Option.getD_some, Nat.add_eq_zero_iff, Nat.one_ne_zero, and_false, if_false]
    rw [h2, owners, List.replicate_succ', List.append_assoc]
    rfl

private theorem owners_drop (n x : Nat) : ∀ m, m ≤ n → owners (List.replicate n (x + 1)) ((List.range m).map .drop) =
    List.replicate m x ++ List.replicate (n - m) (x + 1)
  | 0, _ => by simp [owners]
  | m + 1, h => by
    obtain ⟨h1, h2⟩ := at_middle m n x (x + 1) (by omega)
    rw [List.range_succ, List.map_append, owners_append, owners_drop n x m (by omega), List.map_singleton, owners, h1,
      Option.getD_some, h2, owners, List.replicate_succ', List.append_assoc]
    rfl

private theorem finished_oneRun (ps : List Nat) : Finished (oneRun ps) := by
  intro n hn
  have e : ∀ k x : Nat, List.replicate k x ++ List.replicate (k - k) (x + 1) = List.replicate k x := by simp
  have e' : ∀ k x : Nat, List.replicate k (x + 2) ++ List.replicate (k - k) (x + 1) = List.replicate k (x + 2) := by simp
  rw [oneRun, owners_append, owners_append, owners_append, owners_append, owners_wrap, List.nil_append,
    owners_share _ 0 _ (Nat.le_refl _), e', owners_call, owners_drop _ 1 _ (Nat.le_refl _), e,
    owners_drop _ 0 _ (Nat.le_refl _), e] at hn
  exact (List.mem_replicate.mp hn).2

private theorem given_oneRun (ps : List Nat) : given (oneRun ps) = ps := by
  have h : ∀ f : Nat → Op, (∀ k, given [f k] = []) → ∀ ks : List Nat, given (ks.map f) = [] := by
    intro f hf ks
    induction ks with
    | nil => rfl
    | cons k ks ih => rw [List.map_cons, given_cons, hf, ih]; rfl
  have hw : ∀ ks : List Nat, given (ks.map .wrap) = ks := by
    intro ks
    induction ks with
    | nil => rfl
    | cons k ks ih => rw [List.map_cons, given_cons, ih]; rfl
  have hc : ∀ ks : List Nat, given (ks.flatMap fun k => [.call k, .call k]) = [] := by
    intro ks
    induction ks with
    | nil => rfl
    | cons k ks ih => rw [List.flatMap_cons]; exact ih
  have ha : ∀ a b : List Op, given (a ++ b) = given a ++ given b := fun a b => List.filterMap_append
  rw [oneRun, ha, ha, ha, ha, hw, h _ (fun _ => rfl), h _ (fun _ => rfl), hc]
  simp

/-- **C155** A run of a stateful test whose generators of actions have produced the given pointers is free of undefined
behaviour exactly if the pointers are to different objects. In particular any list of two or more actions from
`just<A*>(p)` ends in a double deletion, and a list from `lazy<A*>` with a `new` in its function never does. -/
theorem C155_run (ps : List Nat) : steps {} (oneRun ps) = .ub ↔ ¬ ps.Nodup := by
  constructor
  · intro h hn
    obtain ⟨s, hs, _⟩ := C155_new_objects_partial (oneRun ps) (by rwa [given_oneRun])
    rw [h] at hs
    cases hs
  · intro h
    exact C155_same_object_violated _ (finished_oneRun ps) (by rwa [given_oneRun])

/-- **C155** is violated by `just<A*>(p)`: any run with at least two actions from it. -/
theorem C155_just_violated (p n : Nat) (h : 2 ≤ n) : steps {} (oneRun (List.replicate n p)) = .ub := by
  rw [C155_run, List.nodup_replicate]
  omega

/-- A `shared_ptr` handed out many times is one control block: `n` copies of it are made, used and destroyed, in any order of
copying and destroying, and the object is deleted once, with the last of them. -/
theorem C155_shared (os : List Op) (p : Nat) (h : given os = [p]) :
    ∃ s, steps {} os = .ok s ∧ s.deleted.length ≤ 1 ∧ (Finished os → s.deleted = [p]) := by
  obtain ⟨s, h1, h2, h3, h4⟩ := C155_new_objects_partial os (by rw [h]; simp)
  rw [h] at h3 h4
  refine ⟨s, h1, ?_, fun hf => List.perm_singleton.mp (h4 hf)⟩
  exact List.Subperm.length_le (l₂ := [p]) (List.subperm_of_subset h2 h3)

/-- Three actions, the second one shrunk (object 3 in its place) while copies of the others live on; the objects are deleted
in the order 1, 0, 3, 2. -/
example : steps {} [.wrap 0, .wrap 1, .wrap 2, .share 0, .share 2, .call 0, .call 1, .drop 1, .wrap 3, .call 3, .drop 0,
    .call 2, .drop 2, .drop 0, .drop 3, .drop 2] = .ok ⟨[(0, 0), (1, 0), (2, 0), (3, 0)], [2, 3, 0, 1]⟩ := by decide +kernel

example : Finished [.wrap 0, .wrap 1, .wrap 2, .share 0, .share 2, .call 0, .call 1, .drop 1, .wrap 3, .call 3, .drop 0,
    .call 2, .drop 2, .drop 0, .drop 3, .drop 2] := by decide +kernel

/-- The same object twice: deleted when the first list is destroyed, and used by the second. -/
example : steps {} [.wrap 7, .call 0, .drop 0, .wrap 7, .call 1, .drop 1] = .ub ∧
    Finished [.wrap 7, .call 0, .drop 0, .wrap 7, .call 1, .drop 1] := by decide +kernel

/-- Without the second life of the object there is nothing wrong yet. -/
example : steps {} [.wrap 7, .wrap 7, .call 0, .call 1, .drop 0] = .ok ⟨[(7, 0), (7, 1)], [7]⟩ := by decide +kernel

example : steps {} (oneRun [4, 5, 6]) = .ok ⟨[(4, 0), (5, 0), (6, 0)], [6, 5, 4]⟩ := by decide +kernel
example : steps {} (oneRun [4, 5, 4]) = .ub := by decide +kernel

end Ownership
end Verif
