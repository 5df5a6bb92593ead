import Mathlib.Data.Nat.Log
import Verif.Lemmas.BinSearch
import Verif.Lemmas.Tree
import Verif.Spec.Cost
/-
Helper lemmas: how many candidates a search in a shrink tree can try, for the operations on shrinkables and for integers.
-/
namespace Verif
open Shr
variable {α β γ δ : Type}

namespace Shr

theorem cost_eq (t : Shr α) : t.cost = costList t.shrinks := by cases t; rw [cost]; rfl

@[simp] theorem cost_leaf (v : α) : (leaf v).cost = 0 := by simp [leaf, cost, costList]

theorem costList_append (l m : List (Shr α)) : costList (l ++ m) = max (costList l) (l.length + costList m) := by
  induction l with
  | nil => simp [costList]
  | cons s l ih => simp only [List.cons_append, costList, ih, List.length_cons]; omega

theorem length_le_costList (l : List (Shr α)) : l.length ≤ costList l := by
  induction l with
  | nil => simp
  | cons s l ih => rw [costList, List.length_cons]; omega

theorem costList_le {l : List (Shr α)} {B : Nat} (h : ∀ (i : Nat) (s : Shr α), l[i]? = some s → i + 1 + s.cost ≤ B) :
    costList l ≤ B := by
  induction l generalizing B with
  | nil => simp [costList]
  | cons s l ih =>
    have h0 := h 0 s rfl
    have := ih (B := B - 1) fun i t ht => by have := h (i + 1) t (by simpa using ht); omega
    rw [costList]; omega

theorem le_costList {l : List (Shr α)} {i : Nat} {s : Shr α} (h : l[i]? = some s) : i + 1 + s.cost ≤ costList l := by
  induction l generalizing i with
  | nil => simp at h
  | cons x l ih =>
    rw [costList]
    cases i with
    | zero => simp at h; subst h; omega
    | succ i => have := ih (by simpa using h); omega

theorem cost_child {t s : Shr α} (h : s ∈ t.shrinks) : s.cost < t.cost := by
  obtain ⟨i, hi⟩ := List.getElem?_of_mem h
  have := le_costList hi
  rw [cost_eq t]; omega

theorem cost_desc {t s : Shr α} (h : Desc t s) : s.cost ≤ t.cost := by
  induction h with
  | refl => exact Nat.le_refl _
  | step h1 _ ih => have := cost_child h1; omega

theorem costList_map (f : α → β) (l : List (Shr α)) (h : ∀ s ∈ l, (s.map f).cost = s.cost) :
    costList (l.map (map f)) = costList l := by
  induction l with
  | nil => rfl
  | cons s l ih =>
    rw [List.map_cons, costList, costList, h s (by simp), ih fun t ht => h t (by simp [ht])]

theorem cost_map (f : α → β) (t : Shr α) : (t.map f).cost = t.cost := by
  induction t using Shr.ind with
  | h v ss ih => rw [map_node, cost, cost, costList_map f ss ih]

theorem cost_mapShrinkable (f : Shr α → Shr β) (t : Shr α) : (t.mapShrinkable f).cost = t.cost := by
  induction t using Shr.ind with
  | h v ss ih =>
    rw [cost_eq, shrinks_mapShrinkable, shrinks_node, cost]
    have : ∀ l : List (Shr α), (∀ s ∈ l, s ∈ ss) → costList (l.map (mapShrinkable f)) = costList l := by
      intro l
      induction l with
      | nil => intro _; rfl
      | cons s l ihl =>
        intro h
        rw [List.map_cons, costList, costList, ih s (h s (by simp)), ihl fun x hx => h x (by simp [hx])]
    exact this ss fun _ h => h

theorem cost_concat {k : Shr α → List (Shr α)} {t : Shr α} {B : Nat}
    (h : ∀ u, Desc t u → costList (k u) ≤ B) : (t.concat k).cost ≤ t.cost + B := by
  induction t using Shr.ind with
  | h v ss ih =>
    have hr := h _ (.refl _)
    rw [cost_eq, shrinks_concat, shrinks_node, costList_append, cost, List.length_map]
    have hl := length_le_costList ss
    have : costList (ss.map (concat k)) ≤ costList ss + B := by
      refine costList_le fun i s hs => ?_
      rw [List.getElem?_map] at hs
      cases hi : ss[i]? with
      | none => simp [hi] at hs
      | some u =>
        simp [hi] at hs
        subst hs
        have h1 := ih u (List.mem_of_getElem? hi) fun w hw => h w (.step (List.mem_of_getElem? hi) hw)
        have h2 := le_costList hi
        omega
    omega

theorem cost_andThen {k : Shr α → List (Shr α)} {t : Shr α} {B : Nat}
    (h : ∀ u, Desc t u → u.shrinks = [] → costList (k u) ≤ B) : (t.andThen k).cost ≤ t.cost + B := by
  induction t using Shr.ind with
  | h v ss ih =>
    by_cases he : ss = []
    · rw [cost_eq, shrinks_andThen_nil k (by simpa using he)]
      have := h _ (.refl _) (by simpa using he)
      omega
    · rw [cost_eq, shrinks_andThen_ne k (by simpa using he), shrinks_node, cost]
      refine costList_le fun i s hs => ?_
      rw [List.getElem?_map] at hs
      cases hi : ss[i]? with
      | none => simp [hi] at hs
      | some u =>
        simp [hi] at hs
        subst hs
        have h1 := ih u (List.mem_of_getElem? hi) fun w hw => h w (.step (List.mem_of_getElem? hi) hw)
        have h2 := le_costList hi
        omega

theorem costList_filter (c : α → Bool) (l : List (Shr α)) (h : ∀ s ∈ l, (s.filterKept c).cost ≤ s.cost) :
    costList (filterKeptList c l) ≤ costList l := by
  induction l with
  | nil => simp [filterKeptList, costList]
  | cons s l ih =>
    have h1 := h s (by simp)
    have h2 := ih fun t ht => h t (by simp [ht])
    rw [filterKeptList]
    split
    · rw [costList, costList]; omega
    · rw [costList]; omega

theorem cost_filterKept (c : α → Bool) (t : Shr α) : (t.filterKept c).cost ≤ t.cost := by
  induction t using Shr.ind with
  | h v ss ih => rw [filterKept, cost, cost]; exact costList_filter c ss ih

theorem costList_filterStream (c : α → Bool) (l : List (Shr α)) : costList (filterStream c 1 l) ≤ costList l := by
  fun_induction filterStream c 1 l with
  | case1 => exact Nat.le_refl _
  | case2 s ss h ih => rw [costList, costList]; omega
  | case3 s ss h ih =>
    refine Nat.le_trans ih ?_
    rw [costList]
    cases s with
    | node v cs =>
      cases cs with
      | nil =>
        simp only [shrinks_node, takeInt, List.nil_append]
        omega
      | cons x xs =>
        have : takeInt 1 (x :: xs) = [x] := by cases xs <;> simp [takeInt]
        rw [shrinks_node, this, List.singleton_append, costList, cost, costList]
        omega

theorem cost_filterTolKept (c : α → Bool) (t : Shr α) : (t.filterTolKept c 1).cost ≤ t.cost := by
  induction hn : nodes t using Nat.strong_induction_on generalizing t with
  | _ k ih =>
    rw [cost_eq, shrinks_filterTolKept, cost_eq t]
    refine Nat.le_trans ?_ (costList_filterStream c t.shrinks)
    refine costList_le fun i s hs => ?_
    rw [List.getElem?_map] at hs
    cases hi : (filterStream c 1 t.shrinks)[i]? with
    | none => simp [hi] at hs
    | some u =>
      simp [hi] at hs
      subst hs
      have h1 := nodes_lt_of_mem (List.mem_of_getElem? hi)
      have h2 := nodes_go_filterStream c 1 t.shrinks
      have h3 : nodes.go t.shrinks < nodes t := by cases t; simp [nodes]
      have := ih (nodes u) (by omega) u rfl
      have := le_costList hi
      omega

mutual
/-- Greedy shrinking for a fixed property is one such search. -/
theorem greedyEvals_le_cost (fails : α → Bool) : ∀ t : Shr α, t.greedyEvals fails ≤ t.cost
  | .node _ ss => by rw [greedyEvals, cost]; exact greedyEvalsList_le_cost fails ss
/-- The same for the remaining candidates. -/
theorem greedyEvalsList_le_cost (fails : α → Bool) : ∀ ss : List (Shr α), greedyEvalsList fails ss ≤ costList ss
  | [] => by simp [greedyEvalsList]
  | s :: ss => by
    have h1 := greedyEvals_le_cost fails s
    have h2 := greedyEvalsList_le_cost fails ss
    rw [greedyEvalsList, costList]
    split <;> omega
end

end Shr

namespace BinSearch

theorem costList_posTree (fuel min max : Nat) (h : max - min ≤ fuel) :
    costList (posTree fuel min max) = Nat.clog 2 (max - min) := by
  induction fuel generalizing min max with
  | zero => simp [posTree, costList, show max - min = 0 by omega]
  | succ fuel ih =>
    rw [posTree_succ]
    split
    · rw [Nat.clog_of_right_le_one (by omega)]; rfl
    · split
      · have : max - min = 2 := by omega
        rw [this]; simp [costList, Nat.clog_of_two_le]
      · rw [costList, cost, ih _ _ (by omega), ih _ _ (by omega),
          Nat.clog_of_two_le (b := 2) (n := max - min) (by omega) (by omega), Nat.add_comm 1]
        congr 1
        rcases Nat.le_total ((min + max) / 2 - min) (max - (min + max) / 2) with hle | hle
        · rw [Nat.max_eq_right (Nat.clog_mono_right 2 hle)]
          congr 1; omega
        · rw [Nat.max_eq_left (Nat.clog_mono_right 2 hle)]
          congr 1; omega

theorem cost_bsNat (n : Nat) : (bsNat n).cost = if n = 0 then 0 else 1 + Nat.clog 2 n := by
  rw [bsNat, cost]
  split
  · rfl
  · rw [costList, cost_leaf, costList_posTree n 0 n (by omega)]; simp

theorem cost_bsNat_le (n : Nat) : (bsNat n).cost ≤ 1 + Nat.clog 2 n := by
  rw [cost_bsNat]; split <;> omega

theorem cost_bsNat_mono {m n : Nat} (h : m ≤ n) : (bsNat m).cost ≤ (bsNat n).cost := by
  rw [cost_bsNat, cost_bsNat]
  have := Nat.clog_mono_right 2 h
  split <;> split <;> omega

end BinSearch
end Verif
