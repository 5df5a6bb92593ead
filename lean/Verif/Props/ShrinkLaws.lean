import Verif.Lemmas.MapCommutes
import Verif.Props.Stream
/-
C201: operations on streams and shrinkables can be regrouped and reordered.
-/
namespace Verif
namespace Shr
variable {α β γ : Type}

/-- Two trees are equal if the values are and the shrinks are. -/
theorem ext {t u : Shr α} (h1 : t.value = u.value) (h2 : t.shrinks = u.shrinks) : t = u := by
  rw [← eta t, ← eta u, h1, h2]

/-- **C201, map.** Mapping twice is mapping once by the composition, mapping by the identity changes nothing. -/
theorem C201_map (f : α → β) (g : β → γ) (t : Shr α) : (t.map f).map g = t.map (fun v => g (f v)) ∧ t.map (fun v => v) = t := by
  constructor
  · induction t using ind with
    | h v ss ih =>
      refine ext (by simp) ?_
      simp only [shrinks_map, shrinks_node, List.map_map]
      exact List.map_congr_left fun s hs => ih s hs
  · induction t using ind with
    | h v ss ih =>
      refine ext (by simp) ?_
      simp only [shrinks_map, shrinks_node]
      exact (List.map_congr_left fun s hs => ih s hs).trans (List.map_id _)

/-- **C201, flatMap.** Chaining twice is chaining once by the composition; making a shrinkable of each value and nothing else changes
nothing. -/
theorem C201_flatMap (f : α → Shr β) (g : β → Shr γ) (t : Shr α) :
    (t.flatMap f).flatMap g = t.flatMap (fun v => (f v).flatMap g) ∧ t.flatMap leaf = t := by
  constructor
  · rw [flatMap_eq_map, flatMap_eq_map, flatMap_eq_map, (C201_map _ _ t).1]
    simp
  · rw [flatMap_eq_map]
    exact (C201_map (fun v => v) (fun v => v) t).2

/-- **C201, filter.** Filtering twice is filtering once by both conditions, with the same exception; the order does not matter. -/
theorem C201_filter (c d : α → Bool) (t : Shr α) :
    ((t.filter c).bind fun u => u.filter d) = t.filter (fun v => c v && d v) ∧
    ((t.filter c).bind fun u => u.filter d) = ((t.filter d).bind fun u => u.filter c) := by
  have key : ∀ (c d : α → Bool) (t : Shr α), (t.filterKept c).filterKept d = t.filterKept fun v => c v && d v := by
    intro c d t
    induction t using ind with
    | h v ss ih =>
      refine ext (by simp) ?_
      simp only [shrinks_filterKept, shrinks_node]
      induction ss with
      | nil => simp
      | cons s ss ihs =>
        have e := ih s (by simp)
        have e' := ihs fun s hs => ih s (by simp [hs])
        cases hc : c s.value <;> cases hd : d s.value <;> simp_all
  have main : ∀ (c d : α → Bool), ((t.filter c).bind fun u => u.filter d) = t.filter (fun v => c v && d v) := by
    intro c d
    unfold filter
    cases hc : c t.value <;> simp [hc, key, Outcome.bind]
  refine ⟨main c d, ?_⟩
  rw [main c d, main d c]
  simp only [Bool.and_comm]

/-- **C201, filter and map.** Filtering what is mapped is mapping what is filtered by the composed condition. -/
theorem C201_filter_map (f : α → β) (c : β → Bool) (t : Shr α) :
    (t.map f).filter c = (t.filter fun v => c (f v)).bind fun u => .ok (u.map f) := by
  have key : ∀ t : Shr α, (t.map f).filterKept c = (t.filterKept fun v => c (f v)).map f := by
    intro t
    induction t using ind with
    | h v ss ih =>
      refine ext (by simp) ?_
      simp only [shrinks_filterKept, shrinks_node, shrinks_map]
      induction ss with
      | nil => simp
      | cons s ss ihs =>
        have e := ih s (by simp)
        have e' := ihs fun s hs => ih s (by simp [hs])
        cases hc : c (f s.value) <;> simp_all
  unfold filter
  cases hc : c (f t.value) <;> simp [hc, key, Outcome.bind]

/-- **C201, take.** Taking at most `m` and then at most `k` of the shrinks everywhere is taking the smaller number; taking commutes with
mapping; a negative number takes everything. -/
theorem C201_take (m k : Nat) (f : α → β) (t : Shr α) :
    (t.take m).take k = t.take (min m k : Nat) ∧ (t.map f).take m = (t.take m).map f ∧ ∀ z : Int, z < 0 → t.take z = t := by
  refine ⟨?_, ?_, fun z hz => ?_⟩
  · induction t using ind with
    | h v ss ih =>
      refine ext (by simp) ?_
      simp only [shrinks_take, shrinks_node, takeInt_nat, List.map_take, List.map_map, List.take_take]
      rw [Nat.min_comm]
      congr 1
      exact List.map_congr_left fun s hs => ih s hs
  · induction t using ind with
    | h v ss ih =>
      refine ext (by simp) ?_
      simp only [shrinks_take, shrinks_map, shrinks_node, takeInt_nat, List.map_take, List.map_map]
      congr 1
      exact List.map_congr_left fun s hs => ih s hs
  · induction t using ind with
    | h v ss ih =>
      refine ext (by simp) ?_
      simp only [shrinks_take, shrinks_node, takeInt_neg z hz]
      exact (List.map_congr_left fun s hs => ih s hs).trans (List.map_id _)

/-- **C201, concat.** Appending shrinks twice is appending once: the first ones, with the second ones appended to them in turn, and then the
second ones. Appending nothing changes nothing. -/
theorem C201_concat (k l : Shr α → List (Shr α)) (t : Shr α) :
    (t.concat k).concat l = t.concat (fun u => (k u).map (concat l) ++ l (u.concat k)) ∧ t.concat (fun _ => []) = t := by
  constructor
  · induction t using ind with
    | h v ss ih =>
      refine ext (by simp) ?_
      simp only [shrinks_concat, shrinks_node, List.map_append, List.map_map, List.append_assoc]
      congr 1
      exact List.map_congr_left fun s hs => ih s hs
  · induction t using ind with
    | h v ss ih =>
      refine ext (by simp) ?_
      simp only [shrinks_concat, shrinks_node, List.append_nil]
      exact (List.map_congr_left fun s hs => ih s hs).trans (List.map_id _)

/-- **C201, andThen.** Continuing twice is continuing once: if there is something to continue with, with that and its continuations, otherwise
with the second one. Continuing with nothing changes nothing. -/
theorem C201_andThen (k l : Shr α → List (Shr α)) (t : Shr α) :
    (t.andThen k).andThen l = t.andThen (fun u => if k u = [] then l (u.andThen k) else (k u).map (andThen l)) ∧
      t.andThen (fun _ => []) = t := by
  constructor
  · induction t using ind with
    | h v ss ih =>
      refine ext (by simp) ?_
      cases ss with
      | nil =>
        rw [shrinks_andThen_nil _ (t := node v []) rfl]
        by_cases hk : k (node v []) = []
        · rw [shrinks_andThen_nil l (t := andThen k (node v [])) (by rw [shrinks_andThen_nil _ rfl, hk]), if_pos hk]
        · rw [shrinks_andThen_ne l (t := andThen k (node v [])) (by rw [shrinks_andThen_nil _ rfl]; exact hk), if_neg hk,
            shrinks_andThen_nil _ (t := node v []) rfl]
      | cons s ss =>
        rw [shrinks_andThen_ne _ (t := node v (s :: ss)) (by simp),
          shrinks_andThen_ne l (t := andThen k (node v (s :: ss))) (by rw [shrinks_andThen_ne _ (by simp)]; simp),
          shrinks_andThen_ne _ (t := node v (s :: ss)) (by simp)]
        rw [List.map_map]
        exact List.map_congr_left fun u hu => ih u hu
  · induction t using ind with
    | h v ss ih =>
      refine ext (by simp) ?_
      cases ss with
      | nil => rw [shrinks_andThen_nil _ rfl]; rfl
      | cons s ss =>
        rw [shrinks_andThen_ne _ (by simp)]
        exact (List.map_congr_left fun s hs => ih s hs).trans (List.map_id _)

/-- **C201, static versions.** The same for shrinks given once and for all. -/
theorem C201_static (xs ys : List (Shr α)) (t : Shr α) :
    (t.concatStatic xs).concatStatic ys = t.concatStatic (xs.map (concatStatic ys) ++ ys) ∧
    (xs ≠ [] → (t.andThenStatic xs).andThenStatic ys = t.andThenStatic (xs.map (andThenStatic ys))) ∧
    (t.andThenStatic []).andThenStatic ys = t.andThenStatic ys := by
  refine ⟨(C201_concat _ _ t).1, fun h => ?_, ?_⟩
  · unfold andThenStatic
    rw [(C201_andThen _ _ t).1]
    simp only [h, if_false]
  · unfold andThenStatic
    rw [(C201_andThen (fun _ => []) (fun _ => []) t).2]

/-- A tree: 4 with the shrinks 3 (with 1) and 2. -/
def four : Shr Nat := node 4 [node 3 [leaf 1], leaf 2]

example : ((four.filter fun v => decide (v ≠ 3)).bind fun u => u.filter fun v => decide (v < 5)) = .ok (node 4 [leaf 2]) := rfl
example : (four.concatStatic [leaf 0]).concatStatic [leaf 7] =
    node 4 [node 3 [node 1 [node 0 [leaf 7], leaf 7], node 0 [leaf 7], leaf 7], node 2 [node 0 [leaf 7], leaf 7], node 0 [leaf 7], leaf 7] :=
  rfl
example : (four.andThenStatic [leaf 0]).andThenStatic [leaf 7] = node 4 [node 3 [node 1 [node 0 [leaf 7]]], node 2 [node 0 [leaf 7]]] :=
  rfl
example : (four.take 1).take 3 = node 4 [node 3 [leaf 1]] := rfl

end Shr

namespace Strm
open Stream'
variable {α β γ : Type}

/-- **C201, streams.** For streams of any length, also infinite ones: transforming twice is transforming by the composition, transforming a
concatenation is concatenating the transformed streams; concatenation can be regrouped and the empty stream is neutral. -/
theorem C201_streams (f : α → β) (g : β → γ) (s t u : Strm α) :
    (s.transform f).transform g = s.transform (fun a => g (f a)) ∧
    (s.concat t).transform f = (s.transform f).concat (t.transform f) ∧
    (s.concat t).concat u = s.concat (t.concat u) ∧ s.concat empty = s ∧ empty.concat s = s := by
  have hn : ∀ s : Strm α, concat Seq.nil s = s := by
    intro s
    refine Seq.ext fun k => ?_
    induction k generalizing s with
    | zero =>
      rcases strm_cases s with rfl | ⟨a, t, rfl⟩
      · rw [concat_nil_nil]
      · rw [concat_nil_cons]; simp
    | succ k ih =>
      rcases strm_cases s with rfl | ⟨a, t, rfl⟩
      · rw [concat_nil_nil]
      · rw [concat_nil_cons]; simpa using ih t
  have hn' : ∀ s : Strm β, concat Seq.nil s = s := by
    intro s
    refine Seq.ext fun k => ?_
    induction k generalizing s with
    | zero =>
      rcases strm_cases s with rfl | ⟨a, t, rfl⟩
      · rw [concat_nil_nil]
      · rw [concat_nil_cons]; simp
    | succ k ih =>
      rcases strm_cases s with rfl | ⟨a, t, rfl⟩
      · rw [concat_nil_nil]
      · rw [concat_nil_cons]; simpa using ih t
  refine ⟨?_, ?_, ?_, ?_, hn s⟩
  · refine Seq.ext fun k => ?_
    rw [C01_transform_get, C01_transform_get, C01_transform_get, Option.map_map]
    rfl
  · refine Seq.ext fun k => ?_
    induction k generalizing s with
    | zero =>
      rcases strm_cases s with rfl | ⟨a, r, rfl⟩
      · rw [hn, transform_nil, hn']
      · rw [concat_cons, transform_cons, transform_cons, concat_cons]; simp
    | succ k ih =>
      rcases strm_cases s with rfl | ⟨a, r, rfl⟩
      · rw [hn, transform_nil, hn']
      · rw [concat_cons, transform_cons, transform_cons, concat_cons]; simpa using ih r
  · refine Seq.ext fun k => ?_
    induction k generalizing s with
    | zero =>
      rcases strm_cases s with rfl | ⟨a, r, rfl⟩
      · rw [hn, hn]
      · rw [concat_cons, concat_cons, concat_cons]; simp
    | succ k ih =>
      rcases strm_cases s with rfl | ⟨a, r, rfl⟩
      · rw [hn, hn]
      · rw [concat_cons, concat_cons, concat_cons]; simpa using ih r
  · refine Seq.ext fun k => ?_
    induction k generalizing s with
    | zero =>
      rcases strm_cases s with rfl | ⟨a, r, rfl⟩
      · exact congrArg (fun s => Seq.get? s _) concat_nil_nil
      · rw [concat_cons]; simp
    | succ k ih =>
      rcases strm_cases s with rfl | ⟨a, r, rfl⟩
      · exact congrArg (fun s => Seq.get? s _) concat_nil_nil
      · rw [concat_cons]; simpa using ih r

/-- **C201, take of streams.** Taking at most `m` and then at most `k` elements is taking the smaller number, taking and transforming
commute. -/
theorem C201_streams_take (m k : Nat) (f : α → β) (s : Strm α) :
    (s.take m).take k = s.take (min m k : Nat) ∧ (s.transform f).take m = (s.take m).transform f := by
  constructor
  · refine Seq.ext fun j => ?_
    induction j generalizing s m k with
    | zero =>
      rcases strm_cases s with rfl | ⟨a, r, rfl⟩
      · simp only [take_nil]
      · cases m with
        | zero => simp only [Nat.zero_min, Nat.cast_zero, take_zero, take_nil]
        | succ m =>
          cases k with
          | zero => simp only [Nat.min_zero, Nat.cast_zero, take_zero]
          | succ k =>
            rw [take_cons _ (by omega), take_cons _ (by omega), take_cons _ (by omega)]
            simp
    | succ j ih =>
      rcases strm_cases s with rfl | ⟨a, r, rfl⟩
      · simp only [take_nil]
      · cases m with
        | zero => simp only [Nat.zero_min, Nat.cast_zero, take_zero, take_nil]
        | succ m =>
          cases k with
          | zero => simp only [Nat.min_zero, Nat.cast_zero, take_zero]
          | succ k =>
            rw [take_cons _ (by omega), take_cons _ (by omega), take_cons _ (by omega)]
            have e1 : ((m + 1 : Nat) : Int) - 1 = (m : Nat) := by omega
            have e2 : ((k + 1 : Nat) : Int) - 1 = (k : Nat) := by omega
            have e3 : ((min (m + 1) (k + 1) : Nat) : Int) - 1 = (min m k : Nat) := by omega
            rw [e1, e2, e3]
            simpa using ih m k r
  · refine Seq.ext fun j => ?_
    induction j generalizing s m with
    | zero =>
      rcases strm_cases s with rfl | ⟨a, r, rfl⟩
      · simp only [transform_nil, take_nil]
      · cases m with
        | zero => simp only [Nat.cast_zero, take_zero, transform_nil]
        | succ m =>
          rw [transform_cons, take_cons _ (by omega), take_cons _ (by omega), transform_cons]
          simp
    | succ j ih =>
      rcases strm_cases s with rfl | ⟨a, r, rfl⟩
      · simp only [transform_nil, take_nil]
      · cases m with
        | zero => simp only [Nat.cast_zero, take_zero, transform_nil]
        | succ m =>
          rw [transform_cons, take_cons _ (by omega), take_cons _ (by omega), transform_cons]
          have e1 : ((m + 1 : Nat) : Int) - 1 = (m : Nat) := by omega
          rw [e1]
          simpa using ih m r

/-- Infinite streams: all even numbers, and after them nothing more. -/
example : ((natsFrom 0).concat (one 7)).transform (fun a => 2 * a) = ((natsFrom 0).transform fun a => 2 * a).concat ((one 7).transform fun a => 2 * a) ∧
    (((natsFrom 0).concat (one 7)).transform (fun a => 2 * a)).get? 1000 = some 2000 := by
  have h := (C201_streams (fun a => 2 * a) (fun a : Nat => a) (natsFrom 0) (one 7) empty).2.1
  refine ⟨h, ?_⟩
  have hc : ∀ (k m : Nat) (t : Strm Nat), ((natsFrom m).concat t).get? k = some (m + k) := by
    intro k
    induction k with
    | zero => intro m t; rw [natsFrom_eq, concat_cons]; simp
    | succ k ih => intro m t; rw [natsFrom_eq, concat_cons]; simp [ih]; omega
  rw [C01_transform_get, hc]
  rfl

end Strm
end Verif
