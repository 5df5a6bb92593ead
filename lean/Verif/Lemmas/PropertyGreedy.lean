import Verif.Lemmas.PropertyLoop
/-
Helper lemmas: the shrink phase of the engine is greedy shrinking.
-/
namespace Verif

namespace Shr
variable {α : Type}

mutual
theorem greedyNode_value (F : α → Bool) : ∀ t : Shr α, (t.greedyNode F).value = t.greedy F
  | .node v ss => by rw [greedyNode, greedy]; exact greedyNodeList_value F (.node v ss) ss
theorem greedyNodeList_value (F : α → Bool) (cur : Shr α) :
    ∀ ss : List (Shr α), (greedyNodeList F cur ss).value = greedyList F cur.value ss
  | [] => by rw [greedyNodeList, greedyList]
  | c :: cs => by
    rw [greedyNodeList, greedyList]
    split
    · exact greedyNode_value F c
    · exact greedyNodeList_value F cur cs
end

mutual
theorem greedyTried_length (F : α → Bool) : ∀ t : Shr α, (t.greedyTried F).length = t.greedyEvals F
  | .node v ss => by rw [greedyTried, greedyEvals]; exact greedyTriedList_length F ss
theorem greedyTriedList_length (F : α → Bool) :
    ∀ ss : List (Shr α), (greedyTriedList F ss).length = greedyEvalsList F ss
  | [] => by rw [greedyTriedList, greedyEvalsList]; rfl
  | c :: cs => by
    rw [greedyTriedList, greedyEvalsList, List.length_cons]
    split
    · rw [greedyTried_length F c]; omega
    · rw [greedyTriedList_length F cs]; omega
end
end Shr

namespace Engine
open PairTuple
variable {n : Nat} {A : Fin n → Type} {σ : Type}

section
variable {c : Cfg σ A} (hq : c.Quiet) {f : Args A → Ev Bool} (hf : c.Pure f)
  {fails : Args A → Bool} (hfails : ∀ a, fails a = true ↔ (f a).Rejects)
include hq hf hfails

mutual
theorem shrinkN_greedy (N : Fin n) : ∀ (t : Shr (A N)) (vals : Tup A) (_ : vals N = t) (s : St σ A) (vals' : Tup A)
    (s' : St σ A) (_ : shrinkN c vals N t s = (.ok vals', s')),
    vals' = Function.update vals N (t.greedyNode fun v => fails (Function.update (Tup.get vals) N v)) ∧
    (calls .shrink s'.trace).map Prod.fst = (calls .shrink s.trace).map Prod.fst ++
      (t.greedyTried fun v => fails (Function.update (Tup.get vals) N v)).map
        (fun v => Function.update (Tup.get vals) N v)
  | .node v ss => by
    intro vals ht s vals' s' h
    rw [shrinkN] at h
    have := shrinkNIter_greedy N ss vals s.fails { s with fails := [] } rfl vals' s' h
    rw [Shr.greedyNode, Shr.greedyTried, ← ht]
    exact this
theorem shrinkNIter_greedy (N : Fin n) : ∀ (ss : List (Shr (A N))) (vals : Tup A) (outer : List String)
    (s : St σ A) (_ : s.fails = []) (vals' : Tup A) (s' : St σ A)
    (_ : shrinkNIter c vals N outer ss s = (.ok vals', s')),
    vals' = Function.update vals N
      (Shr.greedyNodeList (fun v => fails (Function.update (Tup.get vals) N v)) (vals N) ss) ∧
    (calls .shrink s'.trace).map Prod.fst = (calls .shrink s.trace).map Prod.fst ++
      (Shr.greedyTriedList (fun v => fails (Function.update (Tup.get vals) N v)) ss).map
        (fun v => Function.update (Tup.get vals) N v)
  | [] => by
    intro vals outer s _ vals' s' h
    rw [shrinkNIter] at h; beta_reduce at h
    cases h
    rw [Shr.greedyNodeList, Shr.greedyTriedList]
    simp
  | next :: rest => by
    intro vals outer s hs vals' s' h
    rw [shrinkNIter] at h; beta_reduce at h
    obtain ⟨cu, hcu, ht⟩ := test_quiet hq vals N next s _ rfl
    rw [hf] at ht
    set a := Function.update (Tup.get vals) N next.value with ha
    set ev := f a with hev
    rw [ht] at h
    generalize hs1 : (({ s with fails := s.fails ++ ev.fails, trace := cu ++ .call .shrink a ev ::
            (suEv c .shrink ++ s.trace) } : St σ A)) = s1 at h
    have h1f : s1.fails = ev.fails := by rw [← hs1]; simp [hs]
    have h1t : calls .shrink s1.trace = calls .shrink s.trace ++ [(a, ev)] := by
      rw [← hs1]
      simp only [calls_append, hcu, calls_cons, calls_suEv]
      simp [Event.call?]
    rw [Shr.greedyNodeList, Shr.greedyTriedList]
    obtain ⟨result, h, key⟩ : ∃ result,
        (if (!result || !s1.fails.isEmpty) = true then
          shrinkN c (Function.update vals N next) N next { s1 with fails := outer }
        else shrinkNIter c vals N outer rest s1) = (.ok vals', s') ∧
        (((!result || !s1.fails.isEmpty) = true) ↔ ev.Rejects) := by
      rw [h1f]
      simp only [Bool.or_eq_true, Bool.not_eq_true', List.isEmpty_eq_false_iff]
      unfold Ev.Rejects
      cases ho : ev.out with
      | ok b =>
        rw [ho] at h
        simp only [h1f, Bool.or_eq_true, Bool.not_eq_true', List.isEmpty_eq_false_iff] at h
        exact ⟨b, h, by simp⟩
      | throws e =>
        rw [ho] at h
        by_cases he : e.isStd
        · simp only [he, if_true, h1f, Bool.or_eq_true, Bool.not_eq_true', List.isEmpty_eq_false_iff] at h
          exact ⟨false, by simpa using h, by simp [he]⟩
        · simp [he] at h
      | ub => rw [ho] at h; simp at h
      | diverges => rw [ho] at h; simp at h
    by_cases hb : (!result || !s1.fails.isEmpty) = true
    · rw [if_pos hb] at h
      have hrej : fails a = true := (hfails a).mpr (key.mp hb)
      have ih := shrinkN_greedy N next (Function.update vals N next) (by simp) _ vals' s' h
      rw [if_pos hrej, if_pos hrej]
      have e : (fun v => Function.update (Tup.get (Function.update vals N next)) N v) =
          (fun v => Function.update (Tup.get vals) N v) := by
        funext v; exact update_update_get vals N next v
      have e2 : (fun v => fails (Function.update (Tup.get (Function.update vals N next)) N v)) =
          (fun v => fails (Function.update (Tup.get vals) N v)) := by
        funext v; rw [update_update_get]
      rw [e, e2, Function.update_idem] at ih
      refine ⟨ih.1, ?_⟩
      rw [ih.2, h1t]
      simp [ha]
    · rw [if_neg hb] at h
      have hrej : ¬ fails a = true := fun x => hb (key.mpr ((hfails a).mp x))
      have hf1 : s1.fails = [] := by
        simp only [Bool.or_eq_true, Bool.not_eq_true', List.isEmpty_eq_false_iff, not_or, not_not] at hb
        exact hb.2
      have ih := shrinkNIter_greedy N rest vals outer s1 hf1 vals' s' h
      rw [if_neg hrej, if_neg hrej]
      refine ⟨ih.1, ?_⟩
      rw [ih.2, h1t]
      simp [ha]
end

theorem shrinkEach_greedy : ∀ (order : List (Fin n)) (start : Tup A) (s : St σ A) (vals' : Tup A)
    (s' : St σ A) (_ : shrinkEach c order start s = (.ok vals', s')),
    vals' = greedyEach fails order start ∧
    (calls .shrink s'.trace).map Prod.fst = (calls .shrink s.trace).map Prod.fst ++ greedyEachTried fails order start
  | [], start, s, vals', s', h => by
    rw [shrinkEach, Eng.pure_apply] at h
    cases h
    simp [greedyEach, greedyEachTried]
  | M :: rest, start, s, vals', s', h => by
    rw [shrinkEach, Eng.bind_apply, Eng.mk_apply] at h
    cases hM : shrinkN c start M (start M) s with
    | mk o s1 =>
      rw [hM] at h
      cases o with
      | throws e => simp at h
      | ub => simp at h
      | diverges => simp at h
      | ok v1 =>
        simp only at h
        obtain ⟨h1, h2⟩ := shrinkN_greedy hq hf hfails M _ start rfl s v1 s1 hM
        obtain ⟨h3, h4⟩ := shrinkEach_greedy rest v1 s1 vals' s' h
        rw [greedyEach, greedyEachTried]
        have e : v1 = Function.update start M ((start M).greedyNode fun v =>
          fails (Function.update (fun i => (start i).value) M v)) := h1
        rw [← e]
        refine ⟨h3, ?_⟩
        rw [h4, h2, List.append_assoc]
        rfl

end
end Engine
end Verif
