import Verif.Lemmas.Live
import Verif.Model.Drawing
namespace Verif
namespace Live
open Comb
variable {σ α β : Type}

/-- The reformatting of a pair. -/
abbrev re (p : α × LShr σ β) (s : σ) : Outcome ((α × β) × σ) := .ok ((p.1, p.2.value), s)
/-- The stream of pairs for the shrinks `cs` of the first component. -/
abbrev pairs (f : α → Gen σ β) (cs : List (Shr α)) (s : σ) : Run σ (α × β) :=
  (((ofList cs s).flatMap (inter fun v => ofGen (f v))).andThen expand).flatMap re

mutual
theorem second_shrink (fails : α × β → Bool) (v : α) : ∀ (u : Shr β) (s : σ),
    search fails (v, u.value) (((ofShrinks u s).flatMap fun w s => .ok ((v, (leaf w : LShr σ β)), s)).flatMap re) =
      .ok ((v, u.greedy fun b => fails (v, b)), s)
  | .node w ss, s => by
    simp only [ofShrinks, Shr.greedy, Shr.value]
    exact second_list fails v w ss s
theorem second_list (fails : α × β → Bool) (v : α) : ∀ (w : β) (us : List (Shr β)) (s : σ),
    search fails (v, w) (((ofList us s).flatMap fun w s => .ok ((v, (leaf w : LShr σ β)), s)).flatMap re) =
      .ok ((v, Shr.greedyList (fun b => fails (v, b)) w us), s)
  | w, [], s => by simp [ofList, Run.flatMap, search, Shr.greedyList]
  | w, u :: us, s => by
    have hst : ((((ofList us s).flatMap fun w s => .ok ((v, (leaf w : LShr σ β)), s)).flatMap re).state) = .ok s := by
      cases us <;> simp [ofList, Run.flatMap, Run.after, Run.state]
    simp only [ofList, Run.flatMap, Run.after, search, hst, Shr.greedyList]
    split
    · rename_i h
      rw [if_pos (show fails (v, u.value) = true from h)]
      exact second_shrink fails v u s
    · rename_i h
      rw [if_neg (show ¬fails (v, u.value) = true from h)]
      exact second_list fails v w us s
end

theorem evalShrink_eq (f : α → Gen σ β) (c : Shr α) (s : σ) : Drawing.evalShrink f c s = (do
    let (u, s) ← f c.value s
    let s ← ((ofShrinks c s).flatMap (inter fun v => ofGen (f v))).state
    pure (u, s)) := by
  simp only [Drawing.evalShrink]
  cases f c.value s with
  | ok x =>
    obtain ⟨u, s⟩ := x
    simp only [Outcome.ok_bind]
    obtain ⟨v, ss⟩ := c
    cases ss with
    | nil => simp [ofShrinks, ofList, Run.flatMap, Run.state, peek, Shr.shrinks]
    | cons d ds =>
      simp only [Shr.shrinks, peek, ofShrinks, ofList, Run.flatMap, inter, ofGen]
      cases f d.value s <;> simp [Run.after, Run.state, Outcome.bind]
  | _ => rfl

/-- One step of the stream of pairs. -/
theorem pairs_cons (f : α → Gen σ β) (c : Shr α) (cs : List (Shr α)) (s : σ) :
    pairs f (c :: cs) s = Run.after (Drawing.evalShrink f c s) fun u s => .cons s (c.value, u.value)
      (fun s => if c.shrinks = [] then ((ofShrinks u s).flatMap fun w s => .ok ((c.value, (leaf w : LShr σ β)), s)).flatMap re
        else pairs f c.shrinks s) (pairs f cs) := by
  classical
  rw [evalShrink_eq]
  simp only [pairs, ofList, Run.flatMap, inter, ofGen]
  cases f c.value s with
  | ok x =>
    obtain ⟨u, s⟩ := x
    simp only [Outcome.ok_bind, Outcome.pure_eq, Run.after, Run.andThen]
    obtain ⟨v, ss⟩ := c
    cases ss with
    | nil => simp [ofShrinks, ofList, Run.flatMap, Run.state, Run.isEmpty, expand, ofShr, Shr.value, Shr.shrinks, Run.after]
    | cons d ds =>
      simp only [ofShrinks, ofList, Run.flatMap, inter, ofGen, Shr.shrinks]
      cases f d.value s with
      | ok y => simp [Run.after, Run.state, Run.isEmpty, Run.flatMap, ofShr, Shr.value]
      | _ => simp [Run.after, Run.state, Run.flatMap, Outcome.bind]
  | _ => simp [Run.after, Run.andThen, Run.flatMap]

mutual
theorem walk_agrees (f : α → Gen σ β) (fails : α × β → Bool) : ∀ (t : Shr α) (u : Shr β) (s : σ),
    Drawing.walk f fails t u s = search fails (t.value, u.value)
      (if t.shrinks = [] then ((ofShrinks u s).flatMap fun w s => .ok ((t.value, (leaf w : LShr σ β)), s)).flatMap re
        else pairs f t.shrinks s)
  | .node v ss, u, s => by
    unfold Drawing.walk
    cases ss with
    | nil => simp only [Shr.shrinks, List.isEmpty_nil, ↓reduceIte, Shr.value]; exact (second_shrink fails v u s).symm
    | cons d ds =>
      simp only [Shr.shrinks, List.isEmpty_cons, Bool.false_eq_true, ↓reduceIte, Shr.value, reduceCtorEq]
      exact (search_agrees f fails (v, u.value) (d :: ds) s).1
theorem search_agrees (f : α → Gen σ β) (fails : α × β → Bool) (cur : α × β) : ∀ (cs : List (Shr α)) (s : σ),
    Drawing.search f fails cur cs none s = search fails cur (pairs f cs s) ∧
    ∀ x, Drawing.search f fails cur cs (some x) s =
      match (pairs f cs s).state with
      | .ok s' => if fails x.1 then x.2 s' else search fails cur (pairs f cs s)
      | .throws e => .throws e
      | .ub => .ub
      | .diverges => .diverges
  | [], s => by
    constructor
    · simp [Drawing.search, pairs, ofList, Run.flatMap, Run.andThen, search]
    · intro x
      simp [Drawing.search, pairs, ofList, Run.flatMap, Run.andThen, search, Run.state]
  | c :: cs, s => by
    rw [pairs_cons]
    unfold Drawing.search
    cases h : Drawing.evalShrink f c s with
    | ok y =>
      obtain ⟨u, s'⟩ := y
      simp only [Outcome.ok_bind, Run.after]
      have key : Drawing.search f fails cur cs (some ((c.value, u.value), fun s => Drawing.walk f fails c u s)) s' =
          search fails cur (.cons s' (c.value, u.value)
      (fun s => if c.shrinks = [] then ((ofShrinks u s).flatMap fun w s => .ok ((c.value, (leaf w : LShr σ β)), s)).flatMap re
        else pairs f c.shrinks s) (pairs f cs)) := by
        rw [(search_agrees f fails cur cs s').2]
        simp only [search]
        cases (pairs f cs s').state with
        | ok s2 =>
          simp only
          split
          · exact walk_agrees f fails c u s2
          · rfl
        | _ => rfl
      refine ⟨key, fun x => ?_⟩
      simp only [Run.state]
      split
      · rfl
      · exact key
    | _ => simp [Run.after, search, Outcome.bind, Run.state]
end

/-- Generation of a pair. -/
theorem dependency_agrees (gen1 : Gen σ α) (f : α → Gen σ β) (s : σ) :
    dependency (ofGen gen1) (fun v => ofGen (f v)) s = (do
      let (t, s) ← gen1 s
      let (u, s) ← f t.value s
      let s ← peek f t.shrinks s
      pure (⟨(t.value, u.value), fun s =>
        if t.shrinks = [] then ((ofShrinks u s).flatMap fun w s => .ok ((t.value, (leaf w : LShr σ β)), s)).flatMap re
        else pairs f t.shrinks s⟩, s)) := by
  classical
  simp only [dependency, dependent, ofGen]
  cases gen1 s with
  | ok x =>
    obtain ⟨⟨v, ss⟩, s⟩ := x
    simp only [Outcome.ok_bind, Outcome.pure_eq, LShr.flatMap, inter, ofGen, ofShr, Shr.value, Shr.shrinks]
    cases f v s with
    | ok y =>
      obtain ⟨u, s⟩ := y
      simp only [Outcome.ok_bind, Outcome.pure_eq, LShr.andThen]
      cases ss with
      | nil => simp [ofShrinks, ofList, Run.flatMap, Run.state, Run.isEmpty, peek, expand]
      | cons d ds =>
        simp only [ofShrinks, ofList, Run.flatMap, peek, inter, ofGen]
        cases f d.value s with
        | ok z =>
          simp [Run.after, Run.state, Run.isEmpty]
          rfl
        | _ => simp [Run.after, Run.state, Outcome.bind]
    | _ => rfl
  | _ => rfl

theorem shrink_agrees (gen1 : Gen σ α) (f : α → Gen σ β) (fails : α × β → Bool) (s : σ) :
    shrink (dependency (ofGen gen1) fun v => ofGen (f v)) fails s = Drawing.shrinkPair gen1 f fails s := by
  simp only [shrink, dependency_agrees, Drawing.shrinkPair]
  cases gen1 s with
  | ok x =>
    obtain ⟨t, s⟩ := x
    simp only [Outcome.ok_bind]
    cases f t.value s with
    | ok y =>
      obtain ⟨u, s⟩ := y
      simp only [Outcome.ok_bind]
      cases peek f t.shrinks s with
      | ok s => simp only [Outcome.ok_bind, Outcome.pure_eq]; exact (walk_agrees f fails t u s).symm
      | _ => rfl
    | _ => rfl
  | _ => rfl

end Live
end Verif
