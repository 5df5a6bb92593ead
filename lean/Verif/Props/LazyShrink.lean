import Verif.Lemmas.LazyShrink
import Verif.Props.Property
/-
C173: shrinking when the shrinks are streams that need not end.
-/
namespace Verif
namespace LazyShrink
open Engine Stream' PairTuple
variable {n : Nat} {A : Fin n → Type} {σ α : Type}

/-- C173. Where the shrinks end, however they are computed, shrinking does what it does for finite trees (with enough fuel to
look at each candidate once): all that is shown for finite trees holds. -/
theorem C173_finite (K : (i : Fin n) → Source (A i)) (c : Cfg σ A) (order : List (Fin n)) (fuel : Nat) (xs : LTup K)
    (ts : Tup A) (h : ∀ i, Unfolds (K i) (xs i) (ts i)) (hfuel : ∀ i, Shr.nodes (ts i) ≤ fuel) (s : St σ A) :
    Same K (shrinkEach K c fuel order xs s) (Engine.shrinkEach c order ts s) := by
  induction order generalizing xs ts s with
  | nil => exact ⟨rfl, h⟩
  | cons N rest ih =>
    have hN : Same K (shrinkN K c fuel xs N s) (Engine.shrinkN c ts N (ts N) s) := by
      have hu := h N
      have hn := hfuel N
      generalize hb : ts N = t at hu hn
      cases hu with
      | mk ys hv hs hl hz =>
        rw [shrinkN, hs, Engine.shrinkN]
        exact loop_same K c N s.fails fuel xs ts h ys _ hl hz (by simp only [Shr.nodes] at hn; omega) _
    have hk : ∀ ts' s', Engine.shrinkN c ts N (ts N) s = (.ok ts', s') → ∀ i, Shr.nodes (ts' i) ≤ fuel := by
      exact fun ts' s' h => shrinkN_nodes c N fuel (ts N) ts s ts' s' (hfuel N) hfuel h
    rw [shrinkEach, Engine.shrinkEach, Eng.bind_apply, Eng.mk_apply]
    revert hN hk
    generalize shrinkN K c fuel xs N s = p
    generalize Engine.shrinkN c ts N (ts N) s = q
    intro hN hk
    obtain ⟨o, s1⟩ := p
    obtain ⟨o', s2⟩ := q
    cases o <;> cases o' <;> simp only [Same] at hN
    · obtain ⟨rfl, h2⟩ := hN
      exact ih _ _ h2 (hk _ _ rfl) s1
    · obtain ⟨rfl, rfl⟩ := hN
      exact ⟨rfl, rfl⟩
    · exact hN
    · exact hN

section
variable {c : Cfg σ A} (hq : c.Quiet) {f : Args A → Ev Bool} (hf : c.Pure f)
  {fails : Args A → Bool} (hfails : ∀ a, fails a = true ↔ (f a).Rejects)
  (hret : ∀ a, (∃ b, (f a).out = .ok b) ∨ ∃ e, (f a).out = .throws e ∧ e.isStd = true)
  (K : (i : Fin n) → Source (A i))
include hq hf hfails hret

/-- C173 (partial: if shrinking comes back; the property function has no memory and throws only what derives from
`std::exception`). The argument that is reported is reached from the generated one by taking the first failing shrink again and
again; it fails, its shrinks end and all of them pass. -/
theorem C173_stops_partial (fuel : Nat) (vals vals' : LTup K) (N : Fin n) (s s' : St σ A)
    (h : shrinkN K c fuel vals N s = (.ok vals', s')) (hv : fails (args K vals) = true) :
    (∀ i, i ≠ N → vals' i = vals i) ∧
    Relation.ReflTransGen (FirstFailing (K N) fun v => fails (Function.update (args K vals) N v)) (vals N) (vals' N) ∧
    fails (args K vals') = true ∧
    (∃ k, ((K N).shrinks (vals' N)).get? k = none) ∧
    ∀ k y, ((K N).shrinks (vals' N)).get? k = some y → fails (Function.update (args K vals') N ((K N).value y)) = false := by
  have h1 := loop_search hq hf hfails hret K N s.fails fuel vals ((K N).shrinks (vals N)) { s with fails := [] } rfl
  rw [shrinkN] at h
  rw [h] at h1
  cases hx : search (K N) (fun v => fails (Function.update (args K vals) N v)) fuel (vals N) ((K N).shrinks (vals N)) with
  | none => rw [hx] at h1; cases h1
  | some x =>
    rw [hx] at h1
    cases h1
    obtain ⟨h2, k, h3, h4⟩ := search_some _ _ fuel _ _ hx
    have e : args K (Function.update vals N x) = Function.update (args K vals) N ((K N).value x) := by
      funext i
      by_cases hi : i = N
      · subst hi; simp [args]
      · simp [hi, args]
    simp only [Function.update_self]
    refine ⟨fun i hi => by simp [hi], h2, ?_, ⟨k, h3⟩, ?_⟩
    · rw [e]
      rcases Relation.ReflTransGen.cases_tail h2 with rfl | ⟨w, -, k, -, hk, -⟩
      · rw [← hv]
        congr 1
        funext i
        by_cases hi : i = N
        · subst hi; simp [args]
        · simp [hi]
      · exact hk
    · intro k y hy
      rw [e, Function.update_idem]
      exact h4 k y hy

/-- C173. Exactly when shrinking never comes back, whatever the limit on the duration is: when taking the first failing shrink
again and again leads to shrinks without end that all pass, or has no end itself. -/
theorem C173_never_exactly (vals : LTup K) (N : Fin n) (s : St σ A) :
    (∀ fuel, (shrinkN K c fuel vals N s).1 = .diverges) ↔
      ((∃ y, Relation.ReflTransGen (FirstFailing (K N) fun v => fails (Function.update (args K vals) N v)) (vals N) y ∧
          Endless (K N) (fun v => fails (Function.update (args K vals) N v)) y) ∨
        ∃ g : Nat → (K N).X, g 0 = vals N ∧
          ∀ k, FirstFailing (K N) (fun v => fails (Function.update (args K vals) N v)) (g k) (g (k + 1))) := by
  rw [← search_never]
  refine forall_congr' fun fuel => ?_
  rw [shrinkN, loop_search hq hf hfails hret K N s.fails fuel vals _ _ rfl]
  cases search (K N) (fun v => fails (Function.update (args K vals) N v)) fuel (vals N) ((K N).shrinks (vals N)) <;> simp

/-- C173, violated. For every property that fails for some arguments there are shrinkables with these arguments for which
shrinking never comes back: ones whose shrinks lead from failing arguments to failing arguments without end, and, if changing
one argument makes the property pass, ones with shrinks without end that all pass. -/
theorem C173_never_violated (a : Args A) (N : Fin n) (ha : fails a = true) :
    (∃ (K : (i : Fin n) → Source (A i)) (vals : LTup K), args K vals = a ∧
      ∀ (s : St σ A) (fuel : Nat), (shrinkN K c fuel vals N s).1 = .diverges) ∧
    ∀ w : A N, fails (Function.update a N w) = false →
      ∃ (K : (i : Fin n) → Source (A i)) (vals : LTup K), args K vals = a ∧
        (∀ k, ∃ z, ((K N).shrinks (vals N)).get? k = some z ∧ (K N).shrinks z = Seq.nil) ∧
        ∀ (s : St σ A) (fuel : Nat), (shrinkN K c fuel vals N s).1 = .diverges := by
  refine ⟨⟨fun i => ⟨Unit, fun _ => a i, fun _ => Seq.ofList [()]⟩, fun _ => (), rfl, fun s => ?_⟩, fun w hw => ?_⟩
  · refine (C173_never_exactly hq hf hfails hret _ _ N s).2 (.inr ⟨fun _ => (), rfl, fun k => ⟨0, rfl, ?_, fun j hj => by omega⟩⟩)
    have : Function.update (args (fun i => (⟨Unit, fun _ => a i, fun _ => Seq.ofList [()]⟩ : Source (A i))) fun _ => ()) N (a N) = a :=
      Function.update_eq_self N a
    simp only [this]
    exact ha
  · refine ⟨fun i => ⟨Bool, fun b => if b then a i else Function.update a N w i,
      fun b => if b then Seq.ofStream (Stream'.const false) else Seq.nil⟩, fun _ => true, rfl, fun k => ⟨false, rfl, rfl⟩, fun s => ?_⟩
    refine (C173_never_exactly hq hf hfails hret _ _ N s).2 (.inl ⟨_, .refl, fun k => ⟨false, rfl, ?_⟩⟩)
    simp only [Bool.false_eq_true, if_false, Function.update_self]
    exact hw

end

/-! Examples: one number, which must be below 5; a failing number shrinks to the next smaller ones, by a function. -/

/-- A number shrinks to all smaller ones, the largest first, or, if `endless`, to 0, 0, 0, ... -/
def smaller (endless : Bool) : Source Nat where
  X := Nat
  value := id
  shrinks := fun x => if endless then Seq.ofStream (Stream'.const 0) else Seq.ofList (List.range x).reverse

/-- The property. -/
def below5 : Cfg Nat (fun _ : Fin 1 => Nat) := demo (fun _ => .leaf 0) (fun x => returns (decide (x < 5))) 1

theorem below5_quiet : below5.Quiet := (demo_setting _ _ _).quiet
theorem below5_pure : below5.Pure (fun a => returns (decide (a 0 < 5))) := fun _ _ => rfl
theorem below5_fails (a : Args fun _ : Fin 1 => Nat) : decide (5 ≤ a 0) = true ↔ (returns (decide (a 0 < 5))).Rejects := by
  simp [Ev.Rejects, returns]
theorem below5_returns (a : Args fun _ : Fin 1 => Nat) : (∃ b, (returns (decide (a 0 < 5))).out = .ok b) ∨
    ∃ e, (returns (decide (a 0 < 5))).out = .throws e ∧ e.isStd = true := .inl ⟨_, rfl⟩

/-- Shrinking 7 (a computed tree) with the finite tree 7, 6, ... of the same shrinks gives the same. -/
example : ∃ t : Shr Nat, Unfolds (smaller false) (2 : Nat) t ∧ t = .node 2 [.node 1 [.node 0 []], .node 0 []] := by
  have h0 : Unfolds (smaller false) (0 : Nat) (.node 0 []) := .mk [] rfl rfl rfl (by simp)
  have h1 : Unfolds (smaller false) (1 : Nat) (.node 1 [.node 0 []]) := by
    refine .mk [(0 : Nat)] rfl rfl rfl ?_
    intro i y t h1 h2
    match i with
    | 0 => cases h1; cases h2; exact h0
    | i + 1 => cases h1
  refine ⟨_, .mk [(1 : Nat), (0 : Nat)] rfl rfl rfl ?_, rfl⟩
  intro i y t e1 e2
  match i with
  | 0 => cases e1; cases e2; exact h1
  | 1 => cases e1; cases e2; exact h0
  | i + 2 => cases e1

example (c : Cfg Nat fun _ : Fin 1 => Nat) (s : St Nat fun _ : Fin 1 => Nat) :
    Same (fun _ => smaller false) (shrinkEach (fun _ => smaller false) c 5 [0] (fun _ => (1 : Nat)) s)
      (Engine.shrinkEach c [0] (fun _ => .node 1 [.node 0 []]) s) := by
  refine C173_finite (fun _ => smaller false) c [0] 5 _ _ (fun _ => ?_) (fun _ => by decide) s
  refine .mk [(0 : Nat)] rfl rfl rfl ?_
  intro i y t h1 h2
  match i with
  | 0 => cases h1; cases h2; exact .mk [] rfl rfl rfl (by simp)
  | i + 1 => cases h1

example : ∃ (K : (i : Fin 1) → Source Nat) (vals : LTup K), args K vals = (fun _ => 7) ∧
    ∀ (s : St Nat fun _ : Fin 1 => Nat) (fuel : Nat), (shrinkN K below5 fuel vals 0 s).1 = .diverges :=
  (C173_never_violated below5_quiet below5_pure below5_fails below5_returns (fun _ => 7) 0 (by decide)).1

example (vals' : LTup fun _ : Fin 1 => smaller false) (s s' : St Nat fun _ : Fin 1 => Nat)
    (h : shrinkN (fun _ => smaller false) below5 20 (fun _ => (7 : Nat)) 0 s = (.ok vals', s')) :
    decide (5 ≤ (smaller false).value (vals' 0)) = true :=
  (C173_stops_partial below5_quiet below5_pure below5_fails below5_returns (fun _ => smaller false) 20 (fun _ => (7 : Nat)) vals' 0 s s'
    h (by decide)).2.2.1

example : ∃ vals' s', shrinkN (fun _ : Fin 1 => smaller false) below5 20 (fun _ => (7 : Nat)) 0 ⟨0, 0, 0, [], []⟩ = (.ok vals', s') ∧
    (smaller false).value (vals' 0) = 5 := ⟨_, _, rfl, rfl⟩

example (s : St Nat fun _ : Fin 1 => Nat) (fuel : Nat) :
    (shrinkN (fun _ => smaller true) below5 fuel (fun _ => (7 : Nat)) 0 s).1 = .diverges :=
  (C173_never_exactly below5_quiet below5_pure below5_fails below5_returns (fun _ => smaller true) (fun _ => (7 : Nat)) 0 s).2
    (.inl ⟨_, .refl, fun k => ⟨(0 : Nat), rfl, by simp [smaller]⟩⟩) fuel

end LazyShrink
end Verif
