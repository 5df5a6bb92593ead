import Mathlib.Data.Seq.Basic
import Mathlib.Logic.Relation
import Verif.Lemmas.PropertyGreedy
import Verif.Props.Stream
import Verif.Spec.LazyShrink
/-
Helper lemmas: shrinking with streams of shrinks.
-/
namespace Verif
namespace LazyShrink
open Engine Stream' PairTuple
variable {n : Nat} {A : Fin n → Type} {σ α : Type}

theorem Unfolds.value {K : Source α} {x : K.X} {t : Shr α} (h : Unfolds K x t) : K.value x = t.value := by
  cases h; assumption

theorem test_congr (c : Cfg σ A) {vals vals' : Tup A} (N : Fin n) {a b : Shr (A N)} (h : Tup.get vals = Tup.get vals')
    (hab : a.value = b.value) (s : St σ A) : test c vals N a s = test c vals' N b s := by
  unfold test
  rw [h, hab]

theorem unfolds_update {K : (i : Fin n) → Source (A i)} {xs : LTup K} {ts : Tup A} (h : ∀ i, Unfolds (K i) (xs i) (ts i))
    {N : Fin n} {y : (K N).X} {t : Shr (A N)} (hy : Unfolds (K N) y t) (i : Fin n) :
    Unfolds (K i) (Function.update xs N y i) (Function.update ts N t i) := by
  by_cases hi : i = N
  · subst hi; simpa using hy
  · simpa [hi] using h i

theorem loop_same (K : (i : Fin n) → Source (A i)) (c : Cfg σ A) (N : Fin n) (outer : List String) (fuel : Nat)
    (xs : LTup K) (ts : Tup A) (h : ∀ i, Unfolds (K i) (xs i) (ts i)) (ys : List (K N).X) (ss : List (Shr (A N)))
    (hl : ys.length = ss.length)
    (hu : ∀ (i : Nat) (y : (K N).X) (t : Shr (A N)), ys[i]? = some y → ss[i]? = some t → Unfolds (K N) y t)
    (hfuel : Shr.nodes.go ss < fuel) (s : St σ A) :
    Same K (loop K c N outer fuel xs (Seq.ofList ys) s) (shrinkNIter c ts N outer ss s) := by
  induction fuel generalizing xs ts ys ss s with
  | zero => omega
  | succ fuel ih =>
    cases ss with
    | nil =>
      cases ys with
      | cons y ys => simp at hl
      | nil =>
        simp only [loop, Seq.ofList_nil, Seq.destruct_nil, shrinkNIter]
        exact ⟨rfl, h⟩
    | cons t ss =>
      cases ys with
      | nil => simp at hl
      | cons y ys =>
        have hy := hu 0 y t rfl rfl
        simp only [loop, Seq.ofList_cons, Seq.destruct_cons, shrinkNIter]
        have ht : test c (seen K xs) N (.leaf ((K N).value y)) s = test c ts N t s := by
          apply test_congr
          · funext i
            exact (h i).value
          · exact hy.value
        rw [ht]
        have hn : 1 ≤ Shr.nodes t := by cases t; simp only [Shr.nodes]; omega
        simp only [Shr.nodes.go] at hfuel
        obtain ⟨o, s1⟩ := test c ts N t s
        cases o with
        | ok r =>
          simp only
          split
          · cases hy with
            | mk zs hv hs hl' hz =>
              rw [hs, Engine.shrinkN]
              refine ih _ _ (unfolds_update h (.mk zs hv hs hl' hz)) zs _ hl' hz ?_ _
              simp only [Shr.nodes] at hfuel
              omega
          · refine ih _ _ h ys ss (by simpa using hl) (fun i y t h1 h2 => hu (i + 1) y t (by simpa using h1) (by simpa using h2)) ?_ _
            omega
        | throws e => exact ⟨rfl, rfl⟩
        | ub => rfl
        | diverges => rfl

mutual
theorem shrinkN_nodes (c : Cfg σ A) (N : Fin n) (B : Nat) : ∀ (t : Shr (A N)) (vals : Tup A) (s : St σ A) (vals' : Tup A)
    (s' : St σ A), Shr.nodes t ≤ B → (∀ i, Shr.nodes (vals i) ≤ B) → Engine.shrinkN c vals N t s = (.ok vals', s') →
    ∀ i, Shr.nodes (vals' i) ≤ B
  | .node v ss, vals, s, vals', s', ht, hv, h => by
    rw [Engine.shrinkN] at h
    simp only [Shr.nodes] at ht
    exact shrinkNIter_nodes c N B s.fails ss vals _ vals' s' (by omega) hv h
theorem shrinkNIter_nodes (c : Cfg σ A) (N : Fin n) (B : Nat) (outer : List String) : ∀ (ss : List (Shr (A N))) (vals : Tup A)
    (s : St σ A) (vals' : Tup A) (s' : St σ A), Shr.nodes.go ss ≤ B → (∀ i, Shr.nodes (vals i) ≤ B) →
    shrinkNIter c vals N outer ss s = (.ok vals', s') → ∀ i, Shr.nodes (vals' i) ≤ B
  | [], vals, s, vals', s', _, hv, h => by
    rw [shrinkNIter] at h; beta_reduce at h
    cases h
    exact hv
  | List.cons t ss, vals, s, vals', s', hs, hv, h => by
    simp only [Shr.nodes.go] at hs
    rw [shrinkNIter] at h; beta_reduce at h
    split at h
    · split at h
      · refine shrinkN_nodes c N B t _ _ vals' s' (by omega) ?_ h
        intro i
        by_cases hi : i = N
        · subst hi; simp only [Function.update_self]; omega
        · simpa [hi] using hv i
      · exact shrinkNIter_nodes c N B outer ss vals _ vals' s' (by omega) hv h
    all_goals cases h
end

section
variable {c : Cfg σ A} (hq : c.Quiet) {f : Args A → Ev Bool} (hf : c.Pure f)
  {fails : Args A → Bool} (hfails : ∀ a, fails a = true ↔ (f a).Rejects)
  (hret : ∀ a, (∃ b, (f a).out = .ok b) ∨ ∃ e, (f a).out = .throws e ∧ e.isStd = true)
include hq hf hfails hret

theorem test_decides (vals : Tup A) (N : Fin n) (next : Shr (A N)) (s : St σ A) (hs : s.fails = []) :
    ∃ r s', test c vals N next s = (.ok r, s') ∧
      ((!r || !s'.fails.isEmpty) = fails (Function.update (Tup.get vals) N next.value)) := by
  obtain ⟨cu, hcu, ht⟩ := test_quiet hq vals N next s _ rfl
  rw [hf] at ht
  set a := Function.update (Tup.get vals) N next.value with ha
  set ev := f a with hev
  have key : ∀ r : Bool, ((r = false ∨ ev.fails ≠ []) ↔ ev.Rejects) → ((!r || !(s.fails ++ ev.fails).isEmpty) = fails a) := by
    intro r hr
    rw [Bool.eq_iff_iff, hfails, ← hr]
    simp [hs]
  rcases hret a with ⟨b, hb⟩ | ⟨e, he, hstd⟩
  · rw [← hev] at hb
    refine ⟨b, _, by rw [ht, hb], ?_⟩
    refine key b ?_
    unfold Ev.Rejects
    rw [hb]
    simp
  · rw [← hev] at he
    refine ⟨false, _, by rw [ht, he]; simp [hstd]; rfl, ?_⟩
    refine key false ?_
    unfold Ev.Rejects
    rw [he]
    simp [hstd]

end

/-- What the loops amount to if the property function has no memory. -/
def search (K : Source α) (bad : α → Bool) : Nat → K.X → Strm K.X → Option K.X
  | 0, _, _ => none
  | fuel + 1, cur, str =>
    match str.destruct with
    | none => some cur
    | some (y, r) => if bad (K.value y) then search K bad fuel y (K.shrinks y) else search K bad fuel cur r

section search
variable (K : Source α) (bad : α → Bool)

/-- The first `k` candidates pass. -/
theorem search_pass (k fuel : Nat) (cur : K.X) (str : Strm K.X)
    (h : ∀ j < k, ∃ z, str.get? j = some z ∧ bad (K.value z) = false) :
    search K bad (k + fuel) cur str = search K bad fuel cur (str.drop k) := by
  induction k generalizing str with
  | zero => rw [Nat.zero_add]; rfl
  | succ k ih =>
    rcases strm_cases str with rfl | ⟨y, r, rfl⟩
    · obtain ⟨z, hz, -⟩ := h 0 (by omega)
      simp at hz
    · obtain ⟨z, hz, hb⟩ := h 0 (by omega)
      simp only [Seq.get?_cons_zero, Option.some.injEq] at hz
      subst hz
      rw [show k + 1 + fuel = (k + fuel) + 1 by omega]
      simp only [search, Seq.destruct_cons, hb, Bool.false_eq_true, if_false]
      rw [ih r (fun j hj => by simpa using h (j + 1) (by omega))]
      rw [Seq.drop_succ_cons]

theorem search_none (k fuel : Nat) (cur : K.X) (str : Strm K.X) (hk : fuel ≤ k)
    (h : ∀ j < k, ∃ z, str.get? j = some z ∧ bad (K.value z) = false) : search K bad fuel cur str = none := by
  have := search_pass K bad fuel 0 cur str (fun j hj => h j (by omega))
  rw [Nat.add_zero] at this
  rw [this]
  rfl

/-- A stream ends with all passing, or has a first element that fails, or goes on with all passing. -/
theorem three_ways (str : Strm K.X) :
    (∃ k, str.get? k = none ∧ ∀ j < k, ∃ z, str.get? j = some z ∧ bad (K.value z) = false) ∨
    (∃ k y, str.get? k = some y ∧ bad (K.value y) = true ∧ ∀ j < k, ∃ z, str.get? j = some z ∧ bad (K.value z) = false) ∨
    (∀ k, ∃ z, str.get? k = some z ∧ bad (K.value z) = false) := by
  by_cases h : ∃ k, ¬ ∃ z, str.get? k = some z ∧ bad (K.value z) = false
  · classical
    have h1 := Nat.find_spec h
    have h2 : ∀ j < Nat.find h, ∃ z, str.get? j = some z ∧ bad (K.value z) = false :=
      fun j hj => not_not.1 (Nat.find_min h hj)
    generalize Nat.find h = k at h1 h2
    cases hk : str.get? k with
    | none => exact .inl ⟨k, hk, h2⟩
    | some y =>
      refine .inr (.inl ⟨k, y, hk, ?_, h2⟩)
      by_contra hb
      exact h1 ⟨y, hk, by simpa using hb⟩
  · exact .inr (.inr fun k => not_not.1 fun hk => h ⟨k, hk⟩)

theorem get_before {str : Strm K.X} {k : Nat} {y : K.X} (h : str.get? k = some y) {j : Nat} (hj : j ≤ k) :
    ∃ z, str.get? j = some z := by
  cases hz : str.get? j with
  | some z => exact ⟨z, rfl⟩
  | none => rw [Seq.le_stable str hj hz] at h; cases h

theorem firstFailing_iff (x y : K.X) : FirstFailing K bad x y ↔ ∃ k, (K.shrinks x).get? k = some y ∧ bad (K.value y) = true ∧
    ∀ j < k, ∃ z, (K.shrinks x).get? j = some z ∧ bad (K.value z) = false := by
  constructor
  · rintro ⟨k, h1, h2, h3⟩
    refine ⟨k, h1, h2, fun j hj => ?_⟩
    obtain ⟨z, hz⟩ := get_before K h1 (Nat.le_of_lt hj)
    exact ⟨z, hz, h3 j hj z hz⟩
  · rintro ⟨k, h1, h2, h3⟩
    refine ⟨k, h1, h2, fun j hj z hz => ?_⟩
    obtain ⟨z', hz', hb⟩ := h3 j hj
    rw [hz] at hz'
    cases hz'
    exact hb

theorem search_end (k fuel : Nat) (cur : K.X) (str : Strm K.X) (hk : str.get? k = none)
    (h : ∀ j < k, ∃ z, str.get? j = some z ∧ bad (K.value z) = false) : search K bad (k + (fuel + 1)) cur str = some cur := by
  rw [search_pass K bad k _ cur str h]
  have : (str.drop k).get? 0 = none := by rw [Seq.drop_get?]; exact hk
  rcases strm_cases (str.drop k) with e | ⟨a, r, e⟩
  · rw [e]; rfl
  · rw [e] at this; simp at this

theorem search_first (k fuel : Nat) (cur y : K.X) (str : Strm K.X) (hk : str.get? k = some y) (hy : bad (K.value y) = true)
    (h : ∀ j < k, ∃ z, str.get? j = some z ∧ bad (K.value z) = false) :
    search K bad (k + (fuel + 1)) cur str = search K bad fuel y (K.shrinks y) := by
  rw [search_pass K bad k _ cur str h]
  have : (str.drop k).get? 0 = some y := by rw [Seq.drop_get?]; exact hk
  rcases strm_cases (str.drop k) with e | ⟨a, r, e⟩
  · rw [e] at this; simp at this
  · rw [e] at this
    simp only [Seq.get?_cons_zero, Option.some.injEq] at this
    subst this
    rw [e]
    simp only [search, Seq.destruct_cons, hy, if_true]

/-- What is found. -/
theorem search_some (fuel : Nat) (x r : K.X) (h : search K bad fuel x (K.shrinks x) = some r) :
    Relation.ReflTransGen (FirstFailing K bad) x r ∧
    (∃ k, (K.shrinks r).get? k = none ∧ ∀ j z, (K.shrinks r).get? j = some z → bad (K.value z) = false) := by
  induction fuel using Nat.strong_induction_on generalizing x with
  | _ fuel ih =>
    rcases three_ways K bad (K.shrinks x) with ⟨k, h1, h2⟩ | ⟨k, y, h1, h2, h3⟩ | h1
    · rcases Nat.lt_or_ge k fuel with hk | hk
      · obtain ⟨m, rfl⟩ : ∃ m, fuel = k + (m + 1) := ⟨fuel - k - 1, by omega⟩
        rw [search_end K bad k m x _ h1 h2] at h
        cases h
        refine ⟨.refl, k, h1, fun j z hz => ?_⟩
        rcases Nat.lt_or_ge j k with hj | hj
        · obtain ⟨z', hz', hb⟩ := h2 j hj
          rw [hz] at hz'
          cases hz'
          exact hb
        · rw [Seq.le_stable _ hj h1] at hz; cases hz
      · rw [search_none K bad k fuel x _ hk h2] at h; cases h
    · rcases Nat.lt_or_ge k fuel with hk | hk
      · obtain ⟨m, rfl⟩ : ∃ m, fuel = k + (m + 1) := ⟨fuel - k - 1, by omega⟩
        rw [search_first K bad k m x y _ h1 h2 h3] at h
        obtain ⟨h4, h5⟩ := ih m (by omega) y h
        exact ⟨.head ((firstFailing_iff K bad x y).2 ⟨k, h1, h2, h3⟩) h4, h5⟩
      · rw [search_none K bad k fuel x _ hk h3] at h; cases h
    · rw [search_none K bad fuel fuel x _ (Nat.le_refl _) (fun j _ => h1 j)] at h; cases h

/-- When nothing is ever found. -/
theorem search_never (x : K.X) : (∀ fuel, search K bad fuel x (K.shrinks x) = none) ↔
    ((∃ y, Relation.ReflTransGen (FirstFailing K bad) x y ∧ Endless K bad y) ∨
     ∃ f : Nat → K.X, f 0 = x ∧ ∀ k, FirstFailing K bad (f k) (f (k + 1))) := by
  constructor
  · intro h
    by_cases hE : ∃ y, Relation.ReflTransGen (FirstFailing K bad) x y ∧ Endless K bad y
    · exact .inl hE
    right
    let D := { y : K.X // Relation.ReflTransGen (FirstFailing K bad) x y ∧ ∀ fuel, search K bad fuel y (K.shrinks y) = none }
    have step : ∀ d : D, ∃ e : D, FirstFailing K bad d.1 e.1 := by
      rintro ⟨y, hy, hn⟩
      rcases three_ways K bad (K.shrinks y) with ⟨k, h1, h2⟩ | ⟨k, z, h1, h2, h3⟩ | h1
      · have := hn (k + (0 + 1))
        rw [search_end K bad k 0 y _ h1 h2] at this
        cases this
      · have hf := (firstFailing_iff K bad y z).2 ⟨k, h1, h2, h3⟩
        refine ⟨⟨z, hy.tail hf, fun m => ?_⟩, hf⟩
        have := hn (k + (m + 1))
        rwa [search_first K bad k m y z _ h1 h2 h3] at this
      · exact absurd ⟨y, hy, h1⟩ hE
    choose g hg using step
    refine ⟨fun k => (g^[k] ⟨x, .refl, h⟩).1, rfl, fun k => ?_⟩
    show FirstFailing K bad (g^[k] ⟨x, .refl, h⟩).1 (g^[k + 1] ⟨x, .refl, h⟩).1
    rw [Function.iterate_succ_apply']
    exact hg _
  · rintro (⟨y, hy, hE⟩ | ⟨f, rfl, hf⟩) fuel
    · induction hy using Relation.ReflTransGen.head_induction_on generalizing fuel with
      | refl => exact search_none K bad fuel fuel y _ (Nat.le_refl _) (fun j _ => hE j)
      | @head a b h1 _ ih =>
        obtain ⟨k, h2, h3, h4⟩ := (firstFailing_iff K bad a b).1 h1
        rcases Nat.lt_or_ge k fuel with hk | hk
        · obtain ⟨m, rfl⟩ : ∃ m, fuel = k + (m + 1) := ⟨fuel - k - 1, by omega⟩
          rw [search_first K bad k m a b _ h2 h3 h4]
          exact ih m
        · exact search_none K bad k fuel a _ hk h4
    · suffices ∀ i, search K bad fuel (f i) (K.shrinks (f i)) = none from this 0
      induction fuel using Nat.strong_induction_on with
      | _ fuel ih =>
        intro i
        obtain ⟨k, h2, h3, h4⟩ := (firstFailing_iff K bad _ _).1 (hf i)
        rcases Nat.lt_or_ge k fuel with hk | hk
        · obtain ⟨m, rfl⟩ : ∃ m, fuel = k + (m + 1) := ⟨fuel - k - 1, by omega⟩
          rw [search_first K bad k m _ _ _ h2 h3 h4]
          exact ih m (by omega) (i + 1)
        · exact search_none K bad k fuel _ _ hk h4

end search

section
variable {c : Cfg σ A} (hq : c.Quiet) {f : Args A → Ev Bool} (hf : c.Pure f)
  {fails : Args A → Bool} (hfails : ∀ a, fails a = true ↔ (f a).Rejects)
  (hret : ∀ a, (∃ b, (f a).out = .ok b) ∨ ∃ e, (f a).out = .throws e ∧ e.isStd = true)
  (K : (i : Fin n) → Source (A i))
include hq hf hfails hret

theorem loop_search (N : Fin n) (outer : List String) (fuel : Nat) (vals : LTup K) (str : Strm (K N).X) (s : St σ A)
    (hs : s.fails = []) :
    (loop K c N outer fuel vals str s).1 =
      match search (K N) (fun v => fails (Function.update (args K vals) N v)) fuel (vals N) str with
      | some x => .ok (Function.update vals N x)
      | none => .diverges := by
  induction fuel generalizing vals str s with
  | zero => rfl
  | succ fuel ih =>
    rcases strm_cases str with rfl | ⟨y, r, rfl⟩
    · simp [loop, search]
    · obtain ⟨b, s', ht, hb⟩ := test_decides hq hf hfails hret (seen K vals) N (.leaf ((K N).value y)) s hs
      have e : Tup.get (seen K vals) = args K vals := rfl
      rw [e] at hb
      simp only [loop, search, Seq.destruct_cons, ht, hb, Shr.value_leaf]
      by_cases hc : fails (Function.update (args K vals) N ((K N).value y)) = true
      rotate_left
      · rw [if_neg hc, if_neg hc]
        refine ih vals r s' ?_
        have hc' : fails (Function.update (args K vals) N ((K N).value y)) = false := by simpa using hc
        rw [Shr.value_leaf, hc'] at hb
        simp only [Bool.or_eq_false_iff, Bool.not_eq_false', List.isEmpty_iff] at hb
        exact hb.2
      · rw [if_pos hc, if_pos hc, ih _ _ _ rfl]
        have e2 : (fun v => fails (Function.update (args K (Function.update vals N y)) N v))
            = fun v => fails (Function.update (args K vals) N v) := by
          funext v
          congr 1
          funext i
          by_cases hi : i = N
          · subst hi; simp
          · simp [hi, args]
        rw [e2]
        simp only [Function.update_self, Function.update_idem]

end
end LazyShrink
end Verif
