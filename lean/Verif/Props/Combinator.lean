import Verif.Lemmas.Combinator
import Verif.Lemmas.BinSearch
import Verif.Lemmas.PairTuple
import Verif.Props.Integral
import Verif.Props.Shrinkable
import Verif.Spec.Greedy
import Mathlib.Data.List.Chain
/-
C36-C42, C85-C87: filter, map, dependent generators, accumulate/aggregate, construct, Nullable, shared_ptr.
`g.Makes t`: the generator `g` returns the shrinkable `t` for some state of the engine.
-/
namespace Verif
open Shr Random Comb BinSearch Integral ListLike IntType
variable {σ α β γ : Type}

/-! ### C36 filter -/

/-- C36. What a filtered generator returns satisfies the criterion, with everything reachable by shrinking,
and was offered by the original generator. -/
theorem C36_sound (g : Gen σ α) (c : α → Bool) (fuel : Nat) (s s' : σ) (t : Shr α)
    (h : filter g c fuel s = .ok (t, s')) :
    ∃ t₀, g.Makes t₀ ∧ t.value = t₀.value ∧ ∀ v, Reach t v → c v = true ∧ Reach t₀ v := by
  induction fuel generalizing s with
  | zero => cases h
  | succ fuel ih =>
    rw [Comb.filter] at h
    obtain ⟨⟨t₀, s1⟩, h1, h⟩ := Outcome.bind_eq_ok.mp h
    dsimp only at h
    split at h
    · obtain ⟨r, h2, h⟩ := Outcome.bind_eq_ok.mp h
      simp only [Outcome.pure_eq, Outcome.ok.injEq, Prod.mk.injEq] at h
      obtain ⟨rfl, rfl⟩ := h
      obtain ⟨e, hr⟩ := C08_filterTol_sound c 1 t₀ r h2
      exact ⟨t₀, ⟨s, s1, h1⟩, e, hr⟩
    · exact ih s1 h

/-- C36. The first accepted draw is taken: rejected draws before it change nothing but the state. -/
theorem C36_first (g : Gen σ α) (c : α → Bool) (fuel : Nat) (s s₁ : σ) (t₀ : Shr α) (h : g s = .ok (t₀, s₁)) :
    (c t₀.value = true → ∃ t, filter g c (fuel + 1) s = .ok (t, s₁) ∧ t.value = t₀.value) ∧
    (c t₀.value = false → filter g c (fuel + 1) s = filter g c fuel s₁) := by
  refine ⟨fun hc => ?_, fun hc => ?_⟩
  · obtain ⟨t, ht⟩ := (C08_filterTol_throws_iff c 1 t₀).2.mpr hc
    refine ⟨t, ?_, (C08_filterTol_sound c 1 t₀ t ht).1⟩
    simp [Comb.filter, h, hc, ht]
  · simp [Comb.filter, h, hc]

theorem histories_last {t : Shr α} {h : List α} (hh : h ∈ t.histories) : ∃ v, h.getLast? = some v ∧ Reach t v := by
  induction t using Shr.ind generalizing h with
  | h v ss ih =>
    rw [Shr.histories, List.mem_cons] at hh
    rcases hh with rfl | hh
    · exact ⟨v, rfl, .self _⟩
    obtain ⟨p, hp, rfl⟩ := List.mem_map.mp hh
    have list : ∀ (ss : List (Shr α)), p ∈ Shr.historiesList ss → ∃ s ∈ ss, p ∈ s.histories := by
      intro ss
      induction ss with
      | nil => simp [Shr.historiesList]
      | cons s ss ih =>
        intro hp
        rw [Shr.historiesList, List.mem_append] at hp
        rcases hp with hp | hp
        · exact ⟨s, by simp, hp⟩
        · obtain ⟨u, hu, r⟩ := ih hp; exact ⟨u, by simp [hu], r⟩
    obtain ⟨s, hs, hp⟩ := list ss hp
    obtain ⟨w, hw, hr⟩ := ih s hs hp
    refine ⟨w, ?_, .child hs hr⟩
    cases p with
    | nil => simp at hw
    | cons x p => rw [List.getLast?_cons_cons]; exact hw

/-- C36. Nothing acceptable is lost: what the filtered generator returns stems from one call of the original, and
every value that can be reached there by a chain of shrinks that all satisfy the criterion can be reached. -/
theorem C36_complete (g : Gen σ α) (c : α → Bool) (fuel : Nat) (s s' : σ) (t : Shr α)
    (h : filter g c fuel s = .ok (t, s')) :
    ∃ s₀ t₀, g s₀ = .ok (t₀, s') ∧ t.value = t₀.value ∧
      ∀ p ∈ t₀.histories, (∀ v ∈ p, c v = true) → ∀ v, p.getLast? = some v → Reach t v := by
  induction fuel generalizing s with
  | zero => cases h
  | succ fuel ih =>
    rw [Comb.filter] at h
    obtain ⟨⟨t₀, s1⟩, h1, h⟩ := Outcome.bind_eq_ok.mp h
    dsimp only at h
    split at h
    · rename_i hc
      obtain ⟨r, h2, h⟩ := Outcome.bind_eq_ok.mp h
      simp only [Outcome.pure_eq, Outcome.ok.injEq, Prod.mk.injEq] at h
      obtain ⟨rfl, rfl⟩ := h
      refine ⟨s, t₀, h1, (C08_filterTol_sound c 1 t₀ r h2).1, fun p hp hall v hv => ?_⟩
      obtain ⟨r₀, hr₀⟩ := (C07_filter_throws_iff c t₀).2.mpr hc
      have hm : p ∈ r₀.histories := by
        rw [C07_filter_histories c t₀ r₀ hr₀, List.mem_filter]
        exact ⟨hp, List.all_eq_true.mpr hall⟩
      obtain ⟨w, hw, hr⟩ := histories_last hm
      rw [hv] at hw
      cases hw
      exact C08_filterTol_complete c 1 t₀ r₀ r hr₀ h2 v hr
    · exact ih s1 h

/-- C36. If nothing the generator offers is accepted, the filtered generator never returns. -/
theorem C36_never (g : Gen σ α) (c : α → Bool) (hg : ∀ s, ∃ t s', g s = .ok (t, s') ∧ c t.value = false) (s : σ)
    (fuel : Nat) : filter g c fuel s = .diverges := by
  induction fuel generalizing s with
  | zero => rfl
  | succ fuel ih =>
    obtain ⟨t, s', h, hc⟩ := hg s
    rw [(C36_first g c fuel s s' t h).2 hc, ih]

/-- 7 is rejected, 6 is accepted. -/
example : ∃ t, filter (interval script u8 0 9) (fun v => v % 2 == 0) 5 [7, 6] = .ok (t, []) ∧ t.value = 6 := by
  rw [(C36_first (interval script u8 0 9) _ 4 [7, 6] [6]
    (node 7 [leaf 0, node 3 [leaf 1, leaf 2], node 5 [leaf 4], leaf 6]) rfl).2 rfl]
  exact (C36_first (interval script u8 0 9) _ 3 [6] []
    (node 6 [leaf 0, node 3 [leaf 1, leaf 2], node 4 [], leaf 5]) rfl).1 rfl

/-! ### C37 map -/

/-- C37. A mapped generator returns exactly when the original does, and offers at every position the image of
what the original offers there. -/
theorem C37_map (g : Gen σ α) (f : α → β) (s : σ) :
    (∀ t s', g s = .ok (t, s') → ∃ t', transform g f s = .ok (t', s') ∧
      ∀ p, t'.valueAt? p = (t.valueAt? p).map f) ∧
    (∀ t' s', transform g f s = .ok (t', s') → ∃ t, g s = .ok (t, s')) ∧
    (∀ e, g s = .throws e → transform g f s = .throws e) := by
  refine ⟨fun t s' h => ⟨t.map f, by simp [transform, h], fun p => C05_map_positions f t p⟩, fun t' s' h => ?_,
    fun e h => by simp [transform, h]⟩
  obtain ⟨⟨t, s1⟩, h1, h2⟩ := Outcome.bind_eq_ok.mp h
  simp only [Outcome.pure_eq, Outcome.ok.injEq, Prod.mk.injEq] at h2
  obtain ⟨rfl, rfl⟩ := h2
  exact ⟨t, h1⟩

/-- C37. Every value reachable from a result is the image of a value reachable in a shrinkable of the original. -/
theorem C37_reach (g : Gen σ α) (f : α → β) (s s' : σ) (t' : Shr β) (h : transform g f s = .ok (t', s')) :
    ∃ t, g s = .ok (t, s') ∧ ∀ w, Reach t' w ↔ ∃ v, Reach t v ∧ w = f v := by
  obtain ⟨⟨t, s1⟩, h1, h2⟩ := Outcome.bind_eq_ok.mp h
  simp only [Outcome.pure_eq, Outcome.ok.injEq, Prod.mk.injEq] at h2
  obtain ⟨rfl, rfl⟩ := h2
  exact ⟨t, h1, fun w => reach_map⟩

example : transform (interval script u8 0 9) (· * 100) [2] = .ok (node 200 [leaf 0, leaf 100], []) := rfl

/-! ### C38-C40 dependent generators -/

/-- C38. Every pair generated by or reachable from `dependency(gen1, f)` has a first component reachable in the
tree drawn from `gen1` and a second component reachable in a tree that `f(first)` makes, whatever states `o` the
engine is in when the shrinks are evaluated. The generated pair itself consists of the generated components. -/
theorem C38_dependency (gen1 : Gen σ α) (f : α → Gen σ β) (o : List Nat → σ) (s s' : σ) (r : Shr (α × β))
    (h : dependency gen1 f o s = .ok (r, s')) :
    ∃ t s₁ u s₂, gen1 s = .ok (t, s₁) ∧ f t.value s₁ = .ok (u, s₂) ∧ r.value = (t.value, u.value) ∧
      ∀ a b, Reach r (a, b) → Reach t a ∧ ∃ u, (f a).Makes u ∧ Reach u b := by
  obtain ⟨i, h0, rfl⟩ := bind_pure_ok h
  obtain ⟨t, s1, u, s2, h1, h2, -, hv, hr⟩ := reach_dependent h0
  refine ⟨t, s1, u, s2, h1, h2, by simp [hv], fun a b hab => ?_⟩
  rw [flatMap_eq_map, reach_map] at hab
  obtain ⟨x, hx, e⟩ := hab
  cases e
  exact hr x hx

/-- C38. Nothing is lost: if `f`'s generators return for all values `gen1` makes, every value reachable in the first tree still
occurs as first component, with a component `f` generates for it, and where the first component cannot shrink any further, all shrinks of the second
component are reachable. -/
theorem C38_complete (gen1 : Gen σ α) (f : α → Gen σ β)
    (hf : ∀ t, gen1.Makes t → ∀ v, Reach t v → ∀ s, ∃ r, f v s = .ok r) (o : List Nat → σ)
    (s s' : σ) (r : Shr (α × β)) (h : dependency gen1 f o s = .ok (r, s')) :
    ∃ t s₁, gen1 s = .ok (t, s₁) ∧ (∀ a, Reach t a → ∃ u, (f a).Makes u ∧ Reach r (a, u.value)) ∧
      ∀ w, Desc t w → w.shrinks = [] → ∃ u, (f w.value).Makes u ∧ ∀ b, Reach u b → Reach r (w.value, b) := by
  obtain ⟨i, h0, rfl⟩ := bind_pure_ok h
  obtain ⟨t, s1, h1, h2, h3⟩ := dependent_complete hf h0
  refine ⟨t, s1, h1, fun a ha => ?_, fun w hw he => ?_⟩
  · obtain ⟨u, hm, hu⟩ := h2 a ha
    exact ⟨u, hm, by rw [flatMap_eq_map, reach_map]; exact ⟨_, hu, rfl⟩⟩
  · obtain ⟨u, hu, hb⟩ := h3 w hw he
    refine ⟨u, hu, fun b h => ?_⟩
    obtain ⟨v, hv, e⟩ := hb b h
    rw [flatMap_eq_map, reach_map]
    exact ⟨_, hv, by simp [e]⟩

/-- C39. Every tuple generated by or reachable from `chain(gen1, f)` is a tuple reachable in the tree drawn from
`gen1`, extended by a component reachable in a tree that `f(tuple)` makes. -/
theorem C39_chain (cat : α → β → γ) (gen1 : Gen σ α) (f : α → Gen σ β) (o : List Nat → σ) (s s' : σ) (r : Shr γ)
    (h : chain cat gen1 f o s = .ok (r, s')) :
    ∃ t s₁ u s₂, gen1 s = .ok (t, s₁) ∧ f t.value s₁ = .ok (u, s₂) ∧ r.value = cat t.value u.value ∧
      ∀ x, Reach r x → ∃ a b, x = cat a b ∧ Reach t a ∧ ∃ u, (f a).Makes u ∧ Reach u b := by
  obtain ⟨i, h0, rfl⟩ := bind_pure_ok h
  obtain ⟨t, s1, u, s2, h1, h2, -, hv, hr⟩ := reach_dependent h0
  refine ⟨t, s1, u, s2, h1, h2, by simp [hv], fun y hy => ?_⟩
  rw [flatMap_eq_map, reach_map] at hy
  obtain ⟨x, hx, e⟩ := hy
  exact ⟨x.1, x.2.value, e, hr x hx⟩

/-- C39. Nothing is lost: if `f`'s generators return for all values `gen1` makes, every tuple reachable in the first tree still occurs,
extended by a component `f` generates for it; where the tuple cannot shrink any further, all shrinks of the last
component are reachable. -/
theorem C39_complete (cat : α → β → γ) (gen1 : Gen σ α) (f : α → Gen σ β)
    (hf : ∀ t, gen1.Makes t → ∀ v, Reach t v → ∀ s, ∃ r, f v s = .ok r)
    (o : List Nat → σ) (s s' : σ) (r : Shr γ) (h : chain cat gen1 f o s = .ok (r, s')) :
    ∃ t s₁, gen1 s = .ok (t, s₁) ∧ (∀ a, Reach t a → ∃ u, (f a).Makes u ∧ Reach r (cat a u.value)) ∧
      ∀ w, Desc t w → w.shrinks = [] → ∃ u, (f w.value).Makes u ∧ ∀ b, Reach u b → Reach r (cat w.value b) := by
  obtain ⟨i, h0, rfl⟩ := bind_pure_ok h
  obtain ⟨t, s1, h1, h2, h3⟩ := dependent_complete hf h0
  refine ⟨t, s1, h1, fun a ha => ?_, fun w hw he => ?_⟩
  · obtain ⟨u, hm, hu⟩ := h2 a ha
    exact ⟨u, hm, by rw [flatMap_eq_map, reach_map]; exact ⟨_, hu, rfl⟩⟩
  · obtain ⟨u, hu, hb⟩ := h3 w hw he
    refine ⟨u, hu, fun b h => ?_⟩
    obtain ⟨v, hv, e⟩ := hb b h
    rw [flatMap_eq_map, reach_map]
    exact ⟨_, hv, by simp [e]⟩

/-- C39. Chaining twice: every triple reachable from `chain(chain(gen1, f), g)` has its components reachable in
trees of `gen1`, of `f(first)` and of `g(first, second)`. -/
theorem C39_chain_twice {δ : Type} (gen1 : Gen σ α) (f : α → Gen σ β) (g : α × β → Gen σ δ) (o o' : List Nat → σ)
    (s s' : σ) (r : Shr (α × β × δ))
    (h : chain (fun p c => (p.1, p.2, c)) (chain Prod.mk gen1 f o) g o' s = .ok (r, s')) (a : α) (b : β) (c : δ)
    (hr : Reach r (a, b, c)) :
    (∃ t, gen1.Makes t ∧ Reach t a) ∧ (∃ u, (f a).Makes u ∧ Reach u b) ∧ (∃ v, (g (a, b)).Makes v ∧ Reach v c) := by
  obtain ⟨t, s1, u, s2, h1, h2, hv, hall⟩ := C39_chain _ _ _ _ _ _ _ h
  obtain ⟨⟨a', b'⟩, c', e, hx, v, hv, hc⟩ := hall _ hr
  simp only [Prod.mk.injEq] at e
  obtain ⟨rfl, rfl, rfl⟩ := e
  obtain ⟨t', s1', u', s2', h1', h2', hv', hall'⟩ := C39_chain _ _ _ _ _ _ _ h1
  obtain ⟨a'', b'', e, hx, w, hw, hb⟩ := hall' _ hx
  simp only [Prod.mk.injEq] at e
  obtain ⟨rfl, rfl⟩ := e
  exact ⟨⟨t', ⟨_, _, h1'⟩, hx⟩, ⟨w, hw, hb⟩, ⟨v, hv, hc⟩⟩

/-- C40. Every value generated by or reachable from `derive(gen1, f)` (`gen1.flatMap(f)`) is reachable in a tree
that `f(v)` makes for some `v` reachable in the tree drawn from `gen1`. -/
theorem C40_derive (gen1 : Gen σ α) (f : α → Gen σ β) (o : List Nat → σ) (s s' : σ) (r : Shr β)
    (h : derive gen1 f o s = .ok (r, s')) :
    ∃ t s₁ u s₂, gen1 s = .ok (t, s₁) ∧ f t.value s₁ = .ok (u, s₂) ∧ r.value = u.value ∧
      ∀ b, Reach r b → ∃ a, Reach t a ∧ ∃ u, (f a).Makes u ∧ Reach u b := by
  obtain ⟨i, h0, rfl⟩ := bind_pure_ok h
  obtain ⟨t, s1, u, s2, h1, h2, -, hv, hr⟩ := reach_dependent h0
  refine ⟨t, s1, u, s2, h1, h2, by simp [hv], fun b hb => ?_⟩
  rw [flatMap_eq_map, reach_map] at hb
  obtain ⟨x, hx, e⟩ := hb
  exact ⟨x.1, e ▸ hr x hx⟩

/-- C40. Nothing is lost: if `f`'s generators return for all values `gen1` makes, then for every value `a` reachable in the first tree a
value `f(a)` generates is reachable, and where that value cannot shrink any further, all shrinks of what `f`
generates for it. -/
theorem C40_complete (gen1 : Gen σ α) (f : α → Gen σ β)
    (hf : ∀ t, gen1.Makes t → ∀ v, Reach t v → ∀ s, ∃ r, f v s = .ok r) (o : List Nat → σ)
    (s s' : σ) (r : Shr β) (h : derive gen1 f o s = .ok (r, s')) :
    ∃ t s₁, gen1 s = .ok (t, s₁) ∧ (∀ a, Reach t a → ∃ u, (f a).Makes u ∧ Reach r u.value) ∧
      ∀ w, Desc t w → w.shrinks = [] → ∃ u, (f w.value).Makes u ∧ ∀ b, Reach u b → Reach r b := by
  obtain ⟨i, h0, rfl⟩ := bind_pure_ok h
  obtain ⟨t, s1, h1, h2, h3⟩ := dependent_complete hf h0
  refine ⟨t, s1, h1, fun a ha => ?_, fun w hw he => ?_⟩
  · obtain ⟨u, hm, hu⟩ := h2 a ha
    exact ⟨u, hm, by rw [flatMap_eq_map, reach_map]; exact ⟨_, hu, rfl⟩⟩
  · obtain ⟨u, hu, hb⟩ := h3 w hw he
    refine ⟨u, hu, fun b h => ?_⟩
    obtain ⟨v, hv, e⟩ := hb b h
    rw [flatMap_eq_map, reach_map]
    exact ⟨_, hv, by simp [e]⟩

/-- A number up to 3, then a number up to that number. The engine returns 2, 1 for the generated pair and
1, 0, ... when shrinks are evaluated. -/
example : dependency (interval script u8 0 3) (fun n => interval script u8 0 n)
    (fun p => match p with | [1] => [1] | _ => [0]) [2, 1] =
    .ok (node (2, 1) [leaf (0, 0), node (1, 1) [leaf (1, 0)]], []) := rfl
example : derive (interval script u8 0 3) (fun n => interval script u8 0 n)
    (fun p => match p with | [1] => [1] | _ => [0]) [2, 1] = .ok (node 1 [leaf 0, node 1 [leaf 0]], []) := rfl
example : chain (fun p c => (p.1, p.2, c)) (chain Prod.mk (interval script u8 0 3) (fun n => interval script u8 0 n)
      (fun _ => [0])) (fun p => interval script u8 p.2 p.1) (fun _ => [5]) [1, 1, 1] =
    .ok (node (1, 1, 1) [leaf (0, 0, 0)], []) := rfl

/-! ### C85, C86 -/

/-- C85 is violated: while the first component has shrinks left, the second is not shrunk. Here the property
fails exactly when the first component is 1; greedy shrinking ends at (1, 3) although (1, 0) is smaller, fails
as well and is a pair the generator could have generated. -/
theorem C85_violated : ∃ r s', dependency (interval script u8 0 1) (fun _ => interval script u8 0 3) (fun _ => [3])
      [1, 3] = .ok (r, s') ∧ r.greedy (fun p => p.1 == 1) = (1, 3) ∧ ¬ Reach r (1, 0) ∧
    ∃ r' s'', dependency (interval script u8 0 1) (fun _ => interval script u8 0 3) (fun _ => []) [1, 0] =
      .ok (r', s'') ∧ r'.value = (1, 0) := by
  refine ⟨node (1, 3) [node (0, 3) [leaf (0, 0), node (0, 1) [], leaf (0, 2)]], [], rfl, by decide, ?_, _, _, rfl, rfl⟩
  rw [← mem_values]
  decide

/-- C85, the part that holds: where the first component cannot be shrunk any further, the second is shrunk
completely. Missing: nodes whose first component has shrinks. -/
theorem C85_second_partial (v : α) (f : α → Gen σ β) (o : List Nat → σ) (s s' : σ) (r : Shr (α × β))
    (h : dependency (just v) f o s = .ok (r, s')) :
    ∃ u, f v s = .ok (u, s') ∧ ∀ p, r.valueAt? p = (u.valueAt? p).map (fun b => (v, b)) := by
  obtain ⟨i, h0, rfl⟩ := bind_pure_ok h
  clear h
  rename dependent _ _ _ _ = _ => h
  unfold dependent at h
  obtain ⟨⟨t, s1⟩, h1, h⟩ := Outcome.bind_eq_ok.mp h
  cases h1
  obtain ⟨⟨u, s2⟩, h2, h⟩ := Outcome.bind_eq_ok.mp h
  simp only [Outcome.pure_eq, Outcome.ok.injEq, Prod.mk.injEq] at h
  obtain ⟨rfl, rfl⟩ := h
  refine ⟨u, h2, fun p => ?_⟩
  rw [← C05_map_positions]
  congr 1
  cases u with
  | node b us =>
    simp only [leaf, value_node, shrinks_node, lazyMapList, andThen, expand, List.isEmpty_nil, if_true]
    rw [flatMap_eq_map]
    simp only [map_node, flatMap_eq_map, value_node, shrinks_map, shrinks_node, List.map_map]
    congr 1
    refine List.map_congr_left fun x _ => ?_
    simp only [Function.comp, C05_map_comp]
    rfl

example : dependency (just 5) (fun n => interval script u8 0 n) (fun _ => []) [2] =
    .ok (node (5, 2) [leaf (5, 0), leaf (5, 1)], []) := rfl

/-- C86 is violated: the shrinks of one and the same generated value depend on when they are looked at (here
the same call, with two different states of the engine at the time of the evaluation of the shrinks). -/
theorem C86_violated : ∃ (g : Gen (List Int) Int) (f : Int → Gen (List Int) Int) (o o' : List Nat → List Int) (r r' : Shr (Int × Int)),
    dependency g f o [1, 3] = .ok (r, []) ∧ dependency g f o' [1, 3] = .ok (r', []) ∧ r.value = r'.value ∧
    r.shrinks.map Shr.value ≠ r'.shrinks.map Shr.value :=
  ⟨interval script u8 0 1, fun _ => interval script u8 0 3, fun _ => [1], fun _ => [0],
    node (1, 3) [node (0, 1) [leaf (0, 0)]], node (1, 3) [leaf (0, 0)], rfl, rfl, rfl, by decide⟩

/-- C86, the part that holds: if the second generator does not draw from the engine (for a given first
component it always returns the same shrinkable), the time of evaluation does not matter. Missing: second
generators that draw. -/
theorem C86_stable_partial (gen1 : Gen σ α) (f : α → Shr β) (o o' : List Nat → σ) (s : σ) :
    dependency gen1 (fun v s => .ok (f v, s)) o s = dependency gen1 (fun v s => .ok (f v, s)) o' s := by
  have key : ∀ (t : Shr α) (p q : List Nat), lazyMap (inter fun v s => .ok (f v, s)) o p t =
      lazyMap (inter fun v s => .ok (f v, s)) o' q t := by
    intro t
    induction t using Shr.ind with
    | h v ss ih =>
      intro p q
      have list : ∀ (ss : List (Shr α)), (∀ t ∈ ss, ∀ (p q : List Nat),
          lazyMap (inter fun v s => .ok (f v, s)) o p t = lazyMap (inter fun v s => .ok (f v, s)) o' q t) →
          ∀ (p q : List Nat) (i j : Nat), lazyMapList (inter fun v s => .ok (f v, s)) o p i ss =
            lazyMapList (inter fun v s => .ok (f v, s)) o' q j ss := by
        intro ss
        induction ss with
        | nil => intros; simp [lazyMapList]
        | cons s ss ih =>
          intro h p q i j
          rw [lazyMapList, lazyMapList, h s (by simp) (i :: p) (j :: q),
            ih (fun t ht => h t (by simp [ht])) p q (i + 1) (j + 1)]
      rw [lazyMap, lazyMap, list ss ih p q 0 0]
      simp [inter]
  have list : ∀ (ss : List (Shr α)) (p q : List Nat) (i j : Nat), lazyMapList (inter fun v s => .ok (f v, s)) o p i ss =
      lazyMapList (inter fun v s => .ok (f v, s)) o' q j ss := by
    intro ss
    induction ss with
    | nil => intros; simp [lazyMapList]
    | cons s ss ih =>
      intro p q i j
      rw [lazyMapList, lazyMapList, key s (i :: p) (j :: q), ih p q (i + 1) (j + 1)]
  unfold dependency dependent
  cases gen1 s with
  | ok r => simp only [Outcome.ok_bind, Outcome.pure_eq]; rw [list _ [] [] 0 0]
  | _ => rfl

example : dependency (interval script u8 0 1) (fun v s => .ok (node (v + 1) [leaf v], s)) (fun _ => [3]) [1] =
    .ok (node (1, 2) [node (0, 1) [leaf (0, 0)]], []) := rfl

/-! ### C41 aggregate, accumulate -/

/-- `Steps gen1 f n u`: the tree `u` results from a tree of `gen1` by `n` further draws, each from the generator
`f` gives for the value drawn before. -/
inductive Steps (gen1 : Gen σ α) (f : α → Gen σ α) : Nat → Shr α → Prop where
  | first {t : Shr α} : gen1.Makes t → Steps gen1 f 0 t
  | next {n : Nat} {t u : Shr α} : Steps gen1 f n t → (f t.value).Makes u → Steps gen1 f (n + 1) u

theorem steps_ok {gen1 : Gen σ α} {f : α → Gen σ α} (n m : Nat) (t u : Shr α) (s s' : σ) (ht : Steps gen1 f m t)
    (h : steps f n t s = .ok (u, s')) : Steps gen1 f (m + n) u := by
  induction n generalizing m t s with
  | zero => cases h; exact ht
  | succ n ih =>
    rw [Comb.steps] at h
    obtain ⟨⟨t', s1⟩, h1, h⟩ := Outcome.bind_eq_ok.mp h
    have := ih (m + 1) t' s1 (.next ht ⟨s, s1, h1⟩) h
    rwa [show m + 1 + n = m + (n + 1) by omega] at this

/-- The sizes reachable from the size generator. -/
theorem size_range (R : Rng σ) {lo hi : Nat} (h : lo ≤ hi) (h' : hi < 2 ^ 64) {s s' : σ} {t : Shr Int}
    (ht : interval R u64 lo hi s = .ok (t, s')) {v : Int} (hv : Reach t v) : (lo : Int) ≤ v ∧ v ≤ hi := by
  obtain ⟨t', s'', e, hg⟩ := C17_interval R u64 (by simp [all]) lo hi s (by rw [u64_lo]; omega) (by omega)
    (by rw [u64_hi]; omega)
  rw [ht] at e
  cases e
  exact hg.1 v hv

/-- C41. `aggregate` takes between `minSize` and `maxSize` steps; every value generated or reachable is reachable
in a tree produced by such a sequence of steps. -/
theorem C41_aggregate (R : Rng σ) (gen1 : Gen σ α) (f : α → Gen σ α) (minSize maxSize : Nat) (h : minSize ≤ maxSize)
    (h' : maxSize < 2 ^ 64) (o : List Nat → σ) (s s' : σ) (r : Shr α)
    (hr : aggregate R gen1 f minSize maxSize o s = .ok (r, s')) (v : α) (hv : Reach r v) :
    ∃ n u, minSize ≤ n ∧ n ≤ maxSize ∧ Steps gen1 f n u ∧ Reach u v := by
  obtain ⟨t, s1, u, -, h1, h2, hval, hall⟩ := C40_derive _ _ _ _ _ _ hr
  obtain ⟨a, ha, u, ⟨s2, s3, hm⟩, hu⟩ := hall v hv
  have hsz := size_range R h h' h1 ha
  obtain ⟨⟨t', s4⟩, h3, h4⟩ := Outcome.bind_eq_ok.mp hm
  refine ⟨a.toNat, u, by omega, by omega, ?_, hu⟩
  simpa using steps_ok a.toNat 0 t' u s4 s3 (.first ⟨_, _, h3⟩) h4

/-- The relation between neighbours of an accumulated list: `b` is reachable in a tree that `f(a)` makes. -/
def StepRel (f : α → Gen σ α) (a b : α) : Prop := ∃ u, (f a).Makes u ∧ Reach u b

theorem steppers_ok {f : α → Gen σ α} (n : Nat) (t : Shr α) (ts : List (Shr α)) (s s' : σ)
    (h : steppers f n t s = .ok (ts, s')) :
    ts.length = n ∧ List.IsChain (fun a b => (f a.value).Makes b) (t :: ts) := by
  induction n generalizing t ts s with
  | zero => cases h; exact ⟨rfl, by simp⟩
  | succ n ih =>
    rw [steppers] at h
    obtain ⟨⟨t', s1⟩, h1, h⟩ := Outcome.bind_eq_ok.mp h
    obtain ⟨⟨ts', s2⟩, h2, h⟩ := Outcome.bind_eq_ok.mp h
    simp only [Outcome.pure_eq, Outcome.ok.injEq, Prod.mk.injEq] at h
    obtain ⟨rfl, rfl⟩ := h
    obtain ⟨l, c⟩ := ih t' ts' s1 h2
    exact ⟨by simp [l], .cons_cons ⟨_, _, h1⟩ c⟩

theorem accumulateSized_reach {gen1 : Gen σ α} {f : α → Gen σ α} {minSize size : Nat} (hm : minSize ≤ size) {s s' : σ}
    {r : Shr (List α)} (h : accumulateSized gen1 f minSize size s = .ok (r, s')) {l : List α} (hl : Reach r l) :
    minSize ≤ l.length ∧ l.length ≤ size ∧ (∀ a ∈ l.head?, ∃ t, gen1.Makes t ∧ Reach t a) ∧ l.IsChain (StepRel f) := by
  unfold accumulateSized at h
  split at h
  · cases h
    rw [reach_leaf] at hl
    subst hl
    exact ⟨by simp; omega, by simp, by simp, by simp⟩
  obtain ⟨⟨t, s1⟩, h1, h⟩ := Outcome.bind_eq_ok.mp h
  obtain ⟨⟨ts, s2⟩, h2, h⟩ := Outcome.bind_eq_ok.mp h
  obtain ⟨shr, h3, h⟩ := Outcome.bind_eq_ok.mp h
  simp only [Outcome.pure_eq, Outcome.ok.injEq, Prod.mk.injEq] at h
  obtain ⟨rfl, rfl⟩ := h
  obtain ⟨hlen, hch⟩ := steppers_ok _ _ _ _ _ h2
  unfold listLikeLength at h3
  split at h3
  · cases h3
  cases h3
  rw [reach_map] at hl
  obtain ⟨us, hus, rfl⟩ := hl
  rw [reach_andThen] at hus
  obtain ⟨w, hw, hus⟩ := hus
  -- the values in the tree of lengths are prefixes
  have hpre : ∃ k, minSize ≤ k ∧ k ≤ size ∧ w.value = (t :: ts).take k := by
    have : Reach ((sizeRange minSize (t :: ts).length).map fun n => (t :: ts).take n) w.value := ⟨w, hw, rfl⟩
    rw [reach_map, sizeRange] at this
    obtain ⟨k, hk, e⟩ := this
    rw [reach_map] at hk
    obtain ⟨j, hj, rfl⟩ := hk
    rw [bsNat_reach] at hj
    simp only [List.length_cons, hlen] at hj
    exact ⟨j + minSize, by omega, by omega, e⟩
  obtain ⟨k, hk1, hk2, hk⟩ := hpre
  have hpc : ((t :: ts).take k).IsChain (fun a b => (f a.value).Makes b) := hch.take k
  have hplen : ((t :: ts).take k).length = k := by simp [hlen]; omega
  have hhead : ∀ a ∈ ((t :: ts).take k).head?, gen1.Makes a := by
    cases k with
    | zero => simp
    | succ k => simp only [List.take_succ_cons, List.head?_cons, Option.mem_def, Option.some.injEq, forall_eq']; exact ⟨_, _, h1⟩
  rcases hus with rfl | ⟨-, u, hu, hr⟩
  · rw [hk]
    refine ⟨by simp only [List.length_map]; omega, by simp only [List.length_map]; omega, ?_, ?_⟩
    · intro a ha
      rw [List.head?_map, Option.mem_def, Option.map_eq_some_iff] at ha
      obtain ⟨x, hx, rfl⟩ := ha
      exact ⟨x, hhead x hx, .self _⟩
    · rw [List.isChain_map]
      exact hpc.imp fun a b hab => ⟨b, hab, .self _⟩
  · unfold shrinkLast at hu
    split at hu
    · simp at hu
    · rename_i last hlast
      obtain ⟨elem, he, rfl⟩ := List.mem_map.mp hu
      rw [reach_leaf] at hr
      subst hr
      rw [hk] at hlast ⊢
      generalize (t :: ts).take k = P at *
      obtain ⟨pre, rfl⟩ := List.getLast?_eq_some_iff.mp hlast
      have hr : Reach last elem.value := .child he (.self _)
      rw [List.dropLast_concat]
      refine ⟨by simp at hplen ⊢; omega, by simp at hplen ⊢; omega, ?_, ?_⟩
      · cases pre with
        | nil => intro a ha; simp only [List.nil_append, List.map_cons, List.map_nil, List.head?_cons, Option.mem_def, Option.some.injEq] at ha; subst ha; exact ⟨last, hhead last (by simp), hr⟩
        | cons x pre => intro a ha; simp only [List.cons_append, List.map_cons, List.head?_cons, Option.mem_def, Option.some.injEq] at ha; subst ha; exact ⟨x, hhead x (by simp), .self _⟩
      · rw [List.isChain_map]
        rw [List.isChain_append] at hpc ⊢
        refine ⟨hpc.1.imp fun a b hab => ⟨b, hab, .self _⟩, by simp, fun x hx y hy => ?_⟩
        simp only [List.head?_cons, Option.mem_def, Option.some.injEq] at hy
        subst hy
        exact ⟨last, hpc.2.2 x hx last (by simp), hr⟩

/-- C41. Every list generated by or reachable from `accumulate` has between `minSize` and `maxSize` elements; the
first is reachable in a tree of `gen1`, each other one in a tree made by the generator `f` gives for its
predecessor in the list. -/
theorem C41_accumulate (R : Rng σ) (gen1 : Gen σ α) (f : α → Gen σ α) (minSize maxSize : Nat) (h : minSize ≤ maxSize)
    (h' : maxSize < 2 ^ 64) (o : List Nat → σ) (s s' : σ) (r : Shr (List α))
    (hr : accumulate R gen1 f minSize maxSize o s = .ok (r, s')) (l : List α) (hl : Reach r l) :
    minSize ≤ l.length ∧ l.length ≤ maxSize ∧ (∀ a ∈ l.head?, ∃ t, gen1.Makes t ∧ Reach t a) ∧
      l.IsChain (fun a b => ∃ u, (f a).Makes u ∧ Reach u b) := by
  obtain ⟨t, s1, u, -, h1, h2, hval, hall⟩ := C40_derive _ _ _ _ _ _ hr
  obtain ⟨a, ha, u, ⟨s2, s3, hm⟩, hu⟩ := hall l hl
  have hsz := size_range R h h' h1 ha
  obtain ⟨g1, g2, g3, g4⟩ := accumulateSized_reach (by omega) hm hu
  exact ⟨g1, by omega, g3, g4⟩

theorem steps_chain {f : α → Gen σ α} (n : Nat) (t u : Shr α) (s s' : σ) (h : steps f n t s = .ok (u, s')) :
    ∃ us, Gen.DrawsChain f t s us s' ∧ us.length = n ∧ (t :: us).getLast? = some u := by
  induction n generalizing t s with
  | zero => cases h; exact ⟨[], .nil _ _, rfl, rfl⟩
  | succ n ih =>
    rw [Comb.steps] at h
    obtain ⟨⟨t', s1⟩, h1, h⟩ := Outcome.bind_eq_ok.mp h
    obtain ⟨us, hd, hl, hu⟩ := ih t' s1 h
    exact ⟨t' :: us, .cons h1 hd, by simp [hl], by rw [List.getLast?_cons_cons]; exact hu⟩

theorem steppers_chain {f : α → Gen σ α} (n : Nat) (t : Shr α) (us : List (Shr α)) (s s' : σ)
    (h : steppers f n t s = .ok (us, s')) : Gen.DrawsChain f t s us s' ∧ us.length = n := by
  induction n generalizing t us s with
  | zero => cases h; exact ⟨.nil _ _, rfl⟩
  | succ n ih =>
    rw [steppers] at h
    obtain ⟨⟨t', s1⟩, h1, h⟩ := Outcome.bind_eq_ok.mp h
    obtain ⟨⟨ts', s2⟩, h2, h⟩ := Outcome.bind_eq_ok.mp h
    simp only [Outcome.pure_eq, Outcome.ok.injEq, Prod.mk.injEq] at h
    obtain ⟨rfl, rfl⟩ := h
    obtain ⟨hd, hl⟩ := ih t' ts' s1 h2
    exact ⟨.cons h1 hd, by simp [hl]⟩

/-- C41. The value `aggregate` generates: a number `n` of steps is drawn from `minSize..maxSize`, then a value from
`gen1`, then `n` times a value from the generator `f` gives for the value before; the last one is the result. -/
theorem C41_aggregate_value (R : Rng σ) (gen1 : Gen σ α) (f : α → Gen σ α) (minSize maxSize : Nat) (o : List Nat → σ)
    (s s' : σ) (r : Shr α) (hr : aggregate R gen1 f minSize maxSize o s = .ok (r, s')) :
    ∃ n s₁ t s₂ us s₃, interval R u64 minSize maxSize s = .ok (n, s₁) ∧ gen1 s₁ = .ok (t, s₂) ∧
      Gen.DrawsChain f t s₂ us s₃ ∧ us.length = n.value.toNat ∧ some r.value = (t :: us).getLast?.map Shr.value := by
  obtain ⟨n, s1, u, s', h1, h2, hval, -⟩ := C40_derive _ _ _ _ _ _ hr
  obtain ⟨⟨t, s2⟩, h3, h4⟩ := Outcome.bind_eq_ok.mp h2
  obtain ⟨us, hd, hl, hu⟩ := steps_chain _ _ _ _ _ h4
  exact ⟨n, s1, t, s2, us, _, h1, h3, hd, hl, by rw [hu, hval]; rfl⟩

/-- C41. The list `accumulate` generates: a length `n` is drawn from `minSize..maxSize`, then (unless `n = 0`) the
first element from `gen1`, then `n - 1` times an element from the generator `f` gives for the element before. -/
theorem C41_accumulate_value (R : Rng σ) (gen1 : Gen σ α) (f : α → Gen σ α) (minSize maxSize : Nat)
    (h : minSize ≤ maxSize) (h' : maxSize < 2 ^ 64) (o : List Nat → σ)
    (s s' : σ) (r : Shr (List α)) (hr : accumulate R gen1 f minSize maxSize o s = .ok (r, s')) :
    ∃ n s₁, interval R u64 minSize maxSize s = .ok (n, s₁) ∧
      ((n.value = 0 ∧ r.value = []) ∨ ∃ t s₂ us s₃, gen1 s₁ = .ok (t, s₂) ∧ Gen.DrawsChain f t s₂ us s₃ ∧
        ((us.length + 1 : Nat) : Int) = n.value ∧ r.value = (t :: us).map Shr.value) := by
  obtain ⟨n, s1, u, s', h1, h2, hval, -⟩ := C40_derive _ _ _ _ _ _ hr
  have hsz := size_range R h h' h1 (.self n)
  refine ⟨n, s1, h1, ?_⟩
  rw [hval]
  unfold accumulateSized at h2
  split at h2
  · cases h2
    exact .inl ⟨by omega, rfl⟩
  obtain ⟨⟨t, s2⟩, h3, h2⟩ := Outcome.bind_eq_ok.mp h2
  obtain ⟨⟨us, s3⟩, h4, h2⟩ := Outcome.bind_eq_ok.mp h2
  obtain ⟨shr, h5, h2⟩ := Outcome.bind_eq_ok.mp h2
  simp only [Outcome.pure_eq, Outcome.ok.injEq, Prod.mk.injEq] at h2
  obtain ⟨rfl, rfl⟩ := h2
  obtain ⟨hd, hl⟩ := steppers_chain _ _ _ _ _ h4
  refine .inr ⟨t, s2, us, _, h3, hd, by omega, ?_⟩
  unfold listLikeLength at h5
  split at h5
  · cases h5
  cases h5
  rw [value_map, value_andThen, value_map, sizeRange, value_map, bsNat_value, List.take_of_length_le]
  simp; omega

theorem steps_total {f : α → Gen σ α} (hf : ∀ v s, ∃ r, f v s = .ok r) (n : Nat) (t : Shr α) (s : σ) :
    ∃ r, steps f n t s = .ok r := by
  induction n generalizing t s with
  | zero => exact ⟨_, rfl⟩
  | succ n ih =>
    obtain ⟨⟨u, s1⟩, h⟩ := hf t.value s
    obtain ⟨r, hr⟩ := ih u s1
    exact ⟨r, by simp [Comb.steps, h, hr]⟩

theorem steppers_total {f : α → Gen σ α} (hf : ∀ v s, ∃ r, f v s = .ok r) (n : Nat) (t : Shr α) (s : σ) :
    ∃ r, steppers f n t s = .ok r := by
  induction n generalizing t s with
  | zero => exact ⟨_, rfl⟩
  | succ n ih =>
    obtain ⟨⟨u, s1⟩, h⟩ := hf t.value s
    obtain ⟨⟨us, s2⟩, hr⟩ := ih u s1
    exact ⟨(u :: us, s2), by simp [steppers, h, hr]⟩

/-- The tree of sizes: everything from `lo` up to the size drawn is reachable, and `lo` cannot be shrunk. -/
theorem size_tree (R : Rng σ) {lo hi : Nat} (h : lo ≤ hi) (h' : hi < 2 ^ 64) {s s' : σ} {t : Shr Int}
    (ht : interval R u64 lo hi s = .ok (t, s')) :
    (∀ k : Nat, lo ≤ k → (k : Int) ≤ t.value → Reach t k) ∧ ∃ w, Desc t w ∧ w.value = lo ∧ w.shrinks = [] := by
  obtain ⟨t', s'', e, hg⟩ := C17_interval R u64 (by simp [all]) lo hi s (by rw [u64_lo]; omega) (by omega)
    (by rw [u64_hi]; omega)
  rw [ht] at e
  cases e
  have hz : Nearest0 lo hi lo := ⟨by omega, by omega, fun y h1 h2 => by omega⟩
  obtain ⟨hr, h2⟩ := hg
  obtain ⟨h2, h3⟩ := h2 lo hz
  have hv := hr t.value (.self t)
  refine ⟨fun k h4 h5 => (h3 k).mpr (by omega), ?_⟩
  obtain ⟨w, hw, e⟩ := (h3 lo).mpr (by omega)
  refine ⟨w, hw, e, ?_⟩
  rw [List.eq_nil_iff_forall_not_mem]
  intro c hc
  have := h2 w c hw hc
  rw [e] at this
  omega

/-- C41. Nothing is lost by `aggregate`: every number of steps from `minSize` up to the number drawn is tried while
shrinking, and for `minSize` steps all shrinks of the result are reachable. -/
theorem C41_aggregate_complete (R : Rng σ) (gen1 : Gen σ α) (f : α → Gen σ α) (hg : ∀ s, ∃ r, gen1 s = .ok r)
    (hf : ∀ v s, ∃ r, f v s = .ok r) (minSize maxSize : Nat)
    (h : minSize ≤ maxSize) (h' : maxSize < 2 ^ 64) (o : List Nat → σ) (s s' : σ) (r : Shr α)
    (hr : aggregate R gen1 f minSize maxSize o s = .ok (r, s')) :
    ∃ n s₁, interval R u64 minSize maxSize s = .ok (n, s₁) ∧
      (∀ k : Nat, minSize ≤ k → (k : Int) ≤ n.value → ∃ u, Steps gen1 f k u ∧ Reach r u.value) ∧
      ∃ u, Steps gen1 f minSize u ∧ ∀ b, Reach u b → Reach r b := by
  obtain ⟨n, s1, h1, h2, h3⟩ := C40_complete _ _ (fun _ _ v _ s => by
    obtain ⟨⟨t, s1⟩, e⟩ := hg s
    obtain ⟨x, hx⟩ := steps_total hf v.toNat t s1
    exact ⟨x, by simp [e, hx]⟩) _ _ _ _ hr
  have made : ∀ (k : Nat) u, (Gen.Makes (fun s => do
      let (t, s) ← gen1 s
      Comb.steps f (k : Int).toNat t s) u) → Steps gen1 f k u := by
    rintro k u ⟨s2, s3, hm⟩
    obtain ⟨⟨t', s4⟩, h3, h4⟩ := Outcome.bind_eq_ok.mp hm
    simpa using steps_ok _ 0 t' u s4 s3 (.first ⟨_, _, h3⟩) h4
  obtain ⟨g1, w, g2, g3, g4⟩ := size_tree R h h' h1
  refine ⟨n, s1, h1, fun k hk hk' => ?_, ?_⟩
  · obtain ⟨u, hm, hu⟩ := h2 k (g1 k hk hk')
    exact ⟨u, made k u hm, hu⟩
  · obtain ⟨u, hm, hu⟩ := h3 w g2 g4
    rw [g3] at hm
    exact ⟨u, made minSize u hm, hu⟩

/-- C41. Nothing is lost by `accumulate`: every length from `minSize` up to the length drawn is tried while
shrinking, and for the shortest lists (if not empty) the shrinks of the last element are tried. -/
theorem C41_accumulate_complete (R : Rng σ) (gen1 : Gen σ α) (f : α → Gen σ α) (hg : ∀ s, ∃ r, gen1 s = .ok r)
    (hf : ∀ v s, ∃ r, f v s = .ok r) (minSize maxSize : Nat)
    (h : minSize ≤ maxSize) (h' : maxSize < 2 ^ 64) (o : List Nat → σ) (s s' : σ) (r : Shr (List α))
    (hr : accumulate R gen1 f minSize maxSize o s = .ok (r, s')) :
    ∃ n s₁, interval R u64 minSize maxSize s = .ok (n, s₁) ∧
      (∀ k : Nat, minSize ≤ k → (k : Int) ≤ n.value → ∃ l, l.length = k ∧ Reach r l) ∧
      (0 < minSize → ∃ pre last, (pre ++ [last]).length = minSize ∧
        (∀ a ∈ (pre ++ [last]).head?, gen1.Makes a) ∧ (pre ++ [last]).IsChain (fun a b => (f a.value).Makes b) ∧
        Reach r ((pre ++ [last]).map Shr.value) ∧ ∀ c ∈ last.shrinks, Reach r (pre.map Shr.value ++ [c.value])) := by
  have len : ∀ (k s : _) (x : Shr (List α) × σ), accumulateSized gen1 f minSize k s = .ok x → minSize ≤ k →
      x.1.value.length = k := by
    rintro k s ⟨x, s'⟩ hx hk
    unfold accumulateSized at hx
    split at hx
    · cases hx; simp; omega
    obtain ⟨⟨t, s2⟩, h3, h2⟩ := Outcome.bind_eq_ok.mp hx
    obtain ⟨⟨us, s3⟩, h4, h2⟩ := Outcome.bind_eq_ok.mp h2
    obtain ⟨shr, h5, h2⟩ := Outcome.bind_eq_ok.mp h2
    simp only [Outcome.pure_eq, Outcome.ok.injEq, Prod.mk.injEq] at h2
    obtain ⟨rfl, rfl⟩ := h2
    obtain ⟨-, hl⟩ := steppers_chain _ _ _ _ _ h4
    unfold listLikeLength at h5
    split at h5
    · cases h5
    cases h5
    rw [value_map, value_andThen, value_map, sizeRange, value_map, bsNat_value, List.take_of_length_le] <;>
      simp <;> omega
  have total : ∀ n, Gen.Makes (interval R u64 minSize maxSize) n → ∀ v : Int, Reach n v → ∀ s,
      ∃ r, accumulateSized gen1 f minSize v.toNat s = .ok r := by
    rintro n ⟨s1, s2, h1⟩ v hv s
    have hsz := size_range R h h' h1 hv
    unfold accumulateSized
    split
    · exact ⟨_, rfl⟩
    obtain ⟨⟨t, s3⟩, e1⟩ := hg s
    obtain ⟨⟨us, s4⟩, e2⟩ := steppers_total hf (v.toNat - 1) t s3
    obtain ⟨-, hl⟩ := steppers_chain _ _ _ _ _ e2
    simp only [e1, e2, Outcome.ok_bind, listLikeLength]
    rw [if_neg (by simp; omega)]
    exact ⟨_, rfl⟩
  obtain ⟨n, s1, h1, h2, h3⟩ := C40_complete _ _ total _ _ _ _ hr
  obtain ⟨g1, w, g2, g3, g4⟩ := size_tree R h h' h1
  refine ⟨n, s1, h1, fun k hk hk' => ?_, fun hpos => ?_⟩
  · obtain ⟨u, ⟨s2, s3, hm⟩, hu⟩ := h2 k (g1 k hk hk')
    exact ⟨u.value, by simpa using len _ _ _ hm (by omega), hu⟩
  · obtain ⟨u, ⟨s2, s3, hm⟩, hu⟩ := h3 w g2 g4
    rw [g3] at hm
    simp only [Int.toNat_natCast] at hm
    unfold accumulateSized at hm
    rw [if_neg (by omega)] at hm
    obtain ⟨⟨t, s4⟩, e1, hm⟩ := Outcome.bind_eq_ok.mp hm
    obtain ⟨⟨us, s5⟩, e2, hm⟩ := Outcome.bind_eq_ok.mp hm
    obtain ⟨shr, e3, hm⟩ := Outcome.bind_eq_ok.mp hm
    simp only [Outcome.pure_eq, Outcome.ok.injEq, Prod.mk.injEq] at hm
    obtain ⟨rfl, rfl⟩ := hm
    obtain ⟨hl, hch⟩ := steppers_ok _ _ _ _ _ e2
    have hlen : (t :: us).length = minSize := by simp [hl]; omega
    unfold listLikeLength at e3
    rw [if_neg (by omega), hlen, sizeRange, Nat.sub_self] at e3
    have e4 : bsNat 0 = leaf 0 := by
      rw [← eta (bsNat 0), bsNat_value]
      congr 1
    rw [e4] at e3
    have e5 : shr = leaf (t :: us) := by
      cases e3
      simp [leaf, ← hlen]
    subst e5
    obtain ⟨pre, last, hp⟩ : ∃ pre last, t :: us = pre ++ [last] := by
      rcases List.eq_nil_or_concat (t :: us) with h | ⟨p, l, h⟩
      · simp at h
      · exact ⟨p, l, by simpa using h⟩
    refine ⟨pre, last, by rw [← hp]; exact hlen, ?_, by rw [← hp]; exact hch, hu _ ?_, fun c hc => hu _ ?_⟩
    · rw [← hp]
      simp only [List.head?_cons, Option.mem_def, Option.some.injEq, forall_eq']
      exact ⟨_, _, e1⟩
    · rw [reach_map]
      exact ⟨t :: us, by rw [reach_andThen]; exact ⟨_, .refl _, .inl rfl⟩, by rw [hp]⟩
    · rw [reach_map]
      refine ⟨pre ++ [c], ?_, by simp⟩
      rw [reach_andThen]
      refine ⟨_, .refl _, .inr ⟨rfl, leaf (pre ++ [c]), ?_, .self _⟩⟩
      rw [hp]
      simp only [shrinkLast, value_leaf, List.getLast?_append, List.getLast?_singleton, Option.some_or,
        List.dropLast_concat]
      exact List.mem_map_of_mem hc

/-- Increasing lists: the first element up to 3, each further one at most 2 larger than its predecessor. -/
example : ∃ r, accumulate script (interval script u8 0 3) (fun a => interval script u8 a (a + 2)) 1 2 (fun _ => [2])
    [2, 1, 3] = .ok (r, []) ∧ r.value = [1, 3] := ⟨_, rfl, rfl⟩
set_option maxRecDepth 4000 in
example : ∃ r, aggregate script (interval script u8 0 3) (fun a => interval script u8 a (a + 2)) 1 2
    (fun _ => [2, 2]) [2, 1, 3, 5] = .ok (r, []) ∧ r.value = 5 := ⟨_, rfl, rfl⟩

/-! ### C42 Nullable, shared_ptr -/

/-- C42 is violated: a generator given to `Arbi<Nullable<T>>` or `Arbi<shared_ptr<T>>` is not used. The
configured generator only makes 1; the results hold 7. -/
theorem C42_violated :
    (∃ r, arbiSharedPtr (arbiInt script u8) (just 1) [2 ^ 64 - 1, 7] = .ok (r, []) ∧ r.value = 7) ∧
    (∃ r, arbiNullable script (arbiInt script u8) (just 1) [0, 2 ^ 64 - 1, 7] = .ok (r, []) ∧ r.value = some 7) ∧
    ∀ t v, Gen.Makes (σ := List Int) (just (1 : Int)) t → Reach t v → v = 1 := by
  refine ⟨⟨_, rfl, rfl⟩, ⟨_, rfl, rfl⟩, ?_⟩
  rintro t v ⟨s, s', h⟩ hv
  cases h
  exact (reach_leaf.mp hv).symm

/-- C42, the part that holds: values come from `Arbi<T>`, so the claim holds if `elemGen` is the default
`Arbi<T>` (or makes at least what that makes). Missing: other element generators. -/
theorem C42_partial (R : Rng σ) (arbi elemGen : Gen σ α) (hd : ∀ t, arbi.Makes t → elemGen.Makes t) (s s' : σ) :
    (∀ r, arbiSharedPtr arbi elemGen s = .ok (r, s') → ∃ t, elemGen.Makes t ∧ ∀ v, Reach r v ↔ Reach t v) ∧
    (∀ r, arbiNullable R arbi elemGen s = .ok (r, s') →
      (∀ v, Reach r v ↔ v = none) ∨ ∃ t, elemGen.Makes t ∧ ∀ v, Reach r v ↔ ∃ w, Reach t w ∧ v = some w) := by
  refine ⟨fun r h => ?_, fun r h => ?_⟩
  · obtain ⟨t, h0, rfl⟩ := bind_pure_ok h
    refine ⟨t, hd t ⟨s, s', h0⟩, fun v => ?_⟩
    rw [reach_map]
    simp
  · unfold arbiNullable at h
    split at h
    split at h
    · obtain ⟨t, h0, rfl⟩ := bind_pure_ok h
      refine .inr ⟨t, hd t ⟨_, s', h0⟩, fun v => ?_⟩
      have e : ∀ t : Shr α, t.mapShrinkable (fun shr => leaf (some shr.value)) = t.map some := by
        intro t
        induction t using Shr.ind with
        | h v ss ih =>
          simp only [mapShrinkable, withShrinks, mapShrinkableList_eq, map_node, value_node, leaf]
          congr 1
          exact List.map_congr_left ih
      rw [e, reach_map]
    · cases h
      exact .inl fun v => by rw [reach_leaf, eq_comm]

example : (∃ r, arbiNullable script (arbiInt script u8) (arbiInt script u8) [0, 2 ^ 64 - 1, 7] = .ok (r, []) ∧
    r.value = some 7) ∧
    (∃ r, arbiNullable script (arbiInt script u8) (arbiInt script u8) [2 ^ 64 - 1] = .ok (r, []) ∧ r.value = none) :=
  ⟨⟨_, rfl, rfl⟩, _, rfl, rfl⟩

/-! ### C87 construct -/

/-- C87. `Construct` calls the constructor with one value generated by each argument generator, in the position
of the argument; the generators are called one after the other in some order. The object has no shrinks. -/
theorem C87_construct {n : Nat} {A : Fin n → Type} (ctor : ((i : Fin n) → A i) → Outcome γ)
    (gens : (i : Fin n) → Gen σ (A i)) (order : List (Fin n)) (ho : order.Nodup) (s s' : σ) (r : Shr γ)
    (h : construct ctor gens order s = .ok (r, s')) :
    ∃ ts : (i : Fin n) → Shr (A i), Gen.DrawsTuple gens ts order s s' ∧ (∀ i, i ∈ order) ∧
      ctor (fun i => (ts i).value) = .ok r.value ∧ r.shrinks = [] := by
  unfold construct at h
  obtain ⟨⟨ts, s1⟩, h1, h⟩ := Outcome.bind_eq_ok.mp h
  obtain ⟨v, h2, h⟩ := Outcome.bind_eq_ok.mp h
  cases h
  obtain ⟨h3, h4⟩ := Gen.drawTuple_draws gens order ho s ts _ h1
  exact ⟨ts, h3, h4, h2, rfl⟩

/-- C87. What the constructor throws is thrown, and if the generators and the constructor return, so does
`Construct`. -/
theorem C87_ctor {n : Nat} {A : Fin n → Type} (ctor : ((i : Fin n) → A i) → Outcome γ)
    (gens : (i : Fin n) → Gen σ (A i)) (order : List (Fin n)) (hn : order.Nodup) (ho : ∀ i, i ∈ order)
    (hg : ∀ i s, ∃ r, gens i s = .ok r) (s : σ) :
    ∃ ts s', Gen.DrawsTuple gens ts order s s' ∧
      (∀ e, ctor (fun i => (ts i).value) = .throws e → construct ctor gens order s = .throws e) ∧
      ∀ v, ctor (fun i => (ts i).value) = .ok v → ∃ r, construct ctor gens order s = .ok (r, s') := by
  obtain ⟨⟨c, s'⟩, e⟩ := Gen.drawTuple_total gens order ho hg s
  refine ⟨c, s', (Gen.drawTuple_draws gens order hn s c _ e).1, fun x hx => ?_, fun v hv => ?_⟩
  · simp [construct, e, hx]
  · exact ⟨leaf v, by simp [construct, e, hv]⟩

example : construct (A := fun _ : Fin 2 => Int) (fun a => .ok (10 * a 0 + a 1)) (fun _ => interval script u8 0 9)
    [1, 0] [3, 4] = .ok (leaf 43, []) := rfl

end Verif
