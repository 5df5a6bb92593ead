import Verif.Props.Simplest
import Verif.Props.Combinator
import Verif.Props.OneOf
/-
C174: shrinking works through all combinators. The claim is that of /repo/docs/Shrinking.md: shrinking is fully supported for
all built-in generators and combinators. An argument without a role in a failure (C136) shows what a combinator makes of the
simplest forms of the values it is applied to.
-/
namespace Verif
open Shr Random Integral IntType ListLike Containers Comb
variable {σ α β γ : Type}

theorem Gen.SimplestIs.mono {g : Gen σ α} {P Q : α → Prop} (h : g.SimplestIs P) (hPQ : ∀ a, P a → Q a) : g.SimplestIs Q :=
  fun t u ht hu => hPQ _ (h t u ht hu)

/-! ### filter -/

/-- If the simplest form is accepted, the accepted shrinks lead there. -/
theorem simplest_filterStream (c : α → Bool) {s u : Shr α} (h : Simplest s u) (hu : c u.value = true) (ss : List (Shr α)) :
    ∃ w r, filterStream c 1 (s :: ss) = w :: r ∧ Simplest w u ∧ nodes w ≤ nodes s := by
  induction h generalizing ss with
  | @done t h =>
    exact ⟨t, filterStream c 1 ss, by rw [filterStream, if_pos hu], .done h, le_refl _⟩
  | @step t s u rest h hs ih =>
    by_cases hc : c t.value = true
    · exact ⟨t, filterStream c 1 ss, by rw [filterStream, if_pos hc], .step h hs, le_refl _⟩
    · obtain ⟨w, r, h1, h2, h3⟩ := ih hu ss
      refine ⟨w, r, ?_, h2, ?_⟩
      · rw [filterStream, if_neg hc, h]
        have : takeInt 1 (s :: rest) = [s] := by
          have := takeInt_nat 1 (s :: rest)
          simpa using this
        rw [this]
        exact h1
      · have := nodes_lt_of_mem (l := t.shrinks) (s := s) (by rw [h]; simp)
        cases t
        simp only [nodes, shrinks] at *
        omega

theorem simplest_filterTolKept (c : α → Bool) {u : Shr α} (hu : c u.value = true) : ∀ (n : Nat) (t : Shr α), nodes t ≤ n →
    Simplest t u → ∃ w, Simplest (filterTolKept c 1 t) w ∧ w.value = u.value
  | 0, t, hn, _ => by cases t; simp only [nodes] at hn; omega
  | n + 1, t, hn, h => by
    cases h with
    | done h =>
      refine ⟨_, .done ?_, by simp⟩
      rw [shrinks_filterTolKept, h, filterStream]
      rfl
    | @step _ s _ rest h hs =>
      obtain ⟨w, r, h1, h2, h3⟩ := simplest_filterStream c hs hu rest
      have hlt : nodes s < nodes t := by
        have := nodes_lt_of_mem (l := t.shrinks) (s := s) (by rw [h]; simp)
        cases t
        simp only [nodes, shrinks] at *
        omega
      obtain ⟨x, hx, hv⟩ := simplest_filterTolKept c hu n w (by omega) h2
      refine ⟨x, .step (s := filterTolKept c 1 w) (rest := r.map (filterTolKept c 1)) ?_ hx, hv⟩
      rw [shrinks_filterTolKept, h, h1]
      rfl

/-- **C174** `filter`, `suchThat`: if the simplest form is accepted it is reported, although shrinks on the way may be
rejected. -/
theorem C174_filter (g : Gen σ α) (c : α → Bool) (fuel : Nat) (P : α → Prop) (hg : g.SimplestIs P) (hP : ∀ a, P a → c a = true) :
    (Comb.filter g c fuel).SimplestIs P := by
  rintro t u ⟨s, s', h⟩ hu
  induction fuel generalizing s with
  | zero => cases h
  | succ fuel ih =>
    rw [Comb.filter] at h
    obtain ⟨⟨t₀, s1⟩, h1, h⟩ := Outcome.bind_eq_ok.mp h
    dsimp only at h
    by_cases hc : c t₀.value = true
    · rw [if_pos hc] at h
      obtain ⟨t1, h2, h⟩ := Outcome.bind_eq_ok.mp h
      cases h
      rw [filterTol, if_pos hc] at h2
      cases h2
      obtain ⟨u₀, hu₀⟩ := Simplest.exists t₀
      have hp := hg _ _ ⟨_, _, h1⟩ hu₀
      obtain ⟨w, hw, hv⟩ := simplest_filterTolKept c (hP _ hp) _ t₀ (le_refl _) hu₀
      rw [hu.unique hw, hv]
      exact hp
    · rw [if_neg hc] at h
      exact ih _ h

/-- Even numbers: the simplest one is zero. -/
example (R : Rng σ) (fuel : Nat) : (Comb.filter (arbiInt R i32) (fun v => v % 2 = 0) fuel).SimplestIs (· = 0) :=
  C174_filter _ _ _ _ (C136_integers R i32 (by decide)) (by rintro _ rfl; rfl)

/-! ### oneOf, elementOf, intervals -/

/-- **C174** `oneOf`, `unionOf`: the simplest form of the alternative that was taken. -/
theorem C174_oneOf (R : Rng σ) (gens ws : List (Weighted σ α)) (h : oneOf gens = .ok ws) (fuel : Nat)
    (P : Weighted σ α → α → Prop) (hg : ∀ g ∈ gens, g.gen.SimplestIs (P g)) :
    Gen.SimplestIs (oneOfLoop R ws fuel) (fun a => ∃ g ∈ gens, P g a) := by
  rintro t u ⟨s, s', ht⟩ hu
  obtain ⟨g, hm, s₀, e⟩ := C33_oneOf_partial R gens ws h fuel s s' t ht
  exact ⟨g, hm, hg g hm t u ⟨_, _, e⟩ hu⟩

example : (oneOf [{ gen := arbiInt script i32, weight := .fin 0 }, { gen := arbiInt script i8, weight := .fin 0 }]).bind
    (fun ws => .ok (ws.length)) = .ok 2 := by decide +kernel

/-- **C174** `elementOf`, `just`, `lazy` have no shrinks: what is generated is reported, one of the given values. -/
theorem C174_elementOf (R : Rng σ) (vals : List (α × Dbl)) (ws : List (Weighted σ α)) (h : elementOf vals = .ok ws)
    (fuel : Nat) (t u : Shr α) (ht : Gen.Makes (oneOfLoop R ws fuel) t) (hu : Simplest t u) :
    u = t ∧ ∃ w, (u.value, w) ∈ vals := by
  obtain ⟨s, s', ht⟩ := ht
  obtain ⟨h1, h2⟩ := C33_elementOf R vals ws h fuel s s' t ht
  have e := hu.unique (.done h1)
  exact ⟨e, by rw [e]; exact h2⟩

example : (elementOf (σ := List Int) [(10, .fin (1/2)), (20, .fin (1/2))]).bind (fun ws => .ok (ws.length)) = .ok 2 := by
  decide +kernel

/-- **C174** `lazy`: what is generated is what one call of the function has returned, and it is reported as it is. -/
theorem C174_lazy (f : Unit → Outcome α) (t u : Shr α) (ht : Gen.Makes (lazy f : Gen σ α) t) (hu : Simplest t u) :
    u = t ∧ f () = .ok u.value := by
  obtain ⟨s, s', ht⟩ := ht
  obtain ⟨v, hv, ht⟩ := Outcome.bind_eq_ok.mp ht
  cases ht
  have e := hu.unique (.done rfl)
  exact ⟨e, by rw [e, hv]; rfl⟩

example : Gen.Makes (lazy fun _ => .ok 7 : Gen Nat Nat) (leaf 7) := ⟨0, 0, rfl⟩

/-- **C174** `intervals`: the number nearest to 0 of the interval that was taken. -/
theorem C174_intervals (R : Rng σ) (is : List (Int × Int))
    (hb : ∀ i ∈ is, i64.lo ≤ i.1 ∧ i.1 ≤ i64.hi ∧ i64.lo ≤ i.2 ∧ i.2 ≤ i64.hi) (ws : List (Weighted σ Int))
    (h : intervals R is = .ok ws) (fuel : Nat) :
    Gen.SimplestIs (oneOfLoop R ws fuel) (fun a => ∃ i ∈ is, Nearest0 i.1 i.2 a) := by
  obtain ⟨sum, h1, h⟩ := Outcome.bind_eq_ok.mp h
  obtain ⟨gs, h2, h3⟩ := Outcome.bind_eq_ok.mp h
  have key := C174_oneOf R gs ws h3 fuel (fun g a => ∃ i ∈ is, Nearest0 i.1 i.2 a) ?_
  · exact key.mono fun a ⟨_, _, h⟩ => h
  · intro g hg
    obtain ⟨i, hi, n, -, hgen, -⟩ := weightSizes_ok h2 g hg
    obtain ⟨b1, b2, b3, b4⟩ := hb i hi
    rw [hgen]
    by_cases hle : i.1 ≤ i.2
    · obtain ⟨z, hz⟩ : ∃ z, Nearest0 i.1 i.2 z := by
        by_cases h0 : i.1 ≤ 0
        · by_cases h00 : 0 ≤ i.2
          · exact ⟨0, by omega, by omega, fun v _ _ => by omega⟩
          · exact ⟨i.2, by omega, by omega, fun v _ _ => by omega⟩
        · exact ⟨i.1, by omega, by omega, fun v _ _ => by omega⟩
      exact (C136_interval R i64 (by simp [all]) i.1 i.2 z b1 b4 hz).mono fun a e => ⟨i, hi, e ▸ hz⟩
    · rintro t u ⟨s, s', ht⟩
      rw [C19_empty_interval R i64 (by simp [all]) i.1 i.2 s b3 (by omega) b2] at ht
      cases ht

example : Nearest0 (-20) (-10) (-10) ∧ Nearest0 5 30 5 :=
  ⟨⟨by omega, by omega, fun v _ _ => by omega⟩, by omega, by omega, fun v _ _ => by omega⟩

/-! ### dependency, chain, derive -/

theorem simplest_lazyMapList (f : α → σ → Outcome β) (o : List Nat → σ) {t u : Shr α} (h : Simplest t u)
    (hf : ∀ w, Desc t w → ∀ s, ∃ b, f w.value s = .ok b) (p : List Nat) (b : β) (s : σ) (hb : f t.value s = .ok b) :
    ∃ x s, Simplest (node b (lazyMapList f o p 0 t.shrinks)) x ∧ f u.value s = .ok x.value := by
  induction h generalizing p b s with
  | @done t h => exact ⟨_, s, .done (by rw [h, shrinks_node, lazyMapList]), hb⟩
  | @step t c u rest h _ ih =>
    have hc : c ∈ t.shrinks := by rw [h]; simp
    obtain ⟨b', hb'⟩ := hf c (.step hc (.refl _)) (o (0 :: p))
    obtain ⟨x, s1, hx, he⟩ := ih (fun w hw => hf w (.step hc hw)) (0 :: p) b' _ hb'
    refine ⟨x, s1, .step (s := node b' (lazyMapList f o (0 :: p) 0 c.shrinks)) (rest := lazyMapList f o p 1 rest) ?_ hx, he⟩
    rw [h, shrinks_node, lazyMapList]
    cases c
    simp only [value_node] at hb'
    simp only [lazyMap, hb', shrinks_node]

/-- The value of the root has no influence, unless it is the simplest form itself. -/
theorem Simplest.root {t u : Shr α} (h : Simplest t u) (a : α) :
    (t.shrinks = [] ∧ u = t) ∨ Simplest (node a t.shrinks) u := by
  cases h with
  | done h => exact .inl ⟨h, rfl⟩
  | step h hs => exact .inr (.step (by rw [shrinks_node]; exact h) hs)

/-- The simplest form of a dependent shrinkable: the first component is simplified, then the second component is generated
anew and simplified. -/
theorem simplest_dependent {gen1 : Gen σ α} {gen2gen : α → Gen σ β}
    (hf : ∀ t, gen1.Makes t → ∀ v, Reach t v → ∀ s, ∃ r, gen2gen v s = .ok r)
    {o : List Nat → σ} {s s' : σ} {i : Shr (α × Shr β)} (h : dependent gen1 gen2gen o s = .ok (i, s')) :
    ∃ t w v v' y, gen1.Makes t ∧ Simplest t w ∧ (gen2gen w.value).Makes v ∧ Simplest v v' ∧ Simplest i y ∧
      y.value.1 = w.value ∧ y.value.2.value = v'.value := by
  unfold dependent at h
  obtain ⟨⟨t, s1⟩, h1, h⟩ := Outcome.bind_eq_ok.mp h
  obtain ⟨⟨u, s2⟩, h2, h⟩ := Outcome.bind_eq_ok.mp h
  obtain ⟨s4, -, h⟩ := Outcome.bind_eq_ok.mp h
  simp only [Outcome.pure_eq, Outcome.ok.injEq, Prod.mk.injEq] at h
  obtain ⟨rfl, rfl⟩ := h
  obtain ⟨w, hw⟩ := Simplest.exists t
  obtain ⟨x, s3, hx, hxv⟩ := simplest_lazyMapList (inter gen2gen) o hw (fun w hw s => by
    obtain ⟨r, hr⟩ := hf t ⟨_, _, h1⟩ w.value ⟨w, hw, rfl⟩ s
    exact ⟨(w.value, r.1), by simp [inter, hr]⟩) [] (t.value, u) s1 (by simp [inter, h2])
  obtain ⟨e1, hm⟩ := inter_eq hxv
  obtain ⟨v', hv'⟩ := Simplest.exists x.value.2
  have key : ∃ y, Simplest (node x.value (expand x)) y ∧ y.value.1 = w.value ∧ y.value.2.value = v'.value := by
    have hy := hv'.flatMap fun u => leaf (x.value.1, leaf u)
    have hval : (v'.flatMap fun u => leaf (x.value.1, leaf u)).value = (x.value.1, leaf v'.value) := by
      rw [flatMap_eq_map, value_map]; rfl
    rcases hy.root x.value with ⟨h, e⟩ | h
    · refine ⟨_, .done (by rw [shrinks_node, expand]; exact h), by rw [value_node]; exact e1, ?_⟩
      rw [value_node]
      rw [shrinks_flatMap, List.map_eq_nil_iff] at h
      rw [hv'.unique (.done h)]
    · exact ⟨_, h, by rw [hval]; exact e1, by rw [hval]; rfl⟩
  obtain ⟨y, hy, y1, y2⟩ := key
  exact ⟨t, w, x.value.2, v', y, ⟨_, _, h1⟩, hw, by rw [← e1] at hm ⊢; exact hm, hv', hx.andThen _ hy, y1, y2⟩

/-- **C174** `dependency`, `pairWith`: both components are simplified; the second one is made for the simplest form of the first
one. -/
theorem C174_dependency (gen1 : Gen σ α) (f : α → Gen σ β)
    (hf : ∀ t, gen1.Makes t → ∀ v, Reach t v → ∀ s, ∃ r, f v s = .ok r) (o : List Nat → σ) (P : α → Prop) (Q : α → β → Prop)
    (h1 : gen1.SimplestIs P) (h2 : ∀ a, P a → (f a).SimplestIs (Q a)) :
    (dependency gen1 f o).SimplestIs (fun p => P p.1 ∧ Q p.1 p.2) := by
  rintro t u ⟨s, s', h⟩ hu
  obtain ⟨i, h0, rfl⟩ := bind_pure_ok h
  obtain ⟨t, w, v, v', y, g1, g2, g3, g4, g5, e1, e2⟩ := simplest_dependent hf h0
  rw [hu.unique (g5.flatMap _), flatMap_eq_map, value_map, value_leaf, e1, e2]
  exact ⟨h1 _ _ g1 g2, h2 _ (h1 _ _ g1 g2) _ _ g3 g4⟩

/-- **C174** `chain`, `tupleWith`: likewise. -/
theorem C174_chain (cat : α → β → γ) (gen1 : Gen σ α) (f : α → Gen σ β)
    (hf : ∀ t, gen1.Makes t → ∀ v, Reach t v → ∀ s, ∃ r, f v s = .ok r) (o : List Nat → σ) (P : α → Prop) (Q : α → β → Prop)
    (h1 : gen1.SimplestIs P) (h2 : ∀ a, P a → (f a).SimplestIs (Q a)) :
    (chain cat gen1 f o).SimplestIs (fun c => ∃ a b, c = cat a b ∧ P a ∧ Q a b) := by
  rintro t u ⟨s, s', h⟩ hu
  obtain ⟨i, h0, rfl⟩ := bind_pure_ok h
  obtain ⟨t, w, v, v', y, g1, g2, g3, g4, g5, e1, e2⟩ := simplest_dependent hf h0
  rw [hu.unique (g5.flatMap _), flatMap_eq_map, value_map, value_leaf, e1, e2]
  exact ⟨_, _, rfl, h1 _ _ g1 g2, h2 _ (h1 _ _ g1 g2) _ _ g3 g4⟩

/-- **C174** `derive`, `flatMap`: the simplest form of what is made for the simplest form of the first value. -/
theorem C174_derive (gen1 : Gen σ α) (f : α → Gen σ β)
    (hf : ∀ t, gen1.Makes t → ∀ v, Reach t v → ∀ s, ∃ r, f v s = .ok r) (o : List Nat → σ) (P : α → Prop) (Q : α → β → Prop)
    (h1 : gen1.SimplestIs P) (h2 : ∀ a, P a → (f a).SimplestIs (Q a)) :
    (derive gen1 f o).SimplestIs (fun b => ∃ a, P a ∧ Q a b) := by
  rintro t u ⟨s, s', h⟩ hu
  obtain ⟨i, h0, rfl⟩ := bind_pure_ok h
  obtain ⟨t, w, v, v', y, g1, g2, g3, g4, g5, e1, e2⟩ := simplest_dependent hf h0
  rw [hu.unique (g5.flatMap _), flatMap_eq_map, value_map, e2]
  exact ⟨_, h1 _ _ g1 g2, h2 _ (h1 _ _ g1 g2) _ _ g3 g4⟩

/-- A number and a vector of that many booleans, as in /repo/docs/Combinators.md: the simplest form consists of the smallest
number, 1, and the vector with one `false`. -/
example (R : Rng σ) (o : List Nat → σ) :
    (dependency (interval R u16 1 3) (fun n => arbiVector R (arbiBool R (some (2 ^ 63))) n.toNat n.toNat) o).SimplestIs
      (fun p => p = (1, [false])) := by
  refine Gen.SimplestIs.mono (C174_dependency _ _ ?_ o (· = 1) (fun a l => l.length = a.toNat ∧ ∀ x ∈ l, x = false) ?_ ?_) ?_
  · rintro t ⟨s, s', ht⟩ v hv s
    obtain ⟨t', s'', e, hg⟩ := C17_interval R u16 (by simp [all]) 1 3 _ (by decide) (by decide) (by decide)
    rw [ht] at e
    cases e
    have := hg.1 v hv
    exact C27_vector_total R _ v.toNat v.toNat (le_refl _) (by omega) (fun s => ⟨_, rfl⟩) s
  · exact C136_interval R u16 (by simp [all]) 1 3 1 (by decide) (by decide) ⟨by omega, by omega, fun v _ _ => by omega⟩
  · rintro a rfl
    exact C136_vector R _ _ _ _ (C136_bool R _)
  · rintro ⟨a, l⟩ ⟨rfl, h, h'⟩
    match l, h with
    | [x], _ => simp only [h' x (by simp)]

/-! ### aggregate, accumulate -/

theorem simplest_size (R : Rng σ) {lo hi : Nat} (h : lo ≤ hi) (h' : hi < 2 ^ 64) :
    Gen.SimplestIs (interval R u64 lo hi) (· = (lo : Int)) :=
  C136_interval R u64 (by simp [all]) lo hi lo (by rw [u64_lo]; omega) (by rw [u64_hi]; omega)
    ⟨by omega, by omega, fun v _ _ => by omega⟩

theorem steps_made {f : α → Gen σ α} (n : Nat) (t u : Shr α) (s s' : σ) (h : steps f (n + 1) t s = .ok (u, s')) :
    ∃ a, (f a).Makes u := by
  induction n generalizing t s with
  | zero =>
    rw [Comb.steps] at h
    obtain ⟨⟨t', s1⟩, h1, h⟩ := Outcome.bind_eq_ok.mp h
    cases h
    exact ⟨_, _, _, h1⟩
  | succ n ih =>
    rw [Comb.steps] at h
    obtain ⟨⟨t', s1⟩, h1, h⟩ := Outcome.bind_eq_ok.mp h
    exact ih _ _ h

/-- **C174** `aggregate`: the simplest form of the last value of `minSize` steps. -/
theorem C174_aggregate (R : Rng σ) (gen1 : Gen σ α) (f : α → Gen σ α) (hg : ∀ s, ∃ r, gen1 s = .ok r)
    (hf : ∀ v s, ∃ r, f v s = .ok r) (minSize maxSize : Nat) (h : minSize ≤ maxSize) (h' : maxSize < 2 ^ 64)
    (o : List Nat → σ) (P : α → Prop) (Q : α → α → Prop) (h1 : gen1.SimplestIs P) (h2 : ∀ a, (f a).SimplestIs (Q a)) :
    (aggregate R gen1 f minSize maxSize o).SimplestIs (fun b => (minSize = 0 → P b) ∧ (0 < minSize → ∃ a, Q a b)) := by
  refine (C174_derive _ _ (fun _ _ v _ s => ?_) o _ (fun _ b => (minSize = 0 → P b) ∧ (0 < minSize → ∃ a, Q a b))
    (simplest_size R h h') ?_).mono fun b ⟨_, _, h⟩ => h
  · obtain ⟨⟨t, s1⟩, e⟩ := hg s
    obtain ⟨x, hx⟩ := steps_total hf v.toNat t s1
    exact ⟨x, by simp [e, hx]⟩
  · rintro _ rfl t u ⟨s, s', ht⟩ hu
    obtain ⟨⟨t', s1⟩, e1, ht⟩ := Outcome.bind_eq_ok.mp ht
    simp only [Int.toNat_natCast] at ht
    constructor
    · rintro rfl
      cases ht
      exact h1 _ _ ⟨_, _, e1⟩ hu
    · intro hpos
      obtain ⟨n, rfl⟩ : ∃ n, minSize = n + 1 := ⟨minSize - 1, by omega⟩
      obtain ⟨a, ha⟩ := steps_made _ _ _ _ _ ht
      exact ⟨a, h2 a _ _ ha hu⟩

/-- Random walks of two to nine steps: the simplest value is 0. -/
example (R : Rng σ) (o : List Nat → σ) :
    (aggregate R (arbiInt R i32) (fun _ => arbiInt R i32) 2 9 o).SimplestIs (· = 0) := by
  have tot : ∀ s, ∃ r, arbiInt R i32 s = .ok r := fun s => by
    obtain ⟨t, s', e, -⟩ := C20_arbi R i32 (by simp [all]) s
    exact ⟨_, e⟩
  exact (C174_aggregate R _ _ tot (fun _ => tot) 2 9 (by omega) (by omega) o _ (fun _ b => b = 0)
    (C136_integers R i32 (by simp [all])) (fun _ => C136_integers R i32 (by simp [all]))).mono
      fun b h => (h.2 (by omega)).choose_spec

/-- **C174** `accumulate`, exactly: the simplest list has `minSize` elements; all of them are as generated, except for the last
one, which is replaced by the first of its shrinks if it has any. -/
theorem C174_accumulate_partial (R : Rng σ) (gen1 : Gen σ α) (f : α → Gen σ α) (hg : ∀ s, ∃ r, gen1 s = .ok r)
    (hf : ∀ v s, ∃ r, f v s = .ok r) (minSize maxSize : Nat) (h : minSize ≤ maxSize) (h' : maxSize < 2 ^ 64)
    (o : List Nat → σ) :
    (accumulate R gen1 f minSize maxSize o).SimplestIs (fun l => ∃ ts : List (Shr α), ts.length = minSize ∧
      (∀ t ∈ ts.head?, gen1.Makes t) ∧ ts.IsChain (fun a b => (f a.value).Makes b) ∧
      l = ts.dropLast.map Shr.value ++ (ts.getLast?.map fun x => (x.shrinks.headD x).value).toList) := by
  refine (C174_derive _ _ ?_ o _ (fun _ l => ∃ ts : List (Shr α), ts.length = minSize ∧
      (∀ t ∈ ts.head?, gen1.Makes t) ∧ ts.IsChain (fun a b => (f a.value).Makes b) ∧
      l = ts.dropLast.map Shr.value ++ (ts.getLast?.map fun x => (x.shrinks.headD x).value).toList)
    (simplest_size R h h') ?_).mono fun b ⟨_, _, h⟩ => h
  · rintro n ⟨s1, s2, h1⟩ v hv s
    have hsz := size_range R h h' h1 hv
    unfold accumulateSized
    split
    · exact ⟨_, rfl⟩
    obtain ⟨⟨t, s3⟩, e1⟩ := hg s
    obtain ⟨⟨us, s4⟩, e2⟩ := steppers_total hf (v.toNat - 1) t s3
    obtain ⟨-, hl⟩ := steppers_chain _ _ _ _ _ e2
    simp only [e1, e2, Outcome.ok_bind, listLikeLength]
    rw [if_neg (by simp; omega)]
    exact ⟨_, rfl⟩
  · rintro _ rfl r u ⟨s, s', hm⟩ hu
    simp only [Int.toNat_natCast] at hm
    unfold accumulateSized at hm
    split at hm
    · next h0 =>
      cases hm
      rw [hu.unique (simplest_leaf _)]
      exact ⟨[], by simp [h0], by simp, by simp, by simp⟩
    obtain ⟨⟨t, s4⟩, e1, hm⟩ := Outcome.bind_eq_ok.mp hm
    obtain ⟨⟨us, s5⟩, e2, hm⟩ := Outcome.bind_eq_ok.mp hm
    obtain ⟨shr, e3, hm⟩ := Outcome.bind_eq_ok.mp hm
    simp only [Outcome.pure_eq, Outcome.ok.injEq, Prod.mk.injEq] at hm
    obtain ⟨rfl, rfl⟩ := hm
    obtain ⟨hl, hch⟩ := steppers_ok _ _ _ _ _ e2
    have hlen : (t :: us).length = minSize := by simp [hl]; omega
    refine ⟨t :: us, hlen, ?_, hch, ?_⟩
    · simp only [List.head?_cons, Option.mem_def, Option.some.injEq, forall_eq']
      exact ⟨_, _, e1⟩
    unfold listLikeLength at e3
    rw [if_neg (by omega)] at e3
    cases e3
    have g1 : Simplest ((sizeRange minSize (t :: us).length).map fun newSize => (t :: us).take newSize) (leaf (t :: us)) := by
      have := (simplest_sizeRange minSize (t :: us).length).map fun newSize => (t :: us).take newSize
      simpa [Shr.leaf, ← hlen] using this
    obtain ⟨pre, last, hp⟩ : ∃ pre last, t :: us = pre ++ [last] := by
      rcases List.eq_nil_or_concat (t :: us) with h | ⟨p, l, h⟩
      · simp at h
      · exact ⟨p, l, by simpa using h⟩
    rw [hp] at g1 hu ⊢
    have g2 : ∃ y, Simplest (node (pre ++ [last]) (shrinkLast (leaf (pre ++ [last])))) y ∧
        y.value.map Shr.value = pre.map Shr.value ++ [(last.shrinks.headD last).value] := by
      have e : shrinkLast (leaf (pre ++ [last])) = last.shrinks.map fun elem => leaf (pre ++ [elem]) := by
        simp only [shrinkLast, value_leaf, List.getLast?_append, List.getLast?_singleton, Option.some_or,
          List.dropLast_concat]
      rw [e]
      cases hs : last.shrinks with
      | nil => exact ⟨_, .done rfl, by simp⟩
      | cons c cs => exact ⟨_, .step rfl (.done rfl), by simp⟩
    obtain ⟨y, g3, g4⟩ := g2
    rw [hu.unique ((g1.andThen shrinkLast g3).map _), value_map, g4]
    simp

/-- **C174** is violated for `accumulate`: whatever is true of the values as they are generated is true of all elements of the
simplest list but the last one, however simple the simplest forms of these values are. -/
theorem C174_accumulate_violated (R : Rng σ) (gen1 : Gen σ α) (f : α → Gen σ α) (hg : ∀ s, ∃ r, gen1 s = .ok r)
    (hf : ∀ v s, ∃ r, f v s = .ok r) (minSize maxSize : Nat) (h : minSize ≤ maxSize) (h' : maxSize < 2 ^ 64)
    (o : List Nat → σ) (W : α → Prop) (h1 : ∀ t, gen1.Makes t → W t.value) (h2 : ∀ a t, (f a).Makes t → W t.value) :
    (accumulate R gen1 f minSize maxSize o).SimplestIs (fun l => l.length = minSize ∧ ∀ x ∈ l.dropLast, W x) := by
  refine (C174_accumulate_partial R gen1 f hg hf minSize maxSize h h' o).mono ?_
  rintro l ⟨ts, hl, hh, hc, rfl⟩
  have all : ∀ t ∈ ts, W t.value := by
    clear hl
    cases ts with
    | nil => simp
    | cons t ts =>
      intro x hx
      rcases List.mem_cons.mp hx with rfl | hx
      · exact h1 _ (hh _ rfl)
      · clear hh
        induction ts generalizing t with
        | nil => simp at hx
        | cons y ys ih =>
          rw [List.isChain_cons_cons] at hc
          rcases List.mem_cons.mp hx with rfl | hx
          · exact h2 _ _ hc.1
          · exact ih y hc.2 (by simp [hx]) hx
  rcases List.eq_nil_or_concat ts with rfl | ⟨pre, last, rfl⟩
  · simpa using hl
  · simp only [List.concat_eq_append, List.dropLast_concat, List.getLast?_concat, Option.map_some, Option.toList_some] at *
    refine ⟨by simpa using hl, ?_⟩
    intro x hx
    obtain ⟨t, ht, rfl⟩ := List.mem_map.mp hx
    exact all t (by simp [ht])

/-- A generator that always makes 100, which shrinks to 0. -/
example (R : Rng σ) (o : List Nat → σ) :
    (accumulate R (fun s => .ok (node 100 [leaf 0], s)) (fun _ s => .ok (node 100 [leaf 0], s)) 2 9 o).SimplestIs (fun l => l = [100, 0]) := by
  refine (C174_accumulate_partial R _ _ (fun s => ⟨_, rfl⟩) (fun _ s => ⟨_, rfl⟩) 2 9 (by omega) (by omega) o).mono ?_
  rintro l ⟨ts, hl, hh, hc, rfl⟩
  match ts, hl with
  | [a, b], _ =>
    obtain ⟨s, s', e⟩ := hh a rfl
    cases e
    simp only [List.isChain_cons_cons] at hc
    obtain ⟨⟨s, s', e⟩, -⟩ := hc
    cases e
    rfl

/-! ### Nullable, shared_ptr -/

theorem mapShrinkable_some (t : Shr α) : t.mapShrinkable (fun shr => leaf (some shr.value)) = t.map some := by
  induction t using Shr.ind with
  | h v ss ih =>
    simp only [mapShrinkable, withShrinks, mapShrinkableList_eq, map_node, value_node, leaf]
    congr 1
    exact List.map_congr_left ih

/-- **C174** `shared_ptr`: the object pointed to is simplified. -/
theorem C174_sharedPtr (arbi elemGen : Gen σ α) (P : α → Prop) (h : arbi.SimplestIs P) :
    (arbiSharedPtr arbi elemGen).SimplestIs P := by
  rintro t u ⟨s, s', ht⟩ hu
  obtain ⟨t₀, h0, rfl⟩ := bind_pure_ok ht
  obtain ⟨w, hw⟩ := Simplest.exists t₀
  rw [hu.unique (hw.map id), value_map]
  exact h _ _ ⟨_, _, h0⟩ hw

/-- **C174** `Nullable`: the value is simplified, but a value that is present is never given up: the simplest form is null if
and only if null was generated. -/
theorem C174_nullable (R : Rng σ) (arbi elemGen : Gen σ α) (P : α → Prop) (h : arbi.SimplestIs P) (t u : Shr (Option α))
    (ht : (arbiNullable R arbi elemGen).Makes t) (hu : Simplest t u) :
    (u.value = none ↔ t.value = none) ∧ ∀ a, u.value = some a → P a := by
  obtain ⟨s, s', ht⟩ := ht
  unfold arbiNullable at ht
  split at ht
  split at ht
  · obtain ⟨t₀, h0, rfl⟩ := bind_pure_ok ht
    rw [mapShrinkable_some] at hu ⊢
    obtain ⟨w, hw⟩ := Simplest.exists t₀
    rw [hu.unique (hw.map some), value_map, value_map]
    refine ⟨by simp, fun a e => ?_⟩
    cases e
    exact h _ _ ⟨_, _, h0⟩ hw
  · cases ht
    rw [hu.unique (simplest_leaf _)]
    exact ⟨by simp, fun a e => by cases e⟩

/-- A number that is present becomes 0. -/
example (R : Rng σ) (g : Gen σ Int) (t u : Shr (Option Int)) (ht : (arbiNullable R (arbiInt R i16) g).Makes t) (hu : Simplest t u)
    (h : t.value ≠ none) : u.value = some 0 := by
  obtain ⟨h1, h2⟩ := C174_nullable R _ g _ (C136_integers R i16 (by simp [all])) t u ht hu
  cases hv : u.value with
  | none => exact absurd (h1.mp hv) h
  | some a => rw [h2 a hv]

/-! ### Values that are not simplified -/

/-- **C174** is violated for `construct`: the object made of the values as they were generated is reported, however simple the
simplest forms of these values are. -/
theorem C174_construct_violated {n : Nat} {A : Fin n → Type} (ctor : ((i : Fin n) → A i) → Outcome γ)
    (gens : (i : Fin n) → Gen σ (A i)) (order : List (Fin n)) (t u : Shr γ) (ht : (construct ctor gens order).Makes t)
    (hu : Simplest t u) :
    u = t ∧ ∃ ts : (i : Fin n) → Shr (A i), (∀ i, (gens i).Makes (ts i)) ∧ ctor (fun i => (ts i).value) = .ok u.value := by
  obtain ⟨s, s', ht⟩ := ht
  unfold construct at ht
  obtain ⟨⟨ts, s1⟩, h1, ht⟩ := Outcome.bind_eq_ok.mp ht
  obtain ⟨v, h2, ht⟩ := Outcome.bind_eq_ok.mp ht
  cases ht
  have e := hu.unique (simplest_leaf _)
  subst e
  exact ⟨rfl, ts, Gen.drawTuple_ok _ _ _ _ _ h1, h2⟩

/-- An object made of 100, which could have been made of 0. -/
example : ∃ t, (construct (fun a : (i : Fin 1) → Int => .ok (a 0)) (fun _ (s : List Int) => .ok (node 100 [leaf 0], s)) [0]).Makes t ∧
    t.value = 100 ∧ t.shrinks = [] := ⟨leaf 100, ⟨[], [], rfl⟩, rfl, rfl⟩

/-- **C174** is violated for strings: whatever is true of the characters as they are generated is true of those of the simplest
string. -/
theorem C174_string_violated (R : Rng σ) (g : Gen σ α) (minSize maxSize : Nat) (h : minSize ≤ maxSize) (hb : maxSize < 2 ^ 32)
    (W : α → Prop) (hW : ∀ t, g.Makes t → W t.value) :
    (arbiString R g minSize maxSize).SimplestIs (fun l => l.length = minSize ∧ ∀ x ∈ l, W x) := by
  rintro t u ⟨s, s', hs⟩ hu
  refine ⟨C136_string R g minSize maxSize h hb t u ⟨s, s', hs⟩ hu, ?_⟩
  unfold arbiString at hs
  obtain ⟨v, s1, e1, h1, h2, -⟩ := getRandomSize_draw R s h hb
  rw [e1] at hs
  simp only [Outcome.ok_bind, Outcome.bind_eq_ok] at hs
  obtain ⟨⟨xs, s2⟩, e2, e4⟩ := hs
  cases e4
  obtain ⟨hl, hd⟩ := drawMany_ok g _ _ _ _ e2
  rw [hu.unique (simplest_shrinkString _ _ (by simp; omega))]
  intro x hx
  obtain ⟨y, hy, rfl⟩ := List.mem_map.mp (List.mem_of_mem_take hx)
  exact hW _ (hd.makes y hy)

/-- The letters of a string of at least two characters from a generator that always makes `z`, which shrinks to `a`. -/
example (R : Rng σ) :
    (arbiString R (fun s => .ok (node 'z' [leaf 'a'], s)) 2 9).SimplestIs (fun l => l = ['z', 'z']) := by
  refine (C174_string_violated R _ 2 9 (by omega) (by omega) (· = 'z') ?_).mono ?_
  · rintro t ⟨s, s', e⟩
    cases e
    rfl
  · rintro l ⟨hl, h⟩
    match l, hl with
    | [a, b], _ => rw [h a (by simp), h b (by simp)]

/-- **C174** is violated for sets, likewise. -/
theorem C174_set_violated [LinearOrder α] (R : Rng σ) (g : Gen σ α) (minSize maxSize fuel : Nat) (h : minSize ≤ maxSize)
    (hb : maxSize < 2 ^ 32) (W : α → Prop) (hW : ∀ t, g.Makes t → W t.value) :
    (arbiSet R g minSize maxSize fuel).SimplestIs (fun l => l.length = minSize ∧ ∀ x ∈ l, W x) := by
  rintro t u ht hu
  refine ⟨C136_set R g minSize maxSize fuel h hb t u ht hu, ?_⟩
  obtain ⟨s, s', hs⟩ := ht
  obtain ⟨-, -, -, ⟨s1, ds, -, hd, hv, -⟩, hr⟩ := C29_generated R g minSize maxSize fuel h hb s s' t hs
  intro x hx
  have hx' := ((hr u.value).mp ⟨u, hu.desc, rfl⟩).2.1 x hx
  obtain ⟨y, hy, rfl⟩ := List.mem_map.mp ((hv x).mp hx')
  exact hW _ (hd.makes y hy)

example (R : Rng σ) (fuel : Nat) :
    (arbiSet R (fun s => .ok (node (100 : Int) [leaf 0], s)) 1 1 fuel).SimplestIs (fun l => l = [100]) := by
  refine (C174_set_violated R _ 1 1 fuel (by omega) (by omega) (· = 100) ?_).mono ?_
  · rintro t ⟨s, s', e⟩
    cases e
    rfl
  · rintro l ⟨hl, h⟩
    match l, hl with
    | [a], _ => rw [h a (by simp)]

/-- **C174** is violated for maps, likewise for the keys and for the values. -/
theorem C174_map_violated {κ : Type} [LinearOrder κ] (R : Rng σ) (keyGen : Gen σ κ) (elemGen : Gen σ β)
    (minSize maxSize fuel : Nat) (h : minSize ≤ maxSize) (hb : maxSize < 2 ^ 32) (W : κ → Prop) (V : β → Prop)
    (hW : ∀ t, keyGen.Makes t → W t.value) (hV : ∀ t, elemGen.Makes t → V t.value) :
    (arbiMap R keyGen elemGen minSize maxSize fuel).SimplestIs (fun l => l.length = minSize ∧ ∀ x ∈ l, W x.1 ∧ V x.2) := by
  rintro t u ht hu
  refine ⟨C136_map R keyGen elemGen minSize maxSize fuel h hb t u ht hu, ?_⟩
  obtain ⟨s, s', hs⟩ := ht
  obtain ⟨-, -, -, ⟨s1, s2, ks, es, -, hd, hd', hv, -, hv'⟩, hr⟩ := C30_generated R keyGen elemGen minSize maxSize fuel h hb s s' t hs
  intro x hx
  obtain ⟨k, -, -, e⟩ := (hr u.value).mp ⟨u, hu.desc, rfl⟩
  rw [e] at hx
  have hx' := List.mem_of_mem_take hx
  constructor
  · obtain ⟨y, hy, e⟩ := List.mem_map.mp ((hv x.1).mp (List.mem_map_of_mem hx'))
    rw [← e]
    exact hW _ (hd.makes y hy)
  · have : x.2 ∈ es.map Shr.value := by rw [← hv']; exact List.mem_map_of_mem hx'
    obtain ⟨y, hy, e⟩ := List.mem_map.mp this
    rw [← e]
    exact hV _ (hd'.makes y hy)

example (R : Rng σ) (fuel : Nat) :
    (arbiMap R (fun s => .ok (node (100 : Int) [leaf 0], s)) (fun s => .ok (node (100 : Int) [leaf 0], s)) 1 1 fuel).SimplestIs
      (fun l => l = [(100, 100)]) := by
  refine (C174_map_violated R _ _ 1 1 fuel (by omega) (by omega) (· = 100) (· = 100) ?_ ?_).mono ?_
  · rintro t ⟨s, s', e⟩
    cases e
    rfl
  · rintro t ⟨s, s', e⟩
    cases e
    rfl
  · rintro l ⟨hl, h⟩
    match l, hl with
    | [(a, b)], _ => obtain ⟨h1, h2⟩ := h (a, b) (by simp); simp only at h1 h2; rw [h1, h2]

end Verif
