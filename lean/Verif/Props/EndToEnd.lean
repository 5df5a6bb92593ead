import Verif.Lemmas.PropertyGreedy
import Verif.Props.Property
import Verif.Props.Integral
import Verif.Props.BinSearch
import Verif.Props.ListLike
/-
C108-C110: what `forAll` reports, for whole runs (engine, generator and shrink trees together).
-/
namespace Verif
namespace Engine
open PairTuple Integral IntType Random Shr BinSearch ListLike
variable {n : Nat} {A : Fin n → Type} {σ β : Type}

/-! ### C108 -/

/-- C108. The shrink phase is greedy: one argument after the other is shrunk, the offered candidates are tried from
first to last, and the first one that fails is taken over. Both the reported tuple and the sequence of the calls made
while shrinking are those of greedy shrinking. -/
theorem C108_greedy {c : Cfg σ A} (hc : Setting c) {f : Args A → Ev Bool} (hf : c.Pure f)
    {fails : Args A → Bool} (hfails : ∀ a, fails a = true ↔ (f a).Rejects)
    (fuel : Nat) (seed : σ) (a : Nat) (start shrunk : Tup A) (tr : Trace A)
    (h : forAll c fuel seed [] = (.ok (.falsified a start shrunk), tr)) :
    shrunk = greedyEach fails c.orderEach start ∧
    (calls .shrink tr).map Prod.fst = greedyEachTried fails c.orderEach start := by
  have hr := forAll_result hc fuel seed
  rw [h] at hr
  obtain ⟨i, hi, hst⟩ := hr.stop a start shrunk rfl
  obtain ⟨pre, x, s', t', s1, s2, hR, _, _, _, _, h0, _, hsp, rfl⟩ := hst.ex
  cases hR
  obtain ⟨h1, h2⟩ := shrinkEach_greedy hc.quiet hf hfails _ _ _ _ _ hsp.run
  refine ⟨h1, ?_⟩
  rw [h2, List.length_eq_zero_iff.mp h0]
  simp

/-- C108 for properties of one argument. -/
theorem C108_single_argument {α : Type} {c : Cfg σ (fun _ : Fin 1 => α)} (hc : Setting c) (ho : c.orderEach = [0])
    {f : Args (fun _ : Fin 1 => α) → Ev Bool} (hf : c.Pure f) {fails : α → Bool}
    (hfails : ∀ v, fails v = true ↔ (f fun _ => v).Rejects) (fuel : Nat) (seed : σ) (a : Nat)
    (start shrunk : Tup (fun _ : Fin 1 => α)) (tr : Trace (fun _ : Fin 1 => α))
    (h : forAll c fuel seed [] = (.ok (.falsified a start shrunk), tr)) :
    (shrunk 0).value = (start 0).greedy fails ∧
    (calls .shrink tr).map (fun x => x.1 0) = (start 0).greedyTried fails ∧
    (calls .shrink tr).length = (start 0).greedyEvals fails := by
  have hconst : ∀ b : Args (fun _ : Fin 1 => α), b = fun _ => b 0 := by
    intro b; funext i; obtain rfl : i = 0 := Subsingleton.elim _ _; rfl
  obtain ⟨h1, h2⟩ := C108_greedy hc hf (fails := fun b => fails (b 0))
    (by intro b; rw [hfails, ← hconst b]) fuel seed a start shrunk tr h
  rw [ho] at h1 h2
  simp only [greedyEach, greedyEachTried, Function.update_self, List.append_nil] at h1 h2
  have h3 : (calls .shrink tr).map (fun x => x.1 0) = (start 0).greedyTried fails := by
    have := congrArg (List.map (fun b : Args (fun _ : Fin 1 => α) => b 0)) h2
    simpa [Function.comp_def] using this
  refine ⟨?_, h3, ?_⟩
  · rw [h1, Function.update_self]
    exact Shr.greedyNode_value _ _
  · rw [← Shr.greedyTried_length, ← h3, List.length_map]

example : shown (forAll (demo (fun _ => .node 9 [.node 2 [], .node 5 [.node 3 []], .node 4 []])
      (fun a => returns (decide (a < 3))) 10) 5 0 []) = (.ok false, some (1, 9, 3), [9], [2, 5, 3]) ∧
    (Shr.node 9 [.node 2 [], .node 5 [.node 3 []], .node 4 []]).greedyTried (fun a => decide (¬ a < 3)) = [2, 5, 3] := by
  decide +kernel

/-! ### C109 -/

/-- The starting tuple of a run of a one argument property was made by its generator. -/
theorem start_makes {α : Type} {c : Cfg σ (fun _ : Fin 1 => α)} (hc : Setting c) (hd : c.orderRun = [0])
    (fuel : Nat) (seed : σ) (a : Nat)
    (start shrunk : Tup (fun _ : Fin 1 => α)) (tr : Trace (fun _ : Fin 1 => α))
    (h : forAll c fuel seed [] = (.ok (.falsified a start shrunk), tr)) : Gen.Makes (c.gens 0) (start 0) := by
  have hr := forAll_result hc fuel seed
  rw [h] at hr
  obtain ⟨i, hi, hst⟩ := hr.stop a start shrunk rfl
  obtain ⟨pre, x, s', t', s1, s2, hR, _, _, _, ⟨s, r, hdraw⟩, _⟩ := hst.ex
  cases hR
  rw [hd] at hdraw
  exact (Gen.drawTuple_draws _ _ (by simp) _ _ _ hdraw).1.makes 0 (by simp)

/-- The drawn tuple is rejected. -/
theorem start_rejects {α : Type} {c : Cfg σ (fun _ : Fin 1 => α)} (hc : Setting c)
    {f : Args (fun _ : Fin 1 => α) → Ev Bool} (hf : c.Pure f)
    (hq : ∀ a, (f a).out = .throws .success ∨ (f a).out = .throws .discard → (f a).fails = [])
    (fuel : Nat) (seed : σ) (a : Nat)
    (start shrunk : Tup (fun _ : Fin 1 => α)) (tr : Trace (fun _ : Fin 1 => α))
    (h : forAll c fuel seed [] = (.ok (.falsified a start shrunk), tr)) : (f fun _ => (start 0).value).Rejects := by
  have := start_fails hc hf hq fuel seed a start shrunk tr h
  have e : (fun i => (start i).value) = fun _ : Fin 1 => (start 0).value := by
    funext i; obtain rfl : i = 0 := Subsingleton.elim _ _; rfl
  rw [e] at this
  rcases this with h4 | ⟨e, h4, h5, _⟩ | h4
  · exact Or.inl h4
  · exact Or.inr (Or.inl ⟨e, h4, h5⟩)
  · exact Or.inr (Or.inr h4)

/-- A property of one argument without hooks and time limit, over the scripted random source. -/
def demoOf {α : Type} (g : Gen (List Int) α) (f : α → Ev Bool) (runs : Nat) : Cfg (List Int) (fun _ : Fin 1 => α) where
  gens := fun _ => g
  orderRun := [0]
  orderShrink := [0]
  orderEach := [0]
  thrown := id
  func := fun _ a => f (a 0)
  startup := none
  cleanup := none
  numRuns := runs
  maxDurationMs := 0
  clock := fun _ => 0

theorem demoOf_setting {α : Type} (g : Gen (List Int) α) (f : α → Ev Bool) (runs : Nat)
    (hg : ∀ s, ∃ r, g s = .ok r) : Setting (demoOf g f runs) where
  quiet := ⟨fun k h => by simp [demoOf] at h, fun k h => by simp [demoOf] at h⟩
  order := rfl
  nodup := by simp [demoOf]
  gens := fun s => by
    obtain ⟨⟨t, s'⟩, h⟩ := hg s
    unfold Gen.drawTuple
    simp only [demoOf, Gen.drawInto, h, Outcome.ok_bind]
    rw [dif_pos (by intro i; obtain rfl : i = 0 := Subsingleton.elim _ _; rfl)]
    simp

/-- The reported counterexample: the count, the drawn and the shrunk argument. -/
def seen {α : Type} (r : Outcome (Report (fun _ : Fin 1 => α)) × Trace (fun _ : Fin 1 => α)) : Option (Nat × α × α) :=
  match r.1 with
  | .ok (.falsified a s t) => some (a, (s 0).value, (t 0).value)
  | _ => none

theorem seen_falsified {α : Type} {r : Outcome (Report (fun _ : Fin 1 => α)) × Trace (fun _ : Fin 1 => α)}
    {a : Nat} {s t : α} (h : seen r = some (a, s, t)) :
    ∃ start shrunk tr, r = (.ok (.falsified a start shrunk), tr) ∧ (start 0).value = s ∧ (shrunk 0).value = t := by
  obtain ⟨o, tr⟩ := r
  cases o with
  | ok R =>
    cases R with
    | falsified a' s' t' =>
      simp [seen] at h
      obtain ⟨rfl, h2, h3⟩ := h
      exact ⟨s', t', tr, rfl, h2, h3⟩
    | passed => simp [seen] at h
    | timedOut k => simp [seen] at h
  | throws e => simp [seen] at h
  | ub => simp [seen] at h
  | diverges => simp [seen] at h

theorem returns_rejects (b : Bool) : (returns b).Rejects ↔ b = false := by
  cases b <;> simp [returns, Ev.Rejects]

/-- C109. A property of one integer drawn by `interval<T>(min, max)` that fails exactly for the numbers `≥ hi` and
`≤ lo` of the range, where `lo < z < hi` for the number `z` of the range nearest to zero, is reported with exactly
one of the two smallest failing numbers, the one on the side of the failing number drawn; and the shrink phase calls
the property at most 1 + ⌈log2 d⌉ times, d being the distance of the drawn number from the one nearest to zero. -/
theorem C109_interval_threshold (R : Rng σ) (T : IntType) (hT : T ∈ all) (min max z lo hi : Int)
    (h1 : T.lo ≤ min) (h2 : max ≤ T.hi) (hz : Nearest0 min max z) (hlo : lo < z) (hhi : z < hi)
    {c : Cfg σ (fun _ : Fin 1 => Int)} (hc : Setting c) (hd : c.orderRun = [0]) (ho : c.orderEach = [0])
    (hg : c.gens 0 = interval R T min max)
    {f : Args (fun _ : Fin 1 => Int) → Ev Bool} (hf : c.Pure f)
    (hq : ∀ a, (f a).out = .throws .success ∨ (f a).out = .throws .discard → (f a).fails = [])
    (hthr : ∀ v, min ≤ v → v ≤ max → ((f fun _ => v).Rejects ↔ hi ≤ v ∨ v ≤ lo))
    (fuel : Nat) (seed : σ) (a : Nat)
    (start shrunk : Tup (fun _ : Fin 1 => Int)) (tr : Trace (fun _ : Fin 1 => Int))
    (h : forAll c fuel seed [] = (.ok (.falsified a start shrunk), tr)) :
    (z < (start 0).value → (shrunk 0).value = hi) ∧ ((start 0).value < z → (shrunk 0).value = lo) ∧
    (start 0).value ≠ z ∧ (calls .shrink tr).length ≤ 1 + Nat.clog 2 ((start 0).value - z).natAbs := by
  classical
  let fails : Int → Bool := fun v => decide (f fun _ => v).Rejects
  have hfails : ∀ v, fails v = true ↔ (f fun _ => v).Rejects := fun v => by simp [fails]
  obtain ⟨hv, _, hlen⟩ := C108_single_argument hc ho hf hfails fuel seed a start shrunk tr h
  obtain ⟨s, s', hs⟩ := start_makes hc hd fuel seed a start shrunk tr h
  have hrej := start_rejects hc hf hq fuel seed a start shrunk tr h
  rw [hg] at hs
  have hz' := nearest0_unique hz
  obtain ⟨hz1, hz2, _⟩ := hz
  -- the drawn tree
  unfold interval generateInteger at hs
  rw [Outcome.bind_eq_ok] at hs
  obtain ⟨⟨v, s1⟩, hdv, hs⟩ := hs
  simp only at hs
  rw [Outcome.bind_eq_ok] at hs
  obtain ⟨t, ht, hs⟩ := hs
  cases hs
  obtain ⟨v0, s0, e0, hv1, hv2⟩ := drawValue_ok R hT (boundary_mem hT) (boundary_length hT) s h1 (by omega) h2
  rw [e0] at hdv
  cases hdv
  have hb := u64_bounds hT
  have hl := lo_le_hi hT
  rw [u64_hi, i64_lo] at hb
  have hzr : -(2 ^ 63) ≤ z ∧ z ≤ 2 ^ 64 - 1 ∧ (z < 0 → max = z) ∧ (0 < z → min = z) := by
    subst hz'
    unfold near0
    split
    · omega
    · split <;> omega
  have hev : ∀ (m : Nat) (g : Nat → Int), ((bsNat m).map g).greedyEvals fails ≤ 1 + Nat.clog 2 m := by
    intro m g
    refine Nat.le_trans (greedyEvals_le_cost fails _) ?_
    rw [cost_map]
    exact cost_bsNat_le m
  rcases shrinkableOf_eq hT h1 hv1 hv2 h2 with ⟨hle, e⟩ | ⟨hle, e⟩
  all_goals
    rw [ht] at e
    simp only [Outcome.ok.injEq] at e
    rw [← hz'] at hle e
    have hval : (start 0).value = v := by rw [e]; simp [bsNat_value]; omega
    rw [hval] at hrej ⊢
    rw [hthr v hv1 hv2] at hrej
    rw [hlen, hv, e]
    refine ⟨fun (hs : z < v) => ?_, fun (hs : v < z) => ?_, fun (hs : v = z) => ?_, hev _ _⟩
  · rw [Shr.greedy_map, bsNat_greedy _ (hi - z).natAbs _ (by omega)]
    · show (_ : Int) = _
      omega
    · intro w hw
      rw [hfails, hthr _ (by omega) (by omega)]
      omega
  · exfalso; omega
  · exfalso; omega
  · exfalso; omega
  · rw [Shr.greedy_map, bsNat_greedy _ (z - lo).natAbs _ (by omega)]
    · show (_ : Int) = _
      omega
    · intro w hw
      rw [hfails, hthr _ (by omega) (by omega)]
      omega
  · exfalso; omega

/-- `v < 42` over -10..100: 70 is drawn second and reported as 42. -/
example : ∃ (start shrunk : Tup (fun _ : Fin 1 => Int)) (tr : Trace _),
    forAll (demoOf (interval script i32 (-10) 100) (fun v => returns (decide (v < 42))) 10) 50
      [5, 70] [] = (.ok (.falsified 2 start shrunk), tr) ∧ (start 0).value = 70 ∧ (shrunk 0).value = 42 ∧
    Setting (demoOf (interval script i32 (-10) 100) (fun v => returns (decide (v < 42))) 10) ∧
    Nearest0 (-10) 100 0 ∧
    ∀ v : Int, -10 ≤ v → v ≤ 100 → ((returns (decide (v < 42))).Rejects ↔ 42 ≤ v ∨ v ≤ -11) := by
  obtain ⟨start, shrunk, tr, h1, h2, h3⟩ := seen_falsified (r := forAll (demoOf (interval script i32 (-10) 100)
    (fun v => returns (decide (v < 42))) 10) 50 [5, 70] []) (a := 2) (s := 70) (t := 42) (by decide +kernel)
  refine ⟨start, shrunk, tr, h1, h2, h3, demoOf_setting _ _ _ fun s => ?_, ⟨by decide, by decide, fun w _ _ => by simp⟩, fun v h1 h2 => ?_⟩
  · obtain ⟨t, s', h, _⟩ := C17_interval script i32 (by decide) (-10) 100 s (by decide) (by decide) (by decide)
    exact ⟨_, h⟩
  · rw [returns_rejects]; simp; omega

theorem bsNat_greedy_zero (fails : Nat → Bool) (n : Nat) (h : fails 0 = true) : (bsNat n).greedy fails = 0 := by
  unfold bsNat
  rw [greedy]
  by_cases h0 : n = 0
  · subst h0; simp [greedyList]
  · rw [if_neg h0, greedyList]
    simp [h, leaf, greedy, greedyList]

/-- C109. When the property fails for the number `z` of the range nearest to zero, whatever it does for the other
numbers, then exactly `z` is reported. -/
theorem C109_nearest (R : Rng σ) (T : IntType) (hT : T ∈ all) (min max z : Int)
    (h1 : T.lo ≤ min) (h2 : max ≤ T.hi) (hz : Nearest0 min max z)
    {c : Cfg σ (fun _ : Fin 1 => Int)} (hc : Setting c) (hd : c.orderRun = [0]) (ho : c.orderEach = [0])
    (hg : c.gens 0 = interval R T min max)
    {f : Args (fun _ : Fin 1 => Int) → Ev Bool} (hf : c.Pure f)
    (hrej : (f fun _ => z).Rejects)
    (fuel : Nat) (seed : σ) (a : Nat)
    (start shrunk : Tup (fun _ : Fin 1 => Int)) (tr : Trace (fun _ : Fin 1 => Int))
    (h : forAll c fuel seed [] = (.ok (.falsified a start shrunk), tr)) :
    (shrunk 0).value = z := by
  classical
  let fails : Int → Bool := fun v => decide (f fun _ => v).Rejects
  have hfails : ∀ v, fails v = true ↔ (f fun _ => v).Rejects := fun v => by simp [fails]
  obtain ⟨hv, -, -⟩ := C108_single_argument hc ho hf hfails fuel seed a start shrunk tr h
  obtain ⟨s, s', hs⟩ := start_makes hc hd fuel seed a start shrunk tr h
  rw [hg] at hs
  have hz' := nearest0_unique hz
  obtain ⟨hz1, hz2, _⟩ := hz
  unfold interval generateInteger at hs
  rw [Outcome.bind_eq_ok] at hs
  obtain ⟨⟨v, s1⟩, hdv, hs⟩ := hs
  simp only at hs
  rw [Outcome.bind_eq_ok] at hs
  obtain ⟨t, ht, hs⟩ := hs
  cases hs
  obtain ⟨v0, s0, e0, hv1, hv2⟩ := drawValue_ok R hT (boundary_mem hT) (boundary_length hT) s h1 (by omega) h2
  rw [e0] at hdv
  cases hdv
  rcases shrinkableOf_eq hT h1 hv1 hv2 h2 with ⟨hle, e⟩ | ⟨hle, e⟩
  all_goals
    rw [ht] at e
    simp only [Outcome.ok.injEq] at e
    rw [← hz'] at hle e
    rw [hv, e, Shr.greedy_map, bsNat_greedy_zero _ _ (by simpa [hfails] using hrej)]
    show (_ : Int) = _
    simp

/-! ### C110 -/

theorem greedy_andThen (fails : β → Bool) (k : Shr β → List (Shr β)) (t : Shr β) :
    ∃ u, Desc t u ∧ u.value = t.greedy fails ∧
      ((t.andThen k).greedy fails = u.value ∨
        (u.shrinks = [] ∧ (t.andThen k).greedy fails = greedyList fails u.value (k u))) := by
  induction t using Shr.ind with
  | h v ss ih =>
    by_cases hs : ss = []
    · subst hs
      refine ⟨node v [], .refl _, by simp [greedy, greedyList], .inr ⟨rfl, ?_⟩⟩
      rw [greedy_eq_list, value_andThen, shrinks_andThen_nil _ rfl]
    · have key : ∀ l : List (Shr β), (∀ c ∈ l, c ∈ ss) →
          (greedyList fails v l = v ∧ greedyList fails v (l.map (andThen k)) = v) ∨
          ∃ c ∈ l, greedyList fails v l = c.greedy fails ∧
            greedyList fails v (l.map (andThen k)) = (c.andThen k).greedy fails := by
        intro l hl
        induction l with
        | nil => exact .inl ⟨rfl, rfl⟩
        | cons c cs ihc =>
          simp only [List.map_cons, greedyList, value_andThen]
          split
          · exact .inr ⟨c, by simp, rfl, rfl⟩
          · rcases ihc (fun d hd => hl d (by simp [hd])) with h | ⟨d, hd, h⟩
            · exact .inl h
            · exact .inr ⟨d, by simp [hd], h⟩
      rw [greedy_eq_list, greedy_eq_list, value_andThen, shrinks_andThen_ne _ (by simpa using hs), value_node,
        shrinks_node]
      rcases key ss (fun _ h => h) with ⟨h1, h2⟩ | ⟨c, hc, h1, h2⟩
      · rw [h1, h2]
        exact ⟨node v ss, .refl _, rfl, .inl rfl⟩
      · rw [h1, h2]
        obtain ⟨u, hu, h3⟩ := ih c hc
        exact ⟨u, .step (by simpa using hc) hu, h3⟩

theorem greedyList_fails (fails : β → Bool) (ss : List (Shr β)) (v : β) (hv : fails v = true) :
    fails (greedyList fails v ss) = true := by
  have : ∀ t : Shr β, fails t.value = true → fails (t.greedy fails) = true := by
    intro t
    induction t using Shr.ind with
    | h w ts ih =>
      intro hw
      rw [greedy]
      induction ts with
      | nil => exact hw
      | cons c cs ihc =>
        rw [greedyList]
        split
        · exact ih c (by simp) ‹_›
        · exact ihc (fun d hd => ih d (by simp [hd])) hw
  exact this (node v ss) hv

theorem greedy_reach (fails : β → Bool) (t : Shr β) : Reach t (t.greedy fails) := by
  induction t using Shr.ind with
  | h w ts ih =>
    rw [greedy]
    have : ∀ l : List (Shr β), (∀ c ∈ l, c ∈ ts) → Reach (node w ts) (greedyList fails w l) := by
      intro l hl
      induction l with
      | nil => exact ⟨_, .refl _, rfl⟩
      | cons c cs ihc =>
        rw [greedyList]
        split
        · exact .child (by simpa using hl c (by simp)) (ih c (hl c (by simp)))
        · exact ihc fun d hd => hl d (by simp [hd])
    exact this ts fun _ h => h

theorem listLike_value {xs : List (Shr β)} {m : Nat} {ew : Bool} {t : Shr (List β)}
    (h : listLike xs m ew = .ok t) : t.value = xs.map Shr.value := by
  unfold listLike at h
  rw [Outcome.bind_eq_ok] at h
  obtain ⟨t1, e5, e6⟩ := h
  simp at e6
  subst e6
  have := (C24_defined xs m).2 t1 e5
  rw [value_flatMap]
  cases ew <;> simp [this]

/-- Greedy shrinking of a generated list, for a property whose failure persists when elements are added. -/
theorem greedy_listLike {xs : List (Shr β)} {m : Nat} {ew : Bool} {t : Shr (List β)}
    (h : listLike xs m ew = .ok t) (fails : List β → Bool) (hx : fails (xs.map Shr.value) = true)
    (hmono : ∀ ys zs : List β, ys.Sublist zs → zs.Sublist (xs.map Shr.value) → m ≤ ys.length →
      fails ys = true → fails zs = true) :
    fails (t.greedy fails) = true ∧
    ∃ zs : List (Shr β), zs.Sublist xs ∧ m ≤ zs.length ∧ fails (zs.map Shr.value) = true ∧
      (∀ ws : List (Shr β), ws.Sublist zs → m ≤ ws.length → fails (ws.map Shr.value) = true → ws = zs) ∧
      List.Forall₂ Reach zs (t.greedy fails) := by
  unfold listLike at h
  rw [Outcome.bind_eq_ok] at h
  obtain ⟨t0, h0, h1⟩ := h
  simp at h1
  subst h1
  rw [flatMap_eq_map, greedy_map]
  simp only [value_leaf]
  generalize hF : (fun a : List (Shr β) => fails (a.map Shr.value)) = F
  have hFx : F xs = true := by subst hF; exact hx
  obtain ⟨g1, g2, g3, g4⟩ := C79_minimal xs m t0 h0 F hFx (by
    subst hF
    exact fun ys zs hy hz hm hf => hmono _ _ (hy.map _) (hz.map _) (by simpa using hm) hf)
  have self : ∀ l : List (Shr β), List.Forall₂ Reach l (l.map Shr.value) := by
    intro l
    induction l with
    | nil => exact .nil
    | cons a l ih => exact .cons (.self a) ih
  have main : ∃ w, (if ew = true then andThen elementwise t0 else t0).greedy F = w ∧ F w = true ∧
      List.Forall₂ Desc (t0.greedy F) w := by
    have rfl' : ∀ l : List (Shr β), List.Forall₂ Desc l l := by
      intro l
      induction l with
      | nil => exact .nil
      | cons a l ih => exact .cons (.refl a) ih
    cases ew with
    | false => exact ⟨_, rfl, g1, rfl' _⟩
    | true =>
      obtain ⟨u, hu, hv, h2⟩ := greedy_andThen F elementwise t0
      rw [if_pos rfl]
      refine ⟨_, rfl, ?_⟩
      rcases h2 with h2 | ⟨he, h2⟩
      · rw [h2, hv]; exact ⟨g1, rfl' _⟩
      · have e : u = leaf u.value := by rw [← eta u, he]; rfl
        rw [h2, ← hv]
        refine ⟨greedyList_fails F _ _ (by rw [hv]; exact g1), ?_⟩
        rw [e, elementwise_leaf]
        have := greedy_reach F (bulkTree u.value)
        rw [greedy_eq_list] at this
        have hval : (bulkTree u.value).value = u.value := by simp [bulkTree]
        rw [hval] at this
        simpa [bulkTree] using reach_bulkTree this
  obtain ⟨w, e, hw, hd⟩ := main
  rw [e]
  subst hF
  refine ⟨hw, t0.greedy _, g2, g3, g1, fun ws h1 h2 h3 => g4 ws h1 h2 h3, ?_⟩
  clear e hw g1 g2 g3 g4
  generalize t0.greedy _ = l at hd
  induction hd with
  | nil => exact .nil
  | cons h _ ih => exact .cons ⟨_, h, rfl⟩ ih

/-- C110. A property of one vector whose failure persists when elements are added is reported with a failing vector
that has the elements of a minimal failing selection of the drawn elements, each moved within its own shrink tree:
removing any further elements from the selection (keeping `minSize`) makes the property pass. -/
theorem C110_vector_minimal {α : Type} (R : Rng σ) (g : Gen σ α) (minSize maxSize : Nat) (hm : minSize ≤ maxSize)
    (hb : maxSize < 2 ^ 32) {c : Cfg σ (fun _ : Fin 1 => List α)} (hc : Setting c) (hd : c.orderRun = [0])
    (ho : c.orderEach = [0]) (hg : c.gens 0 = arbiVector R g minSize maxSize)
    {f : Args (fun _ : Fin 1 => List α) → Ev Bool} (hf : c.Pure f)
    (hq : ∀ a, (f a).out = .throws .success ∨ (f a).out = .throws .discard → (f a).fails = [])
    (hmono : ∀ ys zs : List α, ys.Sublist zs → (f fun _ => ys).Rejects → (f fun _ => zs).Rejects)
    (fuel : Nat) (seed : σ) (a : Nat)
    (start shrunk : Tup (fun _ : Fin 1 => List α)) (tr : Trace (fun _ : Fin 1 => List α))
    (h : forAll c fuel seed [] = (.ok (.falsified a start shrunk), tr)) :
    (f fun _ => (shrunk 0).value).Rejects ∧
    ∃ xs zs : List (Shr α), (start 0).value = xs.map Shr.value ∧ (∀ x ∈ xs, Gen.Makes g x) ∧
      zs.Sublist xs ∧ minSize ≤ zs.length ∧ (f fun _ => zs.map Shr.value).Rejects ∧
      (∀ ws : List (Shr α), ws.Sublist zs → minSize ≤ ws.length → (f fun _ => ws.map Shr.value).Rejects → ws = zs) ∧
      List.Forall₂ Reach zs (shrunk 0).value := by
  classical
  let fails : List α → Bool := fun v => decide (f fun _ => v).Rejects
  have hfails : ∀ v, fails v = true ↔ (f fun _ => v).Rejects := fun v => by simp [fails]
  obtain ⟨hv, _, -⟩ := C108_single_argument hc ho hf hfails fuel seed a start shrunk tr h
  obtain ⟨s, s', hs⟩ := start_makes hc hd fuel seed a start shrunk tr h
  have hrej : (f fun _ => (start 0).value).Rejects := start_rejects hc hf hq fuel seed a start shrunk tr h
  rw [hg] at hs
  unfold arbiVector at hs
  obtain ⟨v, s1, e1, h1, h2, -⟩ := getRandomSize_draw R s hm hb
  rw [e1] at hs
  simp only [Outcome.ok_bind, Outcome.bind_eq_ok] at hs
  obtain ⟨⟨xs, s2⟩, e2, t0, e3, e4⟩ := hs
  simp at e4
  obtain ⟨rfl, rfl⟩ := e4
  obtain ⟨hl, hgd⟩ := drawMany_ok g _ _ _ _ e2
  have hsv : (start 0).value = xs.map Shr.value := listLike_value e3
  obtain ⟨k1, zs, k2, k3, k4, k5, k6⟩ := greedy_listLike e3 fails (by rw [hfails, ← hsv]; exact hrej)
    (fun ys zs h1 _ _ h2 => (hfails _).mpr (hmono ys zs h1 ((hfails _).mp h2)))
  rw [hv]
  refine ⟨(hfails _).mp k1, xs, zs, hsv, hgd.makes, k2, k3, (hfails _).mp k4, fun ws a1 a2 a3 => k5 ws a1 a2 ((hfails _).mpr a3), k6⟩

/-- C110. A property of one vector that fails exactly for the vectors with at least `k` elements is reported with a
vector of exactly `max k minSize` elements. -/
theorem C110_vector_length {α : Type} (R : Rng σ) (g : Gen σ α) (minSize maxSize k : Nat) (hm : minSize ≤ maxSize)
    (hb : maxSize < 2 ^ 32) {c : Cfg σ (fun _ : Fin 1 => List α)} (hc : Setting c) (hd : c.orderRun = [0])
    (ho : c.orderEach = [0]) (hg : c.gens 0 = arbiVector R g minSize maxSize)
    {f : Args (fun _ : Fin 1 => List α) → Ev Bool} (hf : c.Pure f)
    (hq : ∀ a, (f a).out = .throws .success ∨ (f a).out = .throws .discard → (f a).fails = [])
    (hk : ∀ v, (f fun _ => v).Rejects ↔ k ≤ v.length)
    (fuel : Nat) (seed : σ) (a : Nat)
    (start shrunk : Tup (fun _ : Fin 1 => List α)) (tr : Trace (fun _ : Fin 1 => List α))
    (h : forAll c fuel seed [] = (.ok (.falsified a start shrunk), tr)) :
    (shrunk 0).value.length = max k minSize := by
  obtain ⟨h1, xs, zs, -, -, -, h3, h4, h5, h6⟩ := C110_vector_minimal R g minSize maxSize hm hb hc hd ho hg hf hq
    (fun ys zs h1 h2 => by rw [hk] at h2 ⊢; have := h1.length_le; omega) fuel seed a start shrunk tr h
  rw [← h6.length_eq]
  rw [hk, List.length_map] at h4
  have := h5 (zs.take (max k minSize)) (List.take_sublist _ _) (by simp; omega) (by rw [hk]; simp; omega)
  have := congrArg List.length this
  simp at this
  omega

/-- `v.size() < 2`: `[5, 70, 6, 7]` is drawn and reported as a list of two elements. -/
example : ∃ (start shrunk : Tup (fun _ : Fin 1 => List Int)) (tr : Trace _),
    forAll (demoOf (arbiVector script (interval script i32 (-10) 100) 0 5) (fun v => returns (decide (v.length < 2))) 10)
      50 [4, 5, 70, 6, 7] [] = (.ok (.falsified 1 start shrunk), tr) ∧
      (start 0).value = [5, 70, 6, 7] ∧ (shrunk 0).value = [5, 70] ∧
    Setting (demoOf (arbiVector script (interval script i32 (-10) 100) 0 5)
      (fun v => returns (decide (v.length < 2))) 10) ∧
    ∀ v : List Int, (returns (decide (v.length < 2))).Rejects ↔ 2 ≤ v.length := by
  obtain ⟨start, shrunk, tr, h1, h2, h3⟩ := seen_falsified (r := forAll (demoOf (arbiVector script
    (interval script i32 (-10) 100) 0 5) (fun v => returns (decide (v.length < 2))) 10) 50
    [4, 5, 70, 6, 7] []) (a := 1) (s := [5, 70, 6, 7]) (t := [5, 70]) (by decide +kernel)
  refine ⟨start, shrunk, tr, h1, h2, h3, demoOf_setting _ _ _ fun s => ?_, fun v => ?_⟩
  · exact C27_vector_total script _ 0 5 (by decide) (by decide) (fun s => by
      obtain ⟨t, s', h, _⟩ := C17_interval script i32 (by decide) (-10) 100 s (by decide) (by decide) (by decide)
      exact ⟨_, h⟩) s
  · rw [returns_rejects]; simp

end Engine
end Verif
