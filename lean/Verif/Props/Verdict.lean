import Verif.Lemmas.PropertyVerdict
import Verif.Props.Property
import Mathlib.Data.Nat.Find
/-
C111: how `forAll` ends is determined by the draws, and it ends unless too much is discarded.
-/
namespace Verif
namespace Engine
open PairTuple
variable {n : Nat} {A : Fin n → Type} {σ : Type}

/-- `D j` is what the generators yield in the j-th state of the random engine. -/
def Cfg.Drawn (c : Cfg σ A) (seed : σ) (D : Nat → Tup A) : Prop :=
  ∀ j, ∃ r, Gen.drawTuple c.gens c.orderRun (c.next^[j] seed) = .ok (D j, r)

/-- A property function without memory that returns or throws a std::exception, and does not fail an expectation
before PROP_SUCCESS or PROP_DISCARD. -/
structure Regular (c : Cfg σ A) (f : Args A → Ev Bool) : Prop where
  pure : c.Pure f
  out : ∀ a, (∃ b, (f a).out = .ok b) ∨ ∃ e, (f a).out = .throws e ∧ e.isStd = true
  quiet : ∀ a, (f a).out = .throws .success ∨ (f a).out = .throws .discard → (f a).fails = []

/-- The number of draws among the first `l` that are not discarded. -/
def keptAmong (f : Args A → Ev Bool) (D : Nat → Tup A) (l : Nat) : Nat :=
  ((List.range l).filter fun k => !(f fun i => (D k i).value).discarded).length

theorem keptCount_eq (f : Args A → Ev Bool) (D : Nat → Tup A) (l : Nat) :
    keptCount (fun k => f (Tup.get (D k))) 0 l = keptAmong f D l := by
  unfold keptCount keptAmong
  rw [List.range_eq_range']
  rfl

/-- C111. If among the first `m` draws none fails and `numRuns` are not discarded, `forAll` passes, and has called the
property with the draws one after the other, the first `m` at most. -/
theorem C111_passes {c : Cfg σ A} (hc : Setting c) (h0 : c.maxDurationMs = 0) {f : Args A → Ev Bool}
    (hf : Regular c f) (seed : σ) (D : Nat → Tup A) (hD : c.Drawn seed D) (m : Nat)
    (hm : ∀ j < m, ¬ (f fun i => (D j i).value).Fails) (hk : keptAmong f D m = c.numRuns)
    (fuel : Nat) (hfuel : m < fuel) :
    ∃ tr l, forAll c fuel seed [] = (.ok .passed, tr) ∧ l ≤ m ∧
      (calls .run tr).map Prod.fst = (List.range l).map fun j i => (D j i).value := by
  classical
  obtain ⟨s', l, h1, h2, h3⟩ := forLoop_passes hc hf.pure hf.out hf.quiet
    (fails := fun a => decide (f a).Rejects) (by simp) h0 hD c.numRuns m fuel 0 0
    ⟨seed, seed, 0, [], []⟩ hfuel ⟨rfl, rfl, rfl, rfl, rfl⟩ (fun k _ h => hm k (by omega))
    (by rw [keptCount_eq]; exact hk)
  refine ⟨s'.trace, l, ?_, by omega, ?_⟩
  · unfold forAll runForAll Eng.withContext Eng.catchStd Eng.tryCatch
    simp only [h1]
  · rw [h3]; rw [List.map_map]; rfl

/-- C111. If draw number `m` (from 0) is the first that fails, and fewer than `numRuns` before it are not discarded,
`forAll` reports it: "after" counts the draws not discarded, the arguments are those of draw `m` and what greedy
shrinking makes of them; before shrinking the property was called with the draws `0..m` one after the other. -/
theorem C111_falsifies {c : Cfg σ A} (hc : Setting c) (h0 : c.maxDurationMs = 0) {f : Args A → Ev Bool}
    (hf : Regular c f) (seed : σ) (D : Nat → Tup A) (hD : c.Drawn seed D) (m : Nat)
    (hm : ∀ j < m, ¬ (f fun i => (D j i).value).Fails) (hF : (f fun i => (D m i).value).Fails)
    (hk : keptAmong f D m < c.numRuns) {fails : Args A → Bool} (hfails : ∀ a, fails a = true ↔ (f a).Rejects)
    (fuel : Nat) (hfuel : m < fuel) :
    ∃ tr, forAll c fuel seed [] =
        (.ok (.falsified (keptAmong f D m + 1) (D m) (greedyEach fails c.orderEach (D m))), tr) ∧
      (calls .run tr).map Prod.fst = (List.range (m + 1)).map fun j i => (D j i).value := by
  have key := forLoop_fails hc hf.pure hf.out hf.quiet hfails h0 hD c.numRuns m fuel 0 0
    ⟨seed, seed, 0, [], []⟩ hfuel ⟨rfl, rfl, rfl, rfl, rfl⟩ (fun k _ h => hm k (by omega))
    (by rw [Nat.zero_add]; exact hF) (by rw [keptCount_eq]; exact hk)
  rw [keptCount_eq, Nat.zero_add, Nat.zero_add] at key
  unfold forAll runForAll Eng.withContext Eng.catchStd Eng.tryCatch
  rcases key with ⟨R, s', h1, rfl, h2⟩ | ⟨e, s', h1, hs, R, s'', h3, rfl, h2⟩
  · simp only [h1]
    exact ⟨_, rfl, by rw [h2]; rw [List.map_map]; rfl⟩
  · simp only [h1, hs, if_true, h3]
    exact ⟨_, rfl, by rw [h2]; rw [List.map_map]; rfl⟩

/-- C111. If no draw fails and fewer than `numRuns` of all the draws are not discarded, `forAll` never returns. -/
theorem C111_runs_forever {c : Cfg σ A} (hc : Setting c) (h0 : c.maxDurationMs = 0) {f : Args A → Ev Bool}
    (hf : Regular c f) (seed : σ) (D : Nat → Tup A) (hD : c.Drawn seed D)
    (hm : ∀ j, ¬ (f fun i => (D j i).value).Fails) (hk : ∀ m, keptAmong f D m < c.numRuns) (fuel : Nat) :
    (forAll c fuel seed []).1 = .diverges := by
  classical
  have h1 := forLoop_diverges hc hf.pure hf.out hf.quiet
    (fails := fun a => decide (f a).Rejects) (by simp) h0 hD c.numRuns fuel 0 0
    ⟨seed, seed, 0, [], []⟩ ⟨rfl, rfl, rfl, rfl, rfl⟩ (fun k _ => hm k)
    (fun l => by rw [keptCount_eq]; exact hk l)
  unfold forAll runForAll Eng.withContext Eng.catchStd Eng.tryCatch
  cases he : forLoop c fuel c.numRuns ⟨seed, seed, 0, [], []⟩ with
  | mk o s' => rw [he] at h1; simp only at h1; subst h1; rfl

theorem keptAmong_succ (f : Args A → Ev Bool) (D : Nat → Tup A) (l : Nat) :
    keptAmong f D (l + 1) = keptAmong f D l + if (f fun i => (D l i).value).discarded then 0 else 1 := by
  unfold keptAmong
  rw [List.range_succ, List.filter_append, List.length_append]
  cases h : (f fun i => (D l i).value).discarded <;> simp [h]

/-- C111. `forAll` returns as soon as `numRuns` of the draws are not discarded: the verdict is false iff one of the
draws up to there fails. -/
theorem C111_returns {c : Cfg σ A} (hc : Setting c) (h0 : c.maxDurationMs = 0) {f : Args A → Ev Bool}
    (hf : Regular c f) (seed : σ) (D : Nat → Tup A) (hD : c.Drawn seed D) (m : Nat)
    (hk : keptAmong f D m = c.numRuns) (hmin : ∀ l < m, keptAmong f D l < c.numRuns)
    (fuel : Nat) (hfuel : m < fuel) :
    ∃ R tr, forAll c fuel seed [] = (.ok R, tr) ∧
      (R.verdict = false ↔ ∃ j < m, (f fun i => (D j i).value).Fails) := by
  classical
  by_cases h : ∃ j < m, (f fun i => (D j i).value).Fails
  · have hex : ∃ j, j < m ∧ (f fun i => (D j i).value).Fails := h
    obtain ⟨tr, h1, _⟩ := C111_falsifies hc h0 hf seed D hD (Nat.find hex)
      (fun j hj hF => Nat.find_min hex hj ⟨by have := (Nat.find_spec hex).1; omega, hF⟩) (Nat.find_spec hex).2
      (hmin _ (Nat.find_spec hex).1) (fails := fun a => decide (f a).Rejects) (by simp) fuel
      (by have := (Nat.find_spec hex).1; omega)
    exact ⟨_, tr, h1, by simpa [Report.verdict] using h⟩
  · obtain ⟨tr, l, h1, _⟩ := C111_passes hc h0 hf seed D hD m (fun j hj hF => h ⟨j, hj, hF⟩) hk fuel hfuel
    exact ⟨_, tr, h1, by simpa [Report.verdict] using h⟩

theorem demo_drawn (tree : Nat → Shr Nat) (f : Nat → Ev Bool) (runs seed : Nat) :
    (demo tree f runs).Drawn seed fun j _ => tree (seed + j) := by
  intro j
  have hn : ∀ s, (demo tree f runs).next s = s + 1 := by
    intro s; rw [Cfg.next, demo_draw]
  have : ((demo tree f runs).next)^[j] seed = seed + j := by
    induction j with
    | zero => rfl
    | succ j ih => rw [Function.iterate_succ_apply', ih, hn]; rfl
  rw [this]
  exact ⟨_, demo_draw _ _ _ _⟩

theorem fails3_regular (tree : Nat → Shr Nat) (runs : Nat) :
    Regular (demo tree fails3 runs) fun a => fails3 (a 0) where
  pure := fun _ _ => rfl
  out := fun a => by
    unfold fails3
    split
    · exact .inr ⟨_, rfl, rfl⟩
    · split
      · exact .inr ⟨_, rfl, rfl⟩
      · exact .inl ⟨_, rfl⟩
  quiet := fun a _ => by
    unfold fails3
    split
    · rfl
    · split <;> rfl

/-- Draws 0, 1, 2, ...; 0 and 2 are discarded, 3 fails. Two runs: the draws 0..4 are needed, 3 fails. One run: 0 and
1 are needed. -/
example : Setting (demo (fun k => Shr.leaf k) fails3 3) ∧ (demo (fun k => Shr.leaf k) fails3 3).maxDurationMs = 0 ∧
    keptAmong (fun a : Args (fun _ : Fin 1 => Nat) => fails3 (a 0)) (fun j _ => Shr.leaf (0 + j)) 5 = 3 ∧
    (∀ l < 5, keptAmong (fun a : Args (fun _ : Fin 1 => Nat) => fails3 (a 0)) (fun j _ => Shr.leaf (0 + j)) l < 3) ∧
    (fails3 3).Fails :=
  ⟨demo_setting _ _ _, rfl, by decide, by decide, .inr (.inl ⟨_, rfl, rfl, by decide, by decide⟩)⟩

example : ∃ R tr, forAll (demo (fun k => Shr.leaf k) fails3 3) 6 0 [] = (.ok R, tr) ∧ R.verdict = false := by
  obtain ⟨R, tr, h1, h2⟩ := C111_returns (demo_setting (fun k => Shr.leaf k) fails3 3) rfl (fails3_regular _ _) 0 _
    (demo_drawn _ _ _ _) 5 (by decide) (by decide) 6 (by decide)
  exact ⟨R, tr, h1, h2.mpr ⟨3, by decide, .inr (.inl ⟨_, rfl, rfl, by decide, by decide⟩)⟩⟩

/-- A property that discards everything. -/
example : ∀ fuel, (forAll (demo (fun k => Shr.leaf k) (fun _ => raises .discard) 1) fuel 0 []).1 = .diverges :=
  C111_runs_forever (demo_setting _ _ _) rfl ⟨fun _ _ => rfl, fun _ => .inr ⟨_, rfl, rfl⟩, fun _ _ => rfl⟩ 0 _
    (demo_drawn _ _ _ _) (fun j => by simp [raises, Ev.Fails]) (fun m => by
      have : keptAmong (fun a : Args (fun _ : Fin 1 => Nat) => raises .discard) (fun j _ => Shr.leaf (0 + j)) m = 0 := by
        induction m with
        | zero => rfl
        | succ m ih => rw [keptAmong_succ, ih]; rfl
      rw [this]; decide)

end Engine
end Verif
