import Mathlib.Data.Nat.Nth
import Verif.Props.Verdict
import Verif.Props.Support
import Verif.Props.FilterTwice
/-
C197: discarding values in the property function and filtering them in the generator.
-/
namespace Verif
namespace Engine
open PairTuple Shr
variable {σ α : Type}

/-- The test of a function of one argument that discards the values that do not satisfy the condition:
`if (!cond(a)) PROP_DISCARD();` followed by the function. -/
def Cfg.discarding (c : Cfg σ (fun _ : Fin 1 => α)) (g : Gen σ α) (cond : α → Bool) (f : α → Ev Bool) : Cfg σ (fun _ : Fin 1 => α) :=
  { c with gens := fun _ => g, func := fun _ a => if cond (a 0) then f (a 0) else ⟨[], .throws .discard⟩ }

/-- The test of the same function with the generator filtered, which makes at most `k` attempts. -/
def Cfg.filtering (c : Cfg σ (fun _ : Fin 1 => α)) (g : Gen σ α) (cond : α → Bool) (k : Nat) (f : α → Ev Bool) :
    Cfg σ (fun _ : Fin 1 => α) :=
  { c with gens := fun _ => Comb.filter g cond k, func := fun _ a => f (a 0) }

theorem drawTuple_single (g : Gen σ α) (s : σ) :
    Gen.drawTuple (fun _ : Fin 1 => g) [0] s = (g s).bind fun r => .ok (fun _ => r.1, r.2) := by
  simp only [Gen.drawTuple, Gen.drawInto]
  cases g s with
  | ok r =>
    simp only [Outcome.ok_bind, Outcome.bind]
    rw [dif_pos]
    · simp only [Outcome.ok.injEq, Prod.mk.injEq, and_true]
      funext i
      obtain rfl : i = 0 := Subsingleton.elim _ _
      simp
    · intro i
      obtain rfl : i = 0 := Subsingleton.elim _ _
      simp
  | _ => rfl

theorem filter_finds (g : Gen σ α) (T : σ → Shr α) (N : σ → σ) (hg : ∀ s, g s = .ok (T s, N s)) (cond : α → Bool) (k : Nat) (s : σ)
    (r : Shr α × σ) (h : Comb.filter g cond k s = .ok r) :
    ∃ t, cond (T (N^[t] s)).value = true ∧ (∀ i < t, cond (T (N^[i] s)).value = false) ∧
      r = (filterTolKept cond 1 (T (N^[t] s)), N^[t + 1] s) := by
  induction k generalizing s with
  | zero => cases h
  | succ k ih =>
    simp only [Comb.filter, hg, Outcome.ok_bind] at h
    split at h
    · rename_i hc
      simp only [filterTol, hc, ↓reduceIte, Outcome.ok_bind, Outcome.pure_eq, Outcome.ok.injEq] at h
      exact ⟨0, hc, by simp, h.symm⟩
    · rename_i hc
      obtain ⟨t, h1, h2, h3⟩ := ih (N s) h
      refine ⟨t + 1, h1, fun i hi => ?_, h3⟩
      cases i with
      | zero => simpa using hc
      | succ i => exact h2 i (by omega)

section
variable (c : Cfg σ (fun _ : Fin 1 => α)) (g : Gen σ α) (cond : α → Bool) (f : α → Ev Bool) (k : Nat) (T : σ → Shr α) (N : σ → σ)

theorem next_discarding (ho : c.orderRun = [0]) (hg : ∀ s, g s = .ok (T s, N s)) (s : σ) :
    (c.discarding g cond f).next s = N s := by
  simp only [Cfg.next, Cfg.discarding, ho, drawTuple_single, hg, Outcome.bind]

theorem drawn_discarding (ho : c.orderRun = [0]) (hg : ∀ s, g s = .ok (T s, N s)) (seed : σ) :
    (c.discarding g cond f).Drawn seed fun j _ => T (N^[j] seed) := by
  intro j
  have : (c.discarding g cond f).next^[j] seed = N^[j] seed := by
    rw [funext (next_discarding c g cond f T N ho hg)]
  rw [this]
  exact ⟨N (N^[j] seed), by simp only [Cfg.discarding, ho, drawTuple_single, hg, Outcome.bind]⟩

/-- The `l`-th value that satisfies the condition exists, and is what the filtered generator makes. -/
theorem drawn_filtering (ho : c.orderRun = [0]) (hg : ∀ s, g s = .ok (T s, N s)) (hk : ∀ s, ∃ r, Comb.filter g cond k s = .ok r)
    (seed : σ) (p : Nat → Prop) [DecidablePred p] (hp : ∀ j, p j ↔ cond (T (N^[j] seed)).value = true) (l : Nat) :
    p (Nat.nth p l) ∧ Nat.count p (Nat.nth p l) = l ∧ ∃ r,
      Gen.drawTuple (c.filtering g cond k f).gens (c.filtering g cond k f).orderRun ((c.filtering g cond k f).next^[l] seed) =
        .ok (fun _ => filterTolKept cond 1 (T (N^[Nat.nth p l] seed)), r) := by
  have step : ∀ l b, Nat.count p b = l →
      ∃ b', Nat.nth p l = b' ∧ p b' ∧ Nat.count p b' = l ∧
        Gen.drawTuple (c.filtering g cond k f).gens (c.filtering g cond k f).orderRun (N^[b] seed) =
          .ok (fun _ => filterTolKept cond 1 (T (N^[b'] seed)), N^[b' + 1] seed) := by
    intro l b hb
    obtain ⟨r, hr⟩ := hk (N^[b] seed)
    obtain ⟨t, h1, h2, rfl⟩ := filter_finds g T N hg cond k _ _ hr
    simp only [← Function.iterate_add_apply] at h1 h2 hr
    have hpb : p (t + b) := (hp _).mpr h1
    have hc : Nat.count p (t + b) = l := by
      rw [Nat.add_comm t b, Nat.count_add, hb]
      have : Nat.count (fun j => p (b + j)) t = 0 := by
        rw [Nat.count_iff_forall_not]
        intro i hi hpi
        have := h2 i hi
        rw [Nat.add_comm i b, (hp _).mp hpi] at this
        cases this
      omega
    refine ⟨t + b, ?_, hpb, hc, ?_⟩
    · rw [← hc]; exact Nat.nth_count hpb
    · simp only [Cfg.filtering, ho, drawTuple_single]
      rw [hr]
      simp only [Outcome.bind]
      rw [show t + 1 + b = t + b + 1 by omega]
  have hb : ∃ b, (c.filtering g cond k f).next^[l] seed = N^[b] seed ∧ Nat.count p b = l := by
    induction l with
    | zero => exact ⟨0, rfl, by simp⟩
    | succ l ih =>
      obtain ⟨b, h1, h2⟩ := ih
      obtain ⟨b', _, h4, h5, h6⟩ := step l b h2
      refine ⟨b' + 1, ?_, by rw [Nat.count_succ, h5, if_pos h4]⟩
      rw [Function.iterate_succ_apply', h1, Cfg.next, h6]
  obtain ⟨b, h1, h2⟩ := hb
  obtain ⟨b', rfl, h4, h5, h6⟩ := step l b h2
  exact ⟨h4, h5, _, by rw [h1]; exact h6⟩

end

/-- Choosing the values that satisfy the condition one after the other. -/
theorem filter_range (v : Nat → α) (cond : α → Bool) (p : Nat → Prop) [DecidablePred p] (hp : ∀ j, p j ↔ cond (v j) = true) (l : Nat) :
    ((List.range l).map v).filter cond = (List.range (Nat.count p l)).map fun i => v (Nat.nth p i) := by
  induction l with
  | zero => simp
  | succ l ih =>
    rw [List.range_succ, List.map_append, List.filter_append, ih, Nat.count_succ]
    by_cases h : p l
    · rw [if_pos h, List.range_succ, List.map_append]
      simp [(hp l).mp h, Nat.nth_count h]
    · rw [if_neg h]
      have : cond (v l) = false := by
        cases e : cond (v l) with
        | false => rfl
        | true => exact absurd ((hp l).mpr e) h
      simp [this]

/-- A function that returns or throws a std::exception other than PROP_DISCARD, and does not fail an expectation before
PROP_SUCCESS. -/
structure NeverDiscards (f : α → Ev Bool) : Prop where
  out : ∀ a, (∃ b, (f a).out = .ok b) ∨ ∃ e, (f a).out = .throws e ∧ e.isStd = true ∧ e ≠ .discard
  quiet : ∀ a, (f a).out = .throws .success → (f a).fails = []

theorem NeverDiscards.kept {f : α → Ev Bool} (hf : NeverDiscards f) (a : α) : (f a).out ≠ .throws .discard := by
  intro h
  rcases hf.out a with ⟨b, hb⟩ | ⟨e, he, _, hd⟩
  · rw [h] at hb; cases hb
  · rw [h] at he; cases he; exact hd rfl

/-- How the test that discards and the test that filters end: both pass, or both report a failure after the same number
of tests, with the same arguments before shrinking. -/
inductive SameEnd : Report (fun _ : Fin 1 => α) → Report (fun _ : Fin 1 => α) → Prop
  | passed : SameEnd .passed .passed
  | falsified (k : Nat) (start start' shrunk shrunk' : Tup fun _ : Fin 1 => α) (h : (start 0).value = (start' 0).value) :
      SameEnd (.falsified k start shrunk) (.falsified k start' shrunk')

/-- C197. Discarding the values that do not satisfy a condition in the property function, and filtering them in the
generator, are the same test up to shrinking: both end the same way, and the values the function got past its condition
with are those of the filtered generator, in the same order. What the filtering test reports satisfies the condition, before
and after shrinking.
Partial: what the discarding test reports after shrinking need not, see below. -/
theorem C197_same_end_partial (c : Cfg σ (fun _ : Fin 1 => α)) (hq : c.Quiet) (hs : c.orderShrink = [0]) (ho : c.orderRun = [0])
    (he : c.orderEach.Nodup) (h0 : c.maxDurationMs = 0) (g : Gen σ α) (hg : ∀ s, ∃ r, g s = .ok r) (cond : α → Bool) (k : Nat)
    (hk : ∀ s, ∃ r, Comb.filter g cond k s = .ok r) (f : α → Ev Bool) (hf : NeverDiscards f) (seed : σ) :
    ∃ m, ∀ fuel, m ≤ fuel → ∃ R R' tr tr',
      forAll (c.discarding g cond f) fuel seed [] = (.ok R, tr) ∧
      forAll (c.filtering g cond k f) fuel seed [] = (.ok R', tr') ∧ SameEnd R R' ∧
      ((calls .run tr).map fun x => x.1 0).filter cond = ((calls .run tr').map fun x => x.1 0) ∧
      ∀ a start shrunk, R' = .falsified a start shrunk → cond (start 0).value = true ∧ cond (shrunk 0).value = true := by
  classical
  have hT : ∃ (T : σ → Shr α) (N : σ → σ), ∀ s, g s = .ok (T s, N s) :=
    ⟨fun s => (hg s).choose.1, fun s => (hg s).choose.2, fun s => (hg s).choose_spec⟩
  obtain ⟨T, N, hg'⟩ := hT
  have hsD : Setting (c.discarding g cond f) := by
    refine ⟨hq, hs.trans ho.symm, he, fun s h => ?_⟩
    simp [Cfg.discarding, ho, drawTuple_single, hg', Outcome.bind] at h
  have hsF : Setting (c.filtering g cond k f) := by
    refine ⟨hq, hs.trans ho.symm, he, fun s h => ?_⟩
    obtain ⟨r, hr⟩ := hk s
    simp [Cfg.filtering, ho, drawTuple_single, hr, Outcome.bind] at h
  have hrD : Regular (c.discarding g cond f) fun a => if cond (a 0) then f (a 0) else ⟨[], .throws .discard⟩ := by
    refine ⟨fun _ _ => rfl, fun a => ?_, fun a h => ?_⟩
    · beta_reduce
      split
      · rcases hf.out (a 0) with h | ⟨e, h1, h2, _⟩
        · exact .inl h
        · exact .inr ⟨e, h1, h2⟩
      · exact .inr ⟨_, rfl, rfl⟩
    · beta_reduce at h ⊢
      split
      · rename_i hc
        rw [if_pos hc] at h
        exact hf.quiet _ (h.resolve_right (hf.kept _))
      · rfl
  have hrF : Regular (c.filtering g cond k f) fun a => f (a 0) := by
    refine ⟨fun _ _ => rfl, fun a => ?_, fun a h => hf.quiet _ (h.resolve_right (hf.kept _))⟩
    rcases hf.out (a 0) with h | ⟨e, h1, h2, _⟩
    · exact .inl h
    · exact .inr ⟨e, h1, h2⟩
  let v : Nat → α := fun j => (T (N^[j] seed)).value
  let p : Nat → Prop := fun j => cond (v j) = true
  have hp : ∀ j, p j ↔ cond (v j) = true := fun _ => Iff.rfl
  have hDD := drawn_discarding c g cond f T N ho hg' seed
  have hnth := fun l => drawn_filtering c g cond f k T N ho hg' hk seed p hp l
  have hDF : (c.filtering g cond k f).Drawn seed fun l _ => filterTolKept cond 1 (T (N^[Nat.nth p l] seed)) :=
    fun l => (hnth l).2.2
  have hkD : ∀ l, keptAmong (fun a : Args (fun _ : Fin 1 => α) => if cond (a 0) then f (a 0) else ⟨[], .throws .discard⟩)
      (fun j _ => T (N^[j] seed)) l = Nat.count p l := by
    intro l
    induction l with
    | zero => simp [keptAmong]
    | succ l ih =>
      rw [keptAmong_succ, ih, Nat.count_succ]
      by_cases hc : cond (v l) = true
      · have hc' : cond (T (N^[l] seed)).value = true := hc
        have := hf.kept (T (N^[l] seed)).value
        simp [p, hc, hc', Ev.discarded, this]
      · have hc' : ¬ cond (T (N^[l] seed)).value = true := hc
        simp [p, hc, hc', Ev.discarded]
  have hkF : ∀ l, keptAmong (fun a : Args (fun _ : Fin 1 => α) => f (a 0))
      (fun l _ => filterTolKept cond 1 (T (N^[Nat.nth p l] seed))) l = l := by
    intro l
    induction l with
    | zero => simp [keptAmong]
    | succ l ih =>
      rw [keptAmong_succ, ih]
      simp [Ev.discarded, hf.kept]
  have hcalls : ∀ (fuel : Nat) (tr : Trace (fun _ : Fin 1 => α)) (l : Nat) ,
      (calls .run tr).map Prod.fst = (List.range l).map (fun j (_ : Fin 1) => v j) →
      ((calls .run tr).map fun x => x.1 0).filter cond = (List.range (Nat.count p l)).map fun i => v (Nat.nth p i) := by
    intro _ tr l h
    rw [← filter_range v cond p hp]
    congr 1
    have := congrArg (List.map fun a : Args (fun _ : Fin 1 => α) => a 0) h
    simpa [Function.comp_def] using this
  have hcallsF : ∀ (tr : Trace (fun _ : Fin 1 => α)) (l : Nat) ,
      (calls .run tr).map Prod.fst = (List.range l).map (fun j (_ : Fin 1) => (filterTolKept cond 1 (T (N^[Nat.nth p j] seed))).value) →
      ((calls .run tr).map fun x => x.1 0) = (List.range l).map fun i => v (Nat.nth p i) := by
    intro tr l h
    have := congrArg (List.map fun a : Args (fun _ : Fin 1 => α) => a 0) h
    simpa [Function.comp_def, v] using this
  have hnotfail : ∀ j, ¬ p j → ¬ (Ev.Fails (if cond (T (N^[j] seed)).value then f (T (N^[j] seed)).value else ⟨[], .throws .discard⟩)) := by
    intro j hj
    rw [if_neg hj]
    simp [Ev.Fails]
  by_cases h : ∃ j, p j ∧ (f (v j)).Fails ∧ Nat.count p j < c.numRuns
  · obtain ⟨h1, h2, h3⟩ := Nat.find_spec h
    have hmin := fun j hj => Nat.find_min h (m := j) hj
    generalize Nat.find h = m at h1 h2 h3 hmin
    refine ⟨m + 1, fun fuel hfu => ?_⟩
    obtain ⟨tr, a1, a2⟩ := C111_falsifies hsD h0 hrD seed _ hDD m (fun j hj hF => by
      by_cases hpj : p j
      · have hF' : (f (v j)).Fails := by
          have e : cond (T (N^[j] seed)).value = true := hpj
          simpa [e] using hF
        exact hmin j hj ⟨hpj, hF', lt_of_le_of_lt (Nat.count_monotone p hj.le) h3⟩
      · exact hnotfail j hpj hF)
      (by have e : cond (T (N^[m] seed)).value = true := h1
          simpa [e] using h2) (by rw [hkD]; exact h3)
      (fails := fun a => decide (Ev.Rejects (if cond (a 0) then f (a 0) else ⟨[], .throws .discard⟩))) (by simp) fuel (by omega)
    have hle : Nat.count p m ≤ m := Nat.count_le p
    have hnm : Nat.nth p (Nat.count p m) = m := Nat.nth_count h1
    obtain ⟨tr', b1, b2⟩ := C111_falsifies hsF h0 hrF seed _ hDF (Nat.count p m) (fun j hj hF => by
      have hlt := Nat.nth_lt_of_lt_count hj
      simp only [value_filterTolKept] at hF
      exact hmin _ hlt ⟨(hnth j).1, hF, by rw [(hnth j).2.1]; omega⟩)
      (by simp only [value_filterTolKept, hnm]; exact h2) (by rw [hkF]; exact h3)
      (fails := fun a => decide (f (a 0)).Rejects) (by simp) fuel (by omega)
    rw [hkD] at a1
    rw [hkF] at b1
    refine ⟨_, _, tr, tr', a1, b1, .falsified _ _ _ _ _ (by simp [hnm]), ?_, ?_⟩
    · rw [hcalls fuel tr _ a2, hcallsF tr' _ b2, Nat.count_succ, if_pos h1]
    · intro a start shrunk e
      cases e
      have hd := (C48_shrunk_arguments_fail_partial hsF hrF.pure hrF.quiet fuel seed _ _ _ tr' b1).2 0
      have hcm : cond (T (N^[Nat.nth p (Nat.count p m)] seed)).value = true := by rw [hnm]; exact h1
      exact ⟨by simpa using hcm, Comb.reach_filtered _ _ le_rfl hcm _ ⟨_, hd, rfl⟩⟩
  · have hno : ∀ j, p j → Nat.count p j < c.numRuns → ¬ (f (v j)).Fails := fun j h1 h3 h2 => h ⟨j, h1, h2, h3⟩
    have hcm := (hnth c.numRuns).2.1
    refine ⟨Nat.nth p c.numRuns + 1, fun fuel hfu => ?_⟩
    obtain ⟨tr, l, a1, _, a2⟩ := C111_passes hsD h0 hrD seed _ hDD (Nat.nth p c.numRuns) (fun j hj hF => by
      by_cases hpj : p j
      · have hF' : (f (v j)).Fails := by
          have e : cond (T (N^[j] seed)).value = true := hpj
          simpa [e] using hF
        exact hno j hpj (by rw [← hcm]; exact Nat.count_strict_mono hpj hj) hF'
      · exact hnotfail j hpj hF) (by rw [hkD]; exact hcm) fuel (by omega)
    have hle : Nat.count p (Nat.nth p c.numRuns) ≤ Nat.nth p c.numRuns := Nat.count_le p
    obtain ⟨tr', l', b1, _, b2⟩ := C111_passes hsF h0 hrF seed _ hDF c.numRuns (fun j hj hF => by
      simp only [value_filterTolKept] at hF
      exact hno _ (hnth j).1 (by rw [(hnth j).2.1]; omega) hF) (by rw [hkF]; rfl) fuel (by omega)
    refine ⟨_, _, tr, tr', a1, b1, .passed, ?_, fun _ _ _ e => by cases e⟩
    have c1 := (C43_true_means_every_run_passed hsD fuel seed tr a1).1
    have c2 := (C43_true_means_every_run_passed hsF fuel seed tr' b1).1
    have hl' : l' = c.numRuns := by
      have e := congrArg List.length b2
      simp only [List.length_map, List.length_range] at e
      rw [← e]
      rw [List.filter_eq_self.mpr] at c2
      · exact c2
      · intro x hx
        rw [run_calls_pure hsF hrF.pure fuel seed _ _ b1 x hx]
        simpa using hf.kept _
    have hl : Nat.count p l = c.numRuns := by
      have e := congrArg List.length (hcalls fuel tr l a2)
      simp only [List.length_map, List.length_range] at e
      rw [← e]
      refine Eq.trans ?_ c1
      rw [List.filter_map, List.length_map]
      congr 1
      refine List.filter_congr fun x hx => ?_
      rw [run_calls_pure hsD hrD.pure fuel seed _ _ a1 x hx]
      by_cases hc : cond (x.1 0) = true
      · simp [hc, hf.kept]
      · simp [hc]
    rw [hcalls fuel tr l a2, hcallsF tr' l' b2, hl, hl']

/-- The condition of the examples: the even numbers. -/
def evens (v : Nat) : Bool := v % 2 == 0

/-- The function of the examples fails from 4 on. -/
def below4 (v : Nat) : Ev Bool := returns (decide (v < 4))

theorem below4_never : NeverDiscards below4 := ⟨fun _ => .inl ⟨_, rfl⟩, fun _ _ => rfl⟩

/-- Among two numbers one after the other there is an even one. -/
theorem evens_found (tree : Nat → Shr Nat) (h : ∀ s, (tree s).value = s) (s : Nat) :
    ∃ r, Comb.filter (fun s => .ok (tree s, s + 1)) evens 2 s = .ok r := by
  simp only [Comb.filter, Outcome.ok_bind, h, evens]
  rcases Nat.mod_two_eq_zero_or_one s with h1 | h1
  · simp [h1, filterTol, h, evens]
  · have h2 : (s + 1) % 2 = 0 := by omega
    simp [h1, h2, filterTol, h, evens]

/-- Numbers 1, 2, 3, ... that shrink to 1: both tests fail at 4, the second even number. -/
example : ∃ m, ∀ fuel, m ≤ fuel → ∃ R R' tr tr',
    forAll ((demo (fun s => .node s [.leaf 1]) below4 10).discarding (fun s => .ok (.node s [.leaf 1], s + 1)) evens below4) fuel 1 [] =
      (.ok R, tr) ∧
    forAll ((demo (fun s => .node s [.leaf 1]) below4 10).filtering (fun s => .ok (.node s [.leaf 1], s + 1)) evens 2 below4) fuel 1 [] =
      (.ok R', tr') ∧ SameEnd R R' := by
  obtain ⟨m, h⟩ := C197_same_end_partial (demo (fun s => .node s [.leaf 1]) below4 10) (demo_setting _ _ _).quiet rfl rfl (by simp [demo]) rfl
    (fun s => .ok (.node s [.leaf 1], s + 1)) (fun s => ⟨_, rfl⟩) evens 2 (evens_found _ fun _ => rfl) below4 below4_never 1
  refine ⟨m, fun fuel hfu => ?_⟩
  obtain ⟨R, R', tr, tr', h1, h2, h3, _⟩ := h fuel hfu
  exact ⟨R, R', tr, tr', h1, h2, h3⟩

/-- C197 fails of the code after shrinking: the test that discards reports 1, which does not satisfy its condition, the
test that filters reports 4. -/
theorem C197_reported_violated :
    (∃ start shrunk tr, forAll ((demo (fun s => .node s [.leaf 1]) below4 10).discarding (fun s => .ok (.node s [.leaf 1], s + 1))
        evens below4) 9 1 [] = (.ok (.falsified 2 start shrunk), tr) ∧ (start 0).value = 4 ∧ (shrunk 0).value = 1) ∧
    (∃ start shrunk tr, forAll ((demo (fun s => .node s [.leaf 1]) below4 10).filtering (fun s => .ok (.node s [.leaf 1], s + 1))
        evens 2 below4) 9 1 [] = (.ok (.falsified 2 start shrunk), tr) ∧ (start 0).value = 4 ∧ (shrunk 0).value = 4) ∧
    evens 1 = false := by
  refine ⟨?_, ?_, rfl⟩
  · have h : shown (forAll ((demo (fun s => .node s [.leaf 1]) below4 10).discarding (fun s => .ok (.node s [.leaf 1], s + 1))
        evens below4) 9 1 []) = (.ok false, some (2, 4, 1), [1, 2, 3, 4], [1]) := by decide +kernel
    exact shown_falsified h
  · have h : shown (forAll ((demo (fun s => .node s [.leaf 1]) below4 10).filtering (fun s => .ok (.node s [.leaf 1], s + 1))
        evens 2 below4) 9 1 []) = (.ok false, some (2, 4, 4), [2, 4], []) := by decide +kernel
    exact shown_falsified h

end Engine
end Verif
