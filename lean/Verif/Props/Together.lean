import Verif.Props.Verdict
/-
Checking two things in one property function or in two tests, and stricter property functions.
-/
namespace Verif
namespace Engine
open Shr PairTuple
variable {σ : Type} {n : Nat} {A : Fin n → Type}

/-- The test of `f` with the settings and generators of `c` (/repo/proptest/Property.hpp:193-266). -/
def Cfg.testing (c : Cfg σ A) (f : Args A → Ev Bool) : Cfg σ A := { c with func := fun _ a => f a }

/-- `f(args) && g(args)`: if the first call returns true, the second one is made; failed expectations of both are recorded. -/
def both (f g : Args A → Ev Bool) (a : Args A) : Ev Bool :=
  match (f a).out with
  | .ok true => ⟨(f a).fails ++ (g a).fails, (g a).out⟩
  | _ => f a

/-- The number and the arguments of the failing run a report shows. -/
def Report.failure : Report A → Option (Nat × Args A)
  | .falsified k start _ => some (k, fun i => (start i).value)
  | _ => none

/-- The failure with the smaller number. -/
def earlier {X : Type} : Option (Nat × X) → Option (Nat × X) → Option (Nat × X)
  | none, y => y
  | x, none => x
  | some x, some y => if y.1 < x.1 then some y else some x

/-- The failure a report shows, if the test returns one. -/
def failureOf (o : Outcome (Report A) × Trace A) : Option (Option (Nat × Args A)) :=
  match o.1 with
  | .ok R => some R.failure
  | _ => none

variable {c : Cfg σ A}

/-- A property function that does not end the run early by PROP_SUCCESS. -/
def NoSuccess (f : Args A → Ev Bool) : Prop := ∀ a, (f a).out ≠ .throws .success

/-- Two functions discard the same arguments. -/
def SameDiscards (f g : Args A → Ev Bool) : Prop := ∀ a, (f a).out = .throws .discard ↔ (g a).out = .throws .discard

theorem keptAmong_same {f g : Args A → Ev Bool} (h : SameDiscards f g) (D : Nat → Tup A) : keptAmong f D = keptAmong g D := by
  funext l
  unfold keptAmong
  congr 2
  funext k
  exact congrArg Bool.not (decide_eq_decide.mpr (h _))

/-- What C111 says about the failure shown. -/
theorem failureOf_spec (hc : Setting c) (h0 : c.maxDurationMs = 0) {f : Args A → Ev Bool} (hf : Regular (c.testing f) f) (seed : σ)
    (D : Nat → Tup A) (hD : c.Drawn seed D) (m : Nat) (hk : keptAmong f D m = c.numRuns) (hmin : ∀ l < m, keptAmong f D l < c.numRuns)
    (fuel : Nat) (hfuel : m < fuel) :
    (failureOf (forAll (c.testing f) fuel seed []) = some none ∧ ∀ j < m, ¬ (f fun i => (D j i).value).Fails) ∨
    ∃ j < m, (f fun i => (D j i).value).Fails ∧ (∀ i < j, ¬ (f fun k => (D i k).value).Fails) ∧
      failureOf (forAll (c.testing f) fuel seed []) = some (some (keptAmong f D j + 1, fun i => (D j i).value)) := by
  classical
  have hc' : Setting (c.testing f) := ⟨hc.quiet, hc.order, hc.nodup, hc.gens⟩
  by_cases h : ∃ j < m, (f fun i => (D j i).value).Fails
  · have hex : ∃ j, j < m ∧ (f fun i => (D j i).value).Fails := h
    have hlt := (Nat.find_spec hex).1
    have hn : ∀ i < Nat.find hex, ¬ (f fun k => (D i k).value).Fails := fun j hj hF => Nat.find_min hex hj ⟨by omega, hF⟩
    obtain ⟨tr, h1, _⟩ := C111_falsifies hc' h0 hf seed D hD (Nat.find hex) hn (Nat.find_spec hex).2
      (hmin _ hlt) (fails := fun a => decide (f a).Rejects) (by simp) fuel (by omega)
    exact .inr ⟨_, hlt, (Nat.find_spec hex).2, hn, by rw [h1]; rfl⟩
  · obtain ⟨tr, l, h1, _⟩ := C111_passes hc' h0 hf seed D hD m (fun j hj hF => h ⟨j, hj, hF⟩) hk fuel hfuel
    exact .inl ⟨by rw [h1]; rfl, fun j hj hF => h ⟨j, hj, hF⟩⟩

theorem keptAmong_mono (f : Args A → Ev Bool) (D : Nat → Tup A) {i j : Nat} (h : i ≤ j) : keptAmong f D i ≤ keptAmong f D j := by
  induction h with
  | refl => exact le_rfl
  | step _ ih => exact Nat.le_trans ih (by rw [keptAmong_succ]; omega)

theorem fails_kept {f : Args A → Ev Bool} (hf : Regular c f) {a : Args A} (h : (f a).Fails) : (f a).discarded = false := by
  by_contra hd
  have hd' : (f a).out = .throws .discard := by simpa [Ev.discarded] using hd
  rcases h with h | ⟨x, h1, _, h2, _⟩ | h
  · rw [hd'] at h; cases h
  · rw [hd'] at h1; cases h1; exact h2 rfl
  · exact h (hf.quiet a (.inr hd'))

theorem kept_lt {f : Args A → Ev Bool} (D : Nat → Tup A) {i j : Nat} (h : i < j) (hd : (f fun k => (D i k).value).discarded = false) :
    keptAmong f D i < keptAmong f D j := by
  have := keptAmong_mono f D (show i + 1 ≤ j from h)
  rw [keptAmong_succ, hd] at this
  simp at this
  omega

theorem both_fails {c' : Cfg σ A} {f g : Args A → Ev Bool} (hf : Regular c f) (hg : Regular c' g) (hs : NoSuccess f)
    (hd : SameDiscards f g) (a : Args A) : (both f g a).Fails ↔ (f a).Fails ∨ (g a).Fails := by
  unfold both
  rcases hf.out a with ⟨b, hb⟩ | ⟨e, he, hstd⟩
  · rw [hb]
    cases b with
    | false => simp [Ev.Fails, hb]
    | true =>
      simp only [Ev.Fails, hb]
      simp only [ne_eq, List.append_eq_nil_iff, not_and_or]
      simp only [Outcome.ok.injEq, Bool.true_eq_false, reduceCtorEq, false_and, exists_false, false_or]
      constructor
      · rintro (h | h | h | h)
        exacts [.inr (.inl h), .inr (.inr (.inl h)), .inl h, .inr (.inr (.inr h))]
      · rintro (h | h | h | h)
        exacts [.inr (.inr (.inl h)), .inl h, .inr (.inl h), .inr (.inr (.inr h))]
  · rw [he]
    simp only
    constructor
    · exact .inl
    · rintro (h | h)
      · exact h
      · by_cases hx : e = .discard
        · subst hx
          have := fails_kept hg h
          rw [Ev.discarded, decide_eq_false_iff_not] at this
          exact absurd ((hd a).mp he) this
        · exact .inr (.inl ⟨e, he, hstd, hx, fun h2 => hs a (h2 ▸ he)⟩)

theorem both_regular {f g : Args A → Ev Bool} (hf : Regular (c.testing f) f) (hg : Regular (c.testing g) g) (hs' : NoSuccess g)
    (hd : SameDiscards f g) : Regular (c.testing (both f g)) (both f g) where
  pure := fun _ _ => rfl
  out := fun a => by
    unfold both
    rcases hf.out a with ⟨b, hb⟩ | ⟨e, he, hstd⟩
    · rw [hb]
      cases b with
      | false => exact .inl ⟨_, hb⟩
      | true => exact hg.out a
    · rw [he]; exact .inr ⟨e, he, hstd⟩
  quiet := fun a h => by
    unfold both at h ⊢
    rcases hf.out a with ⟨b, hb⟩ | ⟨e, he, hstd⟩
    · rw [hb] at h ⊢
      cases b with
      | false => simp [hb] at h
      | true =>
        rcases h with h | h
        · exact absurd h (hs' a)
        · have := (hd a).mpr h; rw [hb] at this; cases this
    · rw [he] at h ⊢
      exact hf.quiet a h

theorem both_discards {f g : Args A → Ev Bool} (hd : SameDiscards f g) : SameDiscards f (both f g) := by
  intro a
  unfold both
  split
  · next h => simp only; rw [hd a]
  · rfl

/-- **C199, together.** Checking `f` and `g` in one property function finds what the two tests from the same seed find: the first failing run of
the two, with its number and its arguments; so it passes iff both pass. (Neither of the functions uses PROP_SUCCESS; they
discard the same arguments, and so many are not discarded that the tests end.) -/
theorem C199_together (hc : Setting c) (h0 : c.maxDurationMs = 0) {f g : Args A → Ev Bool} (hf : Regular (c.testing f) f)
    (hg : Regular (c.testing g) g) (hs : NoSuccess f) (hs' : NoSuccess g) (hd : SameDiscards f g) (seed : σ) (D : Nat → Tup A)
    (hD : c.Drawn seed D) (m : Nat) (hk : keptAmong f D m = c.numRuns) (hmin : ∀ l < m, keptAmong f D l < c.numRuns)
    (fuel : Nat) (hfuel : m < fuel) :
    ∃ x y, failureOf (forAll (c.testing f) fuel seed []) = some x ∧ failureOf (forAll (c.testing g) fuel seed []) = some y ∧
      failureOf (forAll (c.testing (both f g)) fuel seed []) = some (earlier x y) := by
  have kg := keptAmong_same hd D
  have kb := keptAmong_same (both_discards hd) D
  have sf := failureOf_spec hc h0 hf seed D hD m hk hmin fuel hfuel
  have sg := failureOf_spec hc h0 hg seed D hD m (by rw [← kg]; exact hk) (by rw [← kg]; exact hmin) fuel hfuel
  have sb := failureOf_spec hc h0 (both_regular hf hg hs' hd) seed D hD m (by rw [← kb]; exact hk) (by rw [← kb]; exact hmin) fuel hfuel
  have hb : ∀ a, (both f g a).Fails ↔ (f a).Fails ∨ (g a).Fails := both_fails hf hg hs hd
  rw [← kg] at sg
  rw [← kb] at sb
  simp only [hb, not_or] at sb
  rcases sf with ⟨ef, nf⟩ | ⟨i, hi, fi, nf, ef⟩ <;> rcases sg with ⟨eg, ng⟩ | ⟨j, hj, gj, ng, eg⟩ <;>
    refine ⟨_, _, ef, eg, ?_⟩ <;> rcases sb with ⟨eb, nb⟩ | ⟨k, hk', bk, nb, eb⟩ <;> rw [eb]
  · rfl
  · exact absurd bk (not_or.mpr ⟨nf k hk', ng k hk'⟩)
  · exact absurd gj (nb j hj).2
  · have : k = j := by
      rcases Nat.lt_trichotomy k j with h | h | h
      · exact absurd bk (not_or.mpr ⟨nf k hk', ng k h⟩)
      · exact h
      · exact absurd gj (nb j h).2
    subst this; rfl
  · exact absurd fi (nb i hi).1
  · have : k = i := by
      rcases Nat.lt_trichotomy k i with h | h | h
      · exact absurd bk (not_or.mpr ⟨nf k h, ng k hk'⟩)
      · exact h
      · exact absurd fi (nb i h).1
    subst this; rfl
  · exact absurd fi (nb i hi).1
  · have di := fails_kept hf fi
    have dj := fails_kept hg gj
    simp only [earlier]
    rcases Nat.lt_trichotomy i j with h | h | h
    · have : k = i := by
        rcases Nat.lt_trichotomy k i with h' | h' | h'
        · exact absurd bk (not_or.mpr ⟨nf k h', ng k (by omega)⟩)
        · exact h'
        · exact absurd fi (nb i h').1
      subst this
      rw [if_neg (by have := kept_lt D h di; omega)]
    · subst h
      have : k = i := by
        rcases Nat.lt_trichotomy k i with h' | h' | h'
        · exact absurd bk (not_or.mpr ⟨nf k h', ng k h'⟩)
        · exact h'
        · exact absurd fi (nb i h').1
      subst this
      rw [if_neg (by omega)]
    · have : k = j := by
        rcases Nat.lt_trichotomy k j with h' | h' | h'
        · exact absurd bk (not_or.mpr ⟨nf k (by omega), ng k h'⟩)
        · exact h'
        · exact absurd gj (nb j h').2
      subst this
      have := kept_lt D h dj
      rw [← kg] at this
      rw [if_pos (by omega)]

/-- **C199, stricter.** If `g` fails wherever `f` fails (and discards the same arguments), the test of `g` from the same seed fails no later
than the test of `f`; so if the test of `g` passes, the test of `f` passes. -/
theorem C199_stricter (hc : Setting c) (h0 : c.maxDurationMs = 0) {f g : Args A → Ev Bool} (hf : Regular (c.testing f) f)
    (hg : Regular (c.testing g) g) (hfg : ∀ a, (f a).Fails → (g a).Fails) (hd : SameDiscards f g) (seed : σ) (D : Nat → Tup A)
    (hD : c.Drawn seed D) (m : Nat) (hk : keptAmong f D m = c.numRuns) (hmin : ∀ l < m, keptAmong f D l < c.numRuns)
    (fuel : Nat) (hfuel : m < fuel) {k : Nat} {a : Args A} (h : failureOf (forAll (c.testing f) fuel seed []) = some (some (k, a))) :
    ∃ k' a', failureOf (forAll (c.testing g) fuel seed []) = some (some (k', a')) ∧ k' ≤ k := by
  have kg := keptAmong_same hd D
  have sf := failureOf_spec hc h0 hf seed D hD m hk hmin fuel hfuel
  have sg := failureOf_spec hc h0 hg seed D hD m (by rw [← kg]; exact hk) (by rw [← kg]; exact hmin) fuel hfuel
  rw [← kg] at sg
  rcases sf with ⟨ef, nf⟩ | ⟨i, hi, fi, nf, ef⟩
  · rw [h] at ef; cases ef
  · rw [h] at ef
    cases ef
    rcases sg with ⟨eg, ng⟩ | ⟨j, hj, gj, ng, eg⟩
    · exact absurd (hfg _ fi) (ng i hi)
    · refine ⟨_, _, eg, ?_⟩
      have : j ≤ i := by
        by_contra hlt
        exact ng i (by omega) (hfg _ fi)
      have := keptAmong_mono f D this
      omega

/-- Not 4, discarding 0 and 2. -/
def not4 (a : Args (fun _ : Fin 1 => Nat)) : Ev Bool := if a 0 = 0 ∨ a 0 = 2 then raises .discard else returns (decide (a 0 ≠ 4))
/-- Not 3, by an expectation, discarding 0 and 2. -/
def not3 (a : Args (fun _ : Fin 1 => Nat)) : Ev Bool :=
  if a 0 = 0 ∨ a 0 = 2 then raises .discard else ⟨if a 0 = 3 then ["3"] else [], .ok true⟩

/-- The draws 0, 1, 2, ... with at most four runs: the hypotheses hold, the first failures are run 3 (4) and run 2 (3). -/
example : Setting (demo (fun k => Shr.leaf k) (fun _ => returns true) 4) ∧
    Regular ((demo (fun k => Shr.leaf k) (fun _ => returns true) 4).testing not4) not4 ∧
    Regular ((demo (fun k => Shr.leaf k) (fun _ => returns true) 4).testing not3) not3 ∧ NoSuccess not4 ∧ NoSuccess not3 ∧
    SameDiscards not4 not3 ∧ (demo (fun k => Shr.leaf k) (fun _ => returns true) 4).Drawn 0 (fun j _ => Shr.leaf (0 + j)) ∧
    keptAmong not4 (fun j _ => Shr.leaf (0 + j)) 6 = 4 ∧ (∀ l < 6, keptAmong not4 (fun j _ => Shr.leaf (0 + j)) l < 4) := by
  refine ⟨demo_setting _ _ _, ⟨fun _ _ => rfl, fun a => ?_, fun a h => ?_⟩, ⟨fun _ _ => rfl, fun a => ?_, fun a h => ?_⟩, fun a => ?_,
    fun a => ?_, fun a => ?_, demo_drawn _ _ _ _, by decide, by decide⟩
  · unfold not4; split
    · exact .inr ⟨_, rfl, rfl⟩
    · exact .inl ⟨_, rfl⟩
  · unfold not4; split <;> rfl
  · unfold not3; split
    · exact .inr ⟨_, rfl, rfl⟩
    · exact .inl ⟨_, rfl⟩
  · unfold not3 at h ⊢; split
    · rfl
    · next hn => simp [hn] at h
  · unfold not4; split <;> simp [raises, returns]
  · unfold not3; split <;> simp [raises]
  · unfold not4 not3; split <;> simp [raises, returns]

/-- The failure shown, with the number only. -/
def numberOf (o : Outcome (Report (fun _ : Fin 1 => Nat)) × Trace (fun _ : Fin 1 => Nat)) : Option (Option (Nat × Nat)) :=
  (failureOf o).map fun x => x.map fun p => (p.1, p.2 0)

example : numberOf (forAll ((demo (fun k => Shr.leaf k) (fun _ => returns true) 4).testing not4) 9 0 []) = some (some (3, 4)) ∧
    numberOf (forAll ((demo (fun k => Shr.leaf k) (fun _ => returns true) 4).testing not3) 9 0 []) = some (some (2, 3)) ∧
    numberOf (forAll ((demo (fun k => Shr.leaf k) (fun _ => returns true) 4).testing (both not4 not3)) 9 0 []) = some (some (2, 3)) := by
  refine ⟨?_, ?_, ?_⟩ <;> decide +kernel

/-- C199 is about functions without PROP_SUCCESS, which ends the run: the checks after it are not made. Alone, the second function fails. -/
theorem C199_success :
    numberOf (forAll ((demo (fun k => Shr.leaf k) (fun _ => returns true) 4).testing (both (fun _ => raises .success) not3)) 9 0 []) = some none ∧
    numberOf (forAll ((demo (fun k => Shr.leaf k) (fun _ => returns true) 4).testing not3) 9 0 []) = some (some (2, 3)) := by
  constructor <;> decide +kernel

end Engine
end Verif
