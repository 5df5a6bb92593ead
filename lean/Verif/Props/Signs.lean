import Verif.Props.EndToEnd
import Verif.Props.Floating
import Verif.Lemmas.PairTuple
/-
C177: what the documentation calls simpler, /repo/docs/Shrinking.md:35-37: a reported number has lost its sign
(`-34 -> 34`) or has a smaller absolute value.
-/
namespace Verif
open Shr BinSearch Random Integral IntType Floating PairTuple

namespace Engine
variable {n : Nat} {σ : Type}

theorem start_makes_all {A : Fin n → Type} {c : Cfg σ A} (hc : Setting c) (fuel : Nat) (seed : σ) (a : Nat)
    (start shrunk : Tup A) (tr : Trace A)
    (h : forAll c fuel seed [] = (.ok (.falsified a start shrunk), tr)) (i : Fin n) :
    Gen.Makes (c.gens i) (start i) := by
  have hr := forAll_result hc fuel seed
  rw [h] at hr
  obtain ⟨j, hj, hst⟩ := hr.stop a start shrunk rfl
  obtain ⟨pre, x, s', t', s1, s2, hR, _, _, _, ⟨s, r, hdraw⟩, _⟩ := hst.ex
  cases hR
  exact Gen.drawTuple_ok _ _ _ _ _ hdraw i

theorem keeps_sign {st sh z min max : Int}
    (hz : (min ≤ 0 ∧ 0 ≤ max ∧ z = 0) ∨ (0 < min ∧ z = min) ∨ (max < 0 ∧ z = max)) (hb : min ≤ st ∧ st ≤ max)
    (h : (z ≤ sh ∧ sh ≤ st) ∨ (st ≤ sh ∧ sh ≤ z)) :
    sh.natAbs ≤ st.natAbs ∧ (st ≤ 0 → sh ≤ 0) ∧ (0 ≤ st → 0 ≤ sh) := by omega

/-- C177, the part that holds: in a test of any number of integer arguments, the one drawn by `interval<T>(min, max)` is
reported with an absolute value that is not larger than that of the number drawn, and with the same sign unless it is 0. -/
theorem C177_integers_partial {c : Cfg σ (fun _ : Fin n => Int)} (hc : Setting c) (i : Fin n)
    (R : Rng σ) (T : IntType) (hT : T ∈ all) (min max : Int) (h1 : T.lo ≤ min) (h2 : min ≤ max) (h3 : max ≤ T.hi)
    (hg : c.gens i = interval R T min max)
    (fuel : Nat) (seed : σ) (a : Nat) (start shrunk : Tup (fun _ : Fin n => Int)) (tr : Trace (fun _ : Fin n => Int))
    (h : forAll c fuel seed [] = (.ok (.falsified a start shrunk), tr)) :
    (shrunk i).value.natAbs ≤ (start i).value.natAbs ∧
    ((start i).value ≤ 0 → (shrunk i).value ≤ 0) ∧ (0 ≤ (start i).value → 0 ≤ (shrunk i).value) := by
  obtain ⟨s, s', hs⟩ := start_makes_all hc fuel seed a start shrunk tr h i
  have hd := (C48_observed hc fuel seed a start shrunk tr h).2 i
  obtain ⟨t, s'', ht, hgood⟩ := C17_interval R T hT min max s h1 h2 h3
  rw [hg, ht] at hs
  cases hs
  obtain ⟨z, hz, hz'⟩ : ∃ z, Nearest0 min max z ∧ ((min ≤ 0 ∧ 0 ≤ max ∧ z = 0) ∨ (0 < min ∧ z = min) ∨ (max < 0 ∧ z = max)) := by
    unfold Nearest0
    by_cases h4 : 0 < min
    · exact ⟨min, ⟨by omega, by omega, fun y _ _ => by omega⟩, by omega⟩
    · by_cases h5 : max < 0
      · exact ⟨max, ⟨by omega, by omega, fun y _ _ => by omega⟩, by omega⟩
      · exact ⟨0, ⟨by omega, by omega, fun y _ _ => by simp⟩, by omega⟩
  have hb := hgood.1 _ (.self _)
  exact keeps_sign hz' hb (((hgood.2 _ hz).2 (shrunk i).value).mp ⟨_, hd, rfl⟩)

/-- C177 fails for integers: a test that fails exactly for `v` and `-v` is reported with `-v` when `-v` was drawn, although `v`
is in the range and fails as well: the sign is never removed. -/
theorem C177_sign_violated {c : Cfg σ (fun _ : Fin 1 => Int)} (hc : Setting c)
    (R : Rng σ) (T : IntType) (hT : T ∈ all) (min max v : Int) (h1 : T.lo ≤ min) (h3 : max ≤ T.hi)
    (hv : 0 < v) (hv1 : min ≤ -v) (hv2 : v ≤ max) (hg : c.gens 0 = interval R T min max)
    {f : Args (fun _ : Fin 1 => Int) → Ev Bool} (hf : c.Pure f)
    (hq : ∀ a, (f a).out = .throws .success ∨ (f a).out = .throws .discard → (f a).fails = [])
    (hrej : ∀ w, (f fun _ => w).Rejects ↔ w = v ∨ w = -v)
    (fuel : Nat) (seed : σ) (a : Nat) (start shrunk : Tup (fun _ : Fin 1 => Int)) (tr : Trace (fun _ : Fin 1 => Int))
    (h : forAll c fuel seed [] = (.ok (.falsified a start shrunk), tr)) (hn : (start 0).value < 0) :
    (shrunk 0).value = -v ∧ (f fun _ => v).Rejects := by
  refine ⟨?_, (hrej v).mpr (.inl rfl)⟩
  have h4 := (C48_shrunk_arguments_fail_partial hc hf hq fuel seed a start shrunk tr h).1
  have h5 : (fun i => (shrunk i).value) = fun _ : Fin 1 => (shrunk 0).value := by
    funext i; rw [Subsingleton.elim i 0]
  rw [h5, hrej] at h4
  have h6 := (C177_integers_partial hc 0 R T hT min max h1 (by omega) h3 hg fuel seed a start shrunk tr h).2.1
    (Int.le_of_lt hn)
  rcases h4 with h4 | h4
  · rw [h4] at h6; exact absurd h6 (Int.not_le.mpr hv)
  · exact h4

/-- `demoOf` with a generator that does not throw `Success`. -/
theorem demoOf_quiet {α : Type} (g : Gen (List Int) α) (f : α → Ev Bool) (runs : Nat)
    (hg : ∀ s, g s ≠ .throws .success) : Setting (demoOf g f runs) where
  quiet := ⟨fun k h => by simp [demoOf] at h, fun k h => by simp [demoOf] at h⟩
  order := rfl
  nodup := by simp [demoOf]
  gens := fun s => by
    have := hg s
    unfold Gen.drawTuple
    simp only [demoOf, Gen.drawInto]
    cases h : g s with
    | ok r =>
      simp only [Outcome.ok_bind]
      rw [dif_pos (by intro i; obtain rfl : i = 0 := Subsingleton.elim _ _; rfl)]
      simp
    | throws e =>
      intro h'
      apply this
      rw [h]
      cases h'
      rfl
    | ub => intro h'; cases h'
    | diverges => intro h'; cases h'

/-- `v * v != 34 * 34`: -34 is drawn and reported. -/
example : ∃ (start shrunk : Tup (fun _ : Fin 1 => Int)) (tr : Trace _),
    forAll (demoOf (interval script i32 (-100) 100) (fun v => returns (decide (v * v ≠ 34 * 34))) 10) 50
      [5, -34] [] = (.ok (.falsified 2 start shrunk), tr) ∧ (start 0).value = -34 ∧ (shrunk 0).value = -34 ∧
    Setting (demoOf (interval script i32 (-100) 100) (fun v => returns (decide (v * v ≠ 34 * 34))) 10) ∧
    ∀ w : Int, (returns (decide (w * w ≠ 34 * 34))).Rejects ↔ w = 34 ∨ w = -34 := by
  obtain ⟨start, shrunk, tr, h1, h2, h3⟩ := seen_falsified (r := forAll (demoOf (interval script i32 (-100) 100)
    (fun v => returns (decide (v * v ≠ 34 * 34))) 10) 50 [5, -34] []) (a := 2) (s := -34) (t := -34) (by decide +kernel)
  refine ⟨start, shrunk, tr, h1, h2, h3, demoOf_setting _ _ _ fun s => ?_, fun w => ?_⟩
  · obtain ⟨t, s', h, _⟩ := C17_interval script i32 (by decide) (-100) 100 s (by decide) (by decide) (by decide)
    exact ⟨_, h⟩
  rw [returns_rejects]
  simpa using mul_self_eq_mul_self_iff (a := w) (b := 34)

theorem shrinkFloat_throws {F : Fmt} {x : Fl} (hx : x.Valid F) {e : Exn} : shrinkFloat F x ≠ .throws e := by
  intro h
  by_cases h1 : (∃ neg, x = .inf neg) ∨ ∃ q, x.toRat? F = some q ∧ 2^32 ≤ |q|
  · rw [C101_huge_violated F x hx h1] at h; cases h
  · push Not at h1
    obtain ⟨l, hl⟩ := C101_defined_partial F x hx h1.1 h1.2
    rw [hl] at h; cases h

/-- C177 fails for floating point numbers: in a test of any number of `float` or `double` arguments, a finite number drawn is
reported with the sign it was drawn with, or as +0. A negative number is never reported as a positive one. -/
theorem C177_float_violated {c : Cfg σ (fun _ : Fin n => Fl)} (hc : Setting c) (i : Fin n) (R : Rng σ) (F : Fmt)
    (hg : c.gens i = arbi R F) (fuel : Nat) (seed : σ) (a : Nat) (start shrunk : Tup (fun _ : Fin n => Fl))
    (tr : Trace (fun _ : Fin n => Fl)) (h : forAll c fuel seed [] = (.ok (.falsified a start shrunk), tr))
    (neg : Bool) (f : Nat) (e : Int) (hs : (start i).value = .fin neg f e) :
    (shrunk i).value = .zero false ∨ ∃ f' e', (shrunk i).value = .fin neg f' e' := by
  obtain ⟨s, s', hm⟩ := start_makes_all hc fuel seed a start shrunk tr h i
  have hd := (C48_observed hc fuel seed a start shrunk tr h).2 i
  rw [hg] at hm
  obtain ⟨hv, hl⟩ := C106_shrinkable R F s s' _ hm
  obtain ⟨x, s'', hx, hval⟩ := (C106_generated F).1 R s
  rw [hv] at hx
  cases hx
  rw [hs] at hl hval
  generalize shrunk i = u at hd ⊢
  generalize start i = t at hd hs hl hval hm hv
  cases hd with
  | refl => exact .inr ⟨f, e, hs⟩
  | step hmem hd =>
    rcases (C102_values F neg f e hval _ hl _ hmem _ ⟨_, hd, rfl⟩).2 with h | ⟨e', _, h | h⟩
    · exact .inl h
    · exact .inr ⟨_, _, h⟩
    · exact .inr ⟨_, _, h⟩

/-- C177, the sign of a `float` or `double`: a test that fails exactly for `x` and `-x` is reported with `-x` when `-x` was drawn. -/
theorem C177_float_sign_violated {c : Cfg σ (fun _ : Fin 1 => Fl)} (hc : Setting c) (R : Rng σ) (F : Fmt)
    (hg : c.gens 0 = arbi R F) (m : Nat) (e : Int)
    {f : Args (fun _ : Fin 1 => Fl) → Ev Bool} (hf : c.Pure f)
    (hq : ∀ a, (f a).out = .throws .success ∨ (f a).out = .throws .discard → (f a).fails = [])
    (hrej : ∀ w, (f fun _ => w).Rejects ↔ w = .fin false m e ∨ w = .fin true m e)
    (fuel : Nat) (seed : σ) (a : Nat) (start shrunk : Tup (fun _ : Fin 1 => Fl))
    (tr : Trace (fun _ : Fin 1 => Fl)) (h : forAll c fuel seed [] = (.ok (.falsified a start shrunk), tr))
    (hn : (start 0).value = .fin true m e) :
    (shrunk 0).value = .fin true m e ∧ (f fun _ => .fin false m e).Rejects := by
  refine ⟨?_, (hrej _).mpr (.inl rfl)⟩
  have h4 := (C48_shrunk_arguments_fail_partial hc hf hq fuel seed a start shrunk tr h).1
  have h5 : (fun i => (shrunk i).value) = fun _ : Fin 1 => (shrunk 0).value := by
    funext i; rw [Subsingleton.elim i 0]
  rw [h5, hrej] at h4
  rcases C177_float_violated hc 0 R F hg fuel seed a start shrunk tr h true m e hn with h6 | ⟨f', e', h6⟩
  · rw [h6] at h4; simp at h4
  · rw [h6] at h4 ⊢; simpa using h4

/-- `abs(x) != 2.5f`: -2.5f is drawn (by its bits) and reported. -/
example : ∃ (start shrunk : Tup (fun _ : Fin 1 => Fl)) (tr : Trace _),
    forAll (demoOf (arbi script .single)
      (fun x => returns (decide (x ≠ .fin false (5 * 2^21) 2 ∧ x ≠ .fin true (5 * 2^21) 2))) 10) 50
      [0xC0200000] [] = (.ok (.falsified 1 start shrunk), tr) ∧ (start 0).value = .fin true (5 * 2^21) 2 ∧
      (shrunk 0).value = .fin true (5 * 2^21) 2 ∧
    Setting (demoOf (arbi script .single)
      (fun x => returns (decide (x ≠ .fin false (5 * 2^21) 2 ∧ x ≠ .fin true (5 * 2^21) 2))) 10) ∧
    ∀ w : Fl, (returns (decide (w ≠ .fin false (5 * 2^21) 2 ∧ w ≠ .fin true (5 * 2^21) 2))).Rejects ↔
      w = .fin false (5 * 2^21) 2 ∨ w = .fin true (5 * 2^21) 2 := by
  obtain ⟨start, shrunk, tr, h1, h2, h3⟩ := seen_falsified (r := forAll (demoOf (arbi script .single)
      (fun x => returns (decide (x ≠ .fin false (5 * 2^21) 2 ∧ x ≠ .fin true (5 * 2^21) 2))) 10) 50
      [0xC0200000] []) (a := 1) (s := .fin true (5 * 2^21) 2) (t := .fin true (5 * 2^21) 2) (by decide +kernel)
  refine ⟨start, shrunk, tr, h1, h2, h3, demoOf_quiet _ _ _ fun s => ?_, fun w => ?_⟩
  · obtain ⟨x, s', hx, hv⟩ := (C106_generated .single).1 script s
    unfold arbi
    rw [hx, Outcome.ok_bind]
    intro h
    cases hs : shrinkFloat .single x with
    | ok l => simp only [hs, Outcome.ok_bind] at h; cases h
    | throws e => exact shrinkFloat_throws hv hs
    | ub => simp only [hs] at h; cases h
    | diverges => simp only [hs] at h; cases h
  rw [returns_rejects]
  simp only [ne_eq, decide_eq_false_iff_not]
  tauto

end Engine
end Verif
