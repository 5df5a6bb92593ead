import Verif.Model.Process
import Verif.Props.Verdict
import Verif.Props.EndToEnd
/-
C178: a test that is repeated tests further inputs.
-/
namespace Verif
namespace Process
open Printing Engine PairTuple Random Integral
variable {n : Nat} {A : Fin n → Type} {σ : Type}

/-- The argument lists a test has tried, in this order, before shrinking. -/
def inputs (r : Outcome (Report A) × Trace A) : List (Args A) := (calls .run r.2).map Prod.fst

/-- What the calls of `getGlobalSeed` of a program give, each with the environment and the time of the call. -/
def seeds : List (Option Text × Int) → Statics → List (Outcome Int)
  | [], _ => []
  | (env, now) :: cs, st => (globalSeed env now st).1 :: seeds cs (globalSeed env now st).2

theorem globalSeed_again (env env' : Option Text) (now now' : Int) (st : Statics) :
    globalSeed env' now' (globalSeed env now st).2 = globalSeed env now st := by
  unfold globalSeed
  cases h : st.envSeed.getD env <;> simp

theorem seeds_const (env : Option Text) (now : Int) (st : Statics) : ∀ cs : List (Option Text × Int),
    ∀ o ∈ seeds cs (globalSeed env now st).2, o = (globalSeed env now st).1
  | [], o, h => by simp [seeds] at h
  | (env', now') :: cs, o, h => by
    rw [seeds, globalSeed_again, List.mem_cons] at h
    rcases h with rfl | h
    · rfl
    · exact seeds_const env now st cs o h

/-- C178 fails. All seeds that are not given by `setSeed` are the same in all tests of a program, at whatever times they are
made, and even if the environment is changed in between: the one that the environment and the time of the first test
determine. -/
theorem C178_one_seed_violated (cs : List (Option Text × Int)) (env : Option Text) (now : Int) :
    ∀ o ∈ seeds ((env, now) :: cs) {}, o = Seed.getGlobalSeed env now := by
  have h : (globalSeed env now {}).1 = Seed.getGlobalSeed env now := by
    unfold globalSeed Seed.getGlobalSeed
    cases env <;> rfl
  intro o ho
  rw [seeds, List.mem_cons] at ho
  rcases ho with rfl | ho
  · exact h
  · rw [seeds_const env now {} cs o ho, h]

example : seeds [(none, 1700000000000), (some [52, 50], 1700000000007), (none, 1800000000000)] {} =
    [.ok 1700000000000, .ok 1700000000000, .ok 1700000000000] := by rfl

theorem prefix_of {α : Type} {l l' : List α} {d : Nat → α} (h : ∀ k x, l[k]? = some x → x = d k)
    (h' : ∀ k x, l'[k]? = some x → x = d k) (hl : l.length ≤ l'.length) : l <+: l' := by
  rw [List.prefix_iff_eq_take]
  refine List.ext_getElem? fun k => ?_
  rw [List.getElem?_take]
  split
  · rename_i hk
    obtain ⟨x, hx⟩ : ∃ x, l[k]? = some x := ⟨_, List.getElem?_eq_getElem hk⟩
    obtain ⟨y, hy⟩ : ∃ y, l'[k]? = some y := ⟨_, List.getElem?_eq_getElem (Nat.lt_of_lt_of_le hk hl)⟩
    rw [hx, hy, h k x hx, h' k y hy]
  · rename_i hk
    rw [List.getElem?_eq_none_iff]; omega

/-- The k-th input of a test whose generators are `gens`. -/
theorem inputs_drawn {c : Cfg σ A} (hq : c.Quiet) (hn : c.orderEach.Nodup) (hg : c.GensTotal) (fuel : Nat) (seed : σ)
    (D : Nat → Tup A) (hD : c.Drawn seed D) (k : Nat) (x : Args A)
    (h : (inputs (forAll c fuel seed []))[k]? = some x) : x = Tup.get (D k) := by
  unfold inputs at h
  rw [List.getElem?_map, Option.map_eq_some_iff] at h
  obtain ⟨y, hy, rfl⟩ := h
  obtain ⟨ts, r, h1, h2⟩ := C45_fresh_arguments hq hn hg fuel seed k y hy
  obtain ⟨r', h3⟩ := hD k
  rw [h1] at h3
  cases h3
  exact h2

theorem drawn_ex {c : Cfg σ A} (hg : c.GensTotal) (seed : σ) : ∃ D, c.Drawn seed D :=
  ⟨fun j => (Classical.choose (hg (c.next^[j] seed))).1,
   fun j => ⟨_, Classical.choose_spec (hg (c.next^[j] seed))⟩⟩

/-- What a test needs for the following theorems: hooks that return and record nothing, each argument is shrunk once, the
generators return. Nothing is said about the property function, the number of runs, the time limit and the clock. -/
structure Usual (gens : (i : Fin n) → Gen σ (A i)) (order : List (Fin n)) (t : Test σ A) : Prop where
  gens : t.cfg.gens = gens
  order : t.cfg.orderRun = order
  quiet : t.cfg.Quiet
  nodup : t.cfg.orderEach.Nodup
  total : t.cfg.GensTotal
  seed : t.given = none

theorem usual_drawn {gens : (i : Fin n) → Gen σ (A i)} {order : List (Fin n)} {t t' : Test σ A} (h : Usual gens order t)
    (h' : Usual gens order t') (seed : σ) (D : Nat → Tup A) (hD : t.cfg.Drawn seed D) : t'.cfg.Drawn seed D := by
  have hn : t'.cfg.next = t.cfg.next := by
    funext s
    unfold Cfg.next
    rw [h.gens, h'.gens, h.order, h'.order]
  intro j
  rw [hn, h'.gens, h'.order, ← h.gens, ← h.order]
  exact hD j

theorem run_ok {engine : Int → σ} {t : Test σ A} {st : Statics} {x : Outcome (Report A) × Trace A}
    (h : (t.run engine st).1 = .ok x) :
    ∃ s, (globalSeed t.env t.now st).1 = .ok s ∧ x = forAll t.cfg t.fuel (engine (t.given.getD s)) [] := by
  unfold Test.run at h
  simp only at h
  cases hg : (globalSeed t.env t.now st).1 with
  | ok s => rw [hg] at h; cases h; exact ⟨s, rfl, rfl⟩
  | throws e => rw [hg] at h; cases h
  | ub => rw [hg] at h; cases h
  | diverges => rw [hg] at h; cases h

theorem results_seed (engine : Int → σ) (env : Option Text) (now : Int) : ∀ (ts : List (Test σ A)) (st : Statics)
    (_ : ∀ e w, globalSeed e w st = globalSeed env now st) (i : Nat) (t : Test σ A) (_ : ts[i]? = some t)
    (x : Outcome (Report A) × Trace A) (_ : (results engine ts st)[i]? = some (.ok x)),
    ∃ s, (globalSeed env now st).1 = .ok s ∧ x = forAll t.cfg t.fuel (engine (t.given.getD s)) []
  | [], _, _, i, t, ht, _, _ => by simp at ht
  | u :: us, st, hst, 0, t, ht, x, hx => by
    simp only [List.getElem?_cons_zero, Option.some.injEq, results] at ht hx
    subst ht
    have := run_ok hx
    rwa [hst] at this
  | u :: us, st, hst, i + 1, t, ht, x, hx => by
    simp only [List.getElem?_cons_succ, results] at ht hx
    have h2 : (u.run engine st).2 = (globalSeed env now st).2 := by
      unfold Test.run
      rw [hst]
    rw [h2] at hx
    obtain ⟨s, h3, h4⟩ := results_seed engine env now us _
      (fun e w => by rw [globalSeed_again, globalSeed_again]) i t ht x hx
    rw [globalSeed_again] at h3
    exact ⟨s, h3, h4⟩

theorem results_same (engine : Int → σ) (ts : List (Test σ A)) : ∃ o : Outcome Int, ∀ (i : Nat) (t : Test σ A),
    ts[i]? = some t → ∀ x, (results engine ts {})[i]? = some (.ok x) →
      ∃ s, o = .ok s ∧ x = forAll t.cfg t.fuel (engine (t.given.getD s)) [] := by
  cases ts with
  | nil => exact ⟨.ub, fun i t h => by simp at h⟩
  | cons u us =>
    refine ⟨(globalSeed u.env u.now {}).1, fun i t ht x hx => ?_⟩
    cases i with
    | zero =>
      simp only [List.getElem?_cons_zero, Option.some.injEq, results] at ht hx
      subst ht
      exact run_ok hx
    | succ i =>
      simp only [List.getElem?_cons_succ, results] at ht hx
      have h2 : (u.run engine {}).2 = (globalSeed u.env u.now {}).2 := rfl
      rw [h2] at hx
      obtain ⟨s, h3, h4⟩ := results_seed engine u.env u.now us _
        (fun e w => by rw [globalSeed_again, globalSeed_again]) i t ht x hx
      rw [globalSeed_again] at h3
      exact ⟨s, h3, h4⟩

/-- C178 fails. Of two tests of a program with the same generators, wherever in the program they are and whatever their property
functions are, one tries exactly the inputs the other one tries first: no test tries something else than the ones before. -/
theorem C178_same_inputs_violated (engine : Int → σ) (ts : List (Test σ A)) (gens : (i : Fin n) → Gen σ (A i))
    (order : List (Fin n)) (i j : Nat) (t u : Test σ A) (ht : ts[i]? = some t) (hu : ts[j]? = some u)
    (h1 : Usual gens order t) (h2 : Usual gens order u) (x y : Outcome (Report A) × Trace A)
    (hx : (results engine ts {})[i]? = some (.ok x)) (hy : (results engine ts {})[j]? = some (.ok y)) :
    inputs x <+: inputs y ∨ inputs y <+: inputs x := by
  obtain ⟨o, ho⟩ := results_same engine ts
  obtain ⟨s, rfl, h3⟩ := ho i t ht x hx
  obtain ⟨s', h4, h5⟩ := ho j u hu y hy
  cases h4
  rw [h1.seed] at h3
  rw [h2.seed] at h5
  obtain ⟨D, hD⟩ := drawn_ex h1.total (engine s)
  have hD' := usual_drawn h1 h2 _ D hD
  have key1 : ∀ k a, (inputs x)[k]? = some a → a = Tup.get (D k) := by
    rw [h3]; exact inputs_drawn h1.quiet h1.nodup h1.total _ _ D hD
  have key2 : ∀ k a, (inputs y)[k]? = some a → a = Tup.get (D k) := by
    rw [h5]; exact inputs_drawn h2.quiet h2.nodup h2.total _ _ D hD'
  rcases Nat.le_total (inputs x).length (inputs y).length with hl | hl
  · exact .inl (prefix_of key1 key2 hl)
  · exact .inr (prefix_of key2 key1 hl)

/-- C178 fails. However often tests with the same generators are repeated in a program: all the inputs that are tried are tried by
one of them alone. -/
theorem C178_nothing_new_violated (engine : Int → σ) (ts : List (Test σ A)) (gens : (i : Fin n) → Gen σ (A i))
    (order : List (Fin n)) (h : ∀ t ∈ ts, Usual gens order t) (hne : ts ≠ [])
    (h2 : ∀ o ∈ results engine ts {}, ∃ x, o = .ok x) :
    ∃ x, .ok x ∈ results engine ts {} ∧ ∀ y, .ok y ∈ results engine ts {} → inputs y <+: inputs x := by
  have hlen : ∀ (us : List (Test σ A)) st, (results engine us st).length = us.length := by
    intro us
    induction us with
    | nil => intro st; rfl
    | cons u us ih => intro st; simp [results, ih]
  have pick : ∀ rs : List (Outcome (Outcome (Report A) × Trace A)), rs ≠ [] → (∀ o ∈ rs, ∃ x, o = .ok x) →
      ∃ x, .ok x ∈ rs ∧ ∀ y, .ok y ∈ rs → (inputs y).length ≤ (inputs x).length := by
    intro rs
    induction rs with
    | nil => intro h; exact absurd rfl h
    | cons r rs ih =>
      intro _ hr
      obtain ⟨x, rfl⟩ := hr r (by simp)
      by_cases hrs : rs = []
      · subst hrs
        exact ⟨x, by simp, fun y hy => by simp at hy; subst hy; exact Nat.le_refl _⟩
      · obtain ⟨z, hz, hmax⟩ := ih hrs (fun o ho => hr o (by simp [ho]))
        rcases Nat.le_total (inputs x).length (inputs z).length with hl | hl
        · refine ⟨z, by simp [hz], fun y hy => ?_⟩
          rw [List.mem_cons] at hy
          rcases hy with hy | hy
          · cases hy; exact hl
          · exact hmax y hy
        · refine ⟨x, by simp, fun y hy => ?_⟩
          rw [List.mem_cons] at hy
          rcases hy with hy | hy
          · cases hy; exact Nat.le_refl _
          · exact Nat.le_trans (hmax y hy) hl
  obtain ⟨x, hx, hmax⟩ := pick (results engine ts {}) (by
    intro h0
    have := hlen ts {}
    rw [h0] at this
    exact hne (List.length_eq_zero_iff.mp this.symm)) h2
  refine ⟨x, hx, fun y hy => ?_⟩
  obtain ⟨i, hi⟩ := List.mem_iff_getElem?.mp hx
  obtain ⟨j, hj⟩ := List.mem_iff_getElem?.mp hy
  have hi' : i < ts.length := by rw [← hlen ts {}]; exact (List.getElem?_eq_some_iff.mp hi).1
  have hj' : j < ts.length := by rw [← hlen ts {}]; exact (List.getElem?_eq_some_iff.mp hj).1
  rcases C178_same_inputs_violated engine ts gens order i j ts[i] ts[j] (List.getElem?_eq_getElem hi')
    (List.getElem?_eq_getElem hj') (h _ (List.getElem_mem _)) (h _ (List.getElem_mem _)) x y hi hj with h3 | h3
  · have := h3.eq_of_length (Nat.le_antisymm h3.length_le (hmax y hy))
    exact this ▸ List.prefix_refl _
  · exact h3

/-- C178, the part that holds: a test with a seed of its own does what it does as the only test of a program, whatever the
environment, the time and the tests before it are. Tests with different seeds start from different engines. Missing: tests
without seeds of their own. -/
theorem C178_setSeed_partial (engine : Int → σ) (ts : List (Test σ A)) (i : Nat) (t : Test σ A) (ht : ts[i]? = some t)
    (s : Int) (hs : t.given = some s) (x : Outcome (Report A) × Trace A)
    (hx : (results engine ts {})[i]? = some (.ok x)) :
    results engine [{ t with env := none }] {} = [.ok x] ∧ x = forAll t.cfg t.fuel (engine s) [] := by
  obtain ⟨o, ho⟩ := results_same engine ts
  obtain ⟨s', _, h3⟩ := ho i t ht x hx
  rw [hs] at h3
  refine ⟨?_, h3⟩
  rw [h3]
  simp only [results, Test.run, globalSeed, hs, Outcome.bind]
  rfl

/-- Two tests of a program, made at different times, with different functions and numbers of runs. -/
def twice : List (Test (List Int) (fun _ : Fin 1 => Int)) :=
  [⟨none, 1000, none, demoOf (interval script .i32 0 9) (fun _ => returns true) 3, 5⟩,
   ⟨some [55], 2000, none, demoOf (interval script .i32 0 9) (fun v => returns (decide (v ≤ 7))) 5, 5⟩,
   ⟨none, 3000, some 4, demoOf (interval script .i32 0 9) (fun _ => returns true) 2, 5⟩]

/-- The first tries 3, 4, 5, the second 3, 4, 5, 8; the third has another seed. -/
example : (results (fun s => if s = 4 then [1, 2] else [3, 4, 5, 8, 6]) twice {}).map (fun o => match o with
      | .ok x => (inputs x).map (· 0)
      | _ => []) = [[3, 4, 5], [3, 4, 5, 8], [1, 2]] := by decide +kernel

example : ∀ t ∈ twice.take 2, Usual (fun _ => interval script .i32 0 9) [0] t := by
  have ht : ∀ f r, (demoOf (interval script .i32 0 9) f r).GensTotal := by
    intro f r s
    obtain ⟨t, s', h, _⟩ := C17_interval script .i32 (by decide) 0 9 s (by decide) (by decide) (by decide)
    unfold Gen.drawTuple
    simp only [demoOf, Gen.drawInto, h, Outcome.ok_bind]
    rw [dif_pos (by intro i; obtain rfl : i = 0 := Subsingleton.elim _ _; rfl)]
    exact ⟨_, rfl⟩
  intro t h
  simp only [twice, List.take_succ_cons, List.take_zero, List.mem_cons, List.not_mem_nil, or_false] at h
  rcases h with rfl | rfl
  all_goals exact ⟨rfl, rfl, ⟨fun k h => by simp [demoOf] at h, fun k h => by simp [demoOf] at h⟩, by simp [demoOf], ht _ _, rfl⟩

end Process
end Verif
