import Verif.Lemmas.PropertyGreedy
import Verif.Lemmas.PropertyLoop
/-
Runs of `forAll` for properties without memory, computed forwards.
-/
namespace Verif
namespace Engine
open PairTuple
variable {n : Nat} {A : Fin n → Type} {σ : Type}

/-- The property function returns or throws a std::exception. -/
def Returns (f : Args A → Ev Bool) : Prop :=
  ∀ a, (∃ b, (f a).out = .ok b) ∨ ∃ e, (f a).out = .throws e ∧ e.isStd = true

section
variable {c : Cfg σ A} (hq : c.Quiet) {f : Args A → Ev Bool} (hf : c.Pure f) (hr : Returns f)
include hq hf hr

theorem test_total (vals : Tup A) (N : Fin n) (next : Shr (A N)) (s : St σ A) :
    ∃ b s', test c vals N next s = (.ok b, s') := by
  obtain ⟨cu, _, ht⟩ := test_quiet hq vals N next s _ rfl
  rw [hf] at ht
  rw [ht]
  rcases hr (Function.update (Tup.get vals) N next.value) with ⟨b, hb⟩ | ⟨e, he, hs⟩
  · rw [hb]; exact ⟨_, _, rfl⟩
  · rw [he]; simp only [hs, if_true]; exact ⟨_, _, rfl⟩

mutual
theorem shrinkN_total (N : Fin n) : ∀ (t : Shr (A N)) (vals : Tup A) (s : St σ A),
    ∃ vals' s', shrinkN c vals N t s = (.ok vals', s')
  | .node v ss => by
    intro vals s
    rw [shrinkN]
    exact shrinkNIter_total N ss vals _ _
theorem shrinkNIter_total (N : Fin n) : ∀ (ss : List (Shr (A N))) (vals : Tup A) (outer : List String) (s : St σ A),
    ∃ vals' s', shrinkNIter c vals N outer ss s = (.ok vals', s')
  | [] => by
    intro vals outer s
    rw [shrinkNIter]; exact ⟨_, _, rfl⟩
  | next :: rest => by
    intro vals outer s
    rw [shrinkNIter]; beta_reduce
    obtain ⟨b, s', h⟩ := test_total hq hf hr vals N next s
    rw [h]
    simp only
    split
    · exact shrinkN_total N next _ _
    · exact shrinkNIter_total N rest vals outer s'
end

theorem shrinkEach_total : ∀ (order : List (Fin n)) (vals : Tup A) (s : St σ A),
    ∃ vals' s', shrinkEach c order vals s = (.ok vals', s')
  | [], vals, s => ⟨_, _, rfl⟩
  | N :: rest, vals, s => by
    rw [shrinkEach, Eng.bind_apply, Eng.mk_apply]
    obtain ⟨v1, s1, h⟩ := shrinkN_total hq hf hr N (vals N) vals s
    rw [h]
    exact shrinkEach_total rest v1 s1

end

/-- The variables before draw number `j` is made. -/
structure At (c : Cfg σ A) (f : Args A → Ev Bool) (D : Nat → Tup A) (seed : σ) (j i : Nat) (s : St σ A) : Prop where
  rand : s.rand = c.next^[j] seed
  i : s.i = i
  fails : s.fails = []
  runs : calls .run s.trace = (List.range j).map fun k => (Tup.get (D k), f (Tup.get (D k)))
  shrinks : calls .shrink s.trace = []

/-- A run that ends with draw number `j` falsifying the property. -/
structure EndsAt (c : Cfg σ A) (f : Args A → Ev Bool) (D : Nat → Tup A) (seed : σ) (fails : Args A → Bool) (j i : Nat)
    (R : Report A) (s : St σ A) : Prop where
  report : R = .falsified (i + 1) (D j) (greedyEach fails c.orderEach (D j))
  runs : calls .run s.trace = (List.range (j + 1)).map fun k => (Tup.get (D k), f (Tup.get (D k)))
  rand : s.rand = c.next^[j + 1] seed

section
variable {c : Cfg σ A} (hc : Setting c) {f : Args A → Ev Bool} (hf : c.Pure f) (hr : Returns f)
  (hx : ∀ a, (f a).out = .throws .success ∨ (f a).out = .throws .discard → (f a).fails = [])
  {fails : Args A → Bool} (hfails : ∀ a, fails a = true ↔ (f a).Rejects)
  {D : Nat → Tup A} {seed : σ} {j : Nat} (hD : ∃ r, Gen.drawTuple c.gens c.orderRun (c.next^[j] seed) = .ok (D j, r))
include hc hf hr hfails hD

theorem shrink_ends {i : Nat} {s : St σ A} (hs : s.saved = c.next^[j] seed) (hi : s.i = i)
    (hrand : s.rand = c.next^[j + 1] seed)
    (hruns : calls .run s.trace = (List.range (j + 1)).map fun k => (Tup.get (D k), f (Tup.get (D k)))) :
    ∃ R s', shrink c s = (.ok R, s') ∧ EndsAt c f D seed fails j i R s' := by
  have ⟨r, hr'⟩ := hD
  rw [shrink_apply, hc.order, hs, hr']
  simp only
  obtain ⟨v, s1, h⟩ := shrinkEach_total hc.quiet hf hr c.orderEach (D j) { s with saved := r }
  rw [hs] at *
  rw [h]
  obtain ⟨h1, _⟩ := shrinkEach_greedy hc.quiet hf hfails _ _ _ _ _ h
  have hb := shrinkEach_bounded c c.orderEach hc.nodup (D j) { s with saved := r }
  rw [h] at hb
  refine ⟨_, _, rfl, by rw [h1, hi], ?_, hb.rand.trans hrand⟩
  rw [hb.runs]
  exact hruns

include hx

/-- One execution of the loop body. -/
theorem guarded_at {i : Nat} {s : St σ A} (h : At c f D seed j i s) :
    ((f (Tup.get (D j))).discarded = true → ∃ s', guarded c s = (.ok .again, s') ∧ At c f D seed (j + 1) i s') ∧
    ((f (Tup.get (D j))).discarded = false → ¬ (f (Tup.get (D j))).Fails →
      ∃ s', guarded c s = (.ok .pass, s') ∧ At c f D seed (j + 1) i s') ∧
    ((f (Tup.get (D j))).Fails →
      (∃ R s', guarded c s = (.ok (.stop R), s') ∧ EndsAt c f D seed fails j i R s') ∨
      ∃ e s', guarded c s = (.throws e, s') ∧ e.isStd = true ∧
        ∃ R s'', shrink c s' = (.ok R, s'') ∧ EndsAt c f D seed fails j i R s'') := by
  have ⟨r, hr'⟩ := hD
  have hnext : r = c.next^[j + 1] seed := by
    rw [Function.iterate_succ_apply', Cfg.next, hr']
  have hev : c.func (suEv c .run ++ s.trace) (Tup.get (D j)) = f (Tup.get (D j)) := hf _ _
  rw [← hev]
  unfold guarded Eng.tryCatch
  rw [attempt_quiet hc.quiet, h.rand, hr']
  simp only [h.fails, List.nil_append]
  set ev := c.func (suEv c .run ++ s.trace) (Tup.get (D j)) with hev0
  have hruns : ∀ cu : Trace A, (∀ ph, calls ph cu = []) →
      calls .run (cu ++ .call .run (Tup.get (D j)) ev :: (suEv c .run ++ s.trace)) =
      (List.range (j + 1)).map fun k => (Tup.get (D k), f (Tup.get (D k))) := by
    intro cu hcu
    rw [calls_run_step c cu hcu, h.runs, List.range_succ]
    simp [hev]
  have hshr : ∀ cu : Trace A, (∀ ph, calls ph cu = []) →
      calls .shrink (cu ++ .call .run (Tup.get (D j)) ev :: (suEv c .run ++ s.trace)) = [] := by
    intro cu hcu
    have := h.shrinks
    unfold calls at this hcu ⊢
    have h3 := calls_suEv c .run .shrink
    unfold calls at h3
    simp only [List.reverse_append, List.reverse_cons, List.filterMap_append, this, h3, hcu]
    simp [Event.call?]
  have hret := hr (Tup.get (D j))
  rw [← hev] at hret
  cases ho : ev.out with
  | ub => rw [ho] at hret; simp at hret
  | diverges => rw [ho] at hret; simp at hret
  | ok b =>
    have hb := ho
    simp only
    refine ⟨fun hd => by simp [Ev.discarded, hb] at hd, fun _ hnf => ?_, fun hF => ?_⟩
    · have h1 : ev.fails = [] := by
        by_contra h1; exact hnf (.inr (.inr h1))
      have h2 : b = true := by
        cases b with
        | true => rfl
        | false => exact absurd (.inl hb) hnf
      rw [if_pos ⟨h1, h2⟩]
      exact ⟨_, rfl, hnext, h.i, rfl, hruns _ (calls_cuEv c .run), hshr _ (calls_cuEv c .run)⟩
    · have hcond : ¬ (ev.fails = [] ∧ b = true) := by
        rintro ⟨h1, rfl⟩
        rcases hF with h4 | ⟨x, h4, _⟩ | h4
        · rw [hb] at h4; cases h4
        · rw [hb] at h4; cases h4
        · exact h4 h1
      rw [if_neg hcond]
      left
      obtain ⟨R, s', h5, h6⟩ := shrink_ends hc hf hr hfails hD (j := j) (i := i)
        (s := ⟨r, c.next^[j] seed, s.i, [], cuEv c .run ++ .call .run (Tup.get (D j)) ev :: (suEv c .run ++ s.trace)⟩)
        rfl h.i hnext (hruns _ (calls_cuEv c .run))
      refine ⟨R, s', ?_, h6⟩
      rw [Eng.bind_apply, h5]
      rfl
  | throws e =>
    have he := ho
    have hs : e.isStd = true := by rw [ho] at hret; simpa using hret
    simp only
    have hr0 := hruns [] (fun _ => rfl)
    have hs0 := hshr [] (fun _ => rfl)
    simp only [List.nil_append] at hr0 hs0
    refine ⟨fun hd => ?_, fun hd hnf => ?_, fun hF => ?_⟩
    · simp [Ev.discarded, he] at hd
      subst hd
      have hfl := hx (Tup.get (D j)) (.inr (by rw [← hev]; exact he))
      rw [← hev] at hfl
      exact ⟨_, rfl, hnext, h.i, hfl, hr0, hs0⟩
    · have he2 : e = .success := by
        by_contra hne
        refine hnf (.inr (.inl ⟨e, he, hs, ?_, hne⟩))
        rintro rfl
        simp [Ev.discarded, he] at hd
      subst he2
      have hfl := hx (Tup.get (D j)) (.inl (by rw [← hev]; exact he))
      rw [← hev] at hfl
      exact ⟨_, rfl, hnext, h.i, hfl, hr0, hs0⟩
    · right
      have hne : e ≠ .success ∧ e ≠ .discard := by
        constructor
        · rintro rfl
          have hfl := hx (Tup.get (D j)) (.inl (by rw [← hev]; exact he))
          rw [← hev] at hfl
          rcases hF with h4 | ⟨x, h4, _, _, h5⟩ | h4
          · rw [he] at h4; cases h4
          · rw [he] at h4; cases h4; exact h5 rfl
          · exact h4 hfl
        · rintro rfl
          have hfl := hx (Tup.get (D j)) (.inr (by rw [← hev]; exact he))
          rw [← hev] at hfl
          rcases hF with h4 | ⟨x, h4, _, h5, _⟩ | h4
          · rw [he] at h4; cases h4
          · rw [he] at h4; cases h4; exact h5 rfl
          · exact h4 hfl
      obtain ⟨R, s', h5, h6⟩ := shrink_ends hc hf hr hfails hD (j := j) (i := i)
        (s := ⟨r, c.next^[j] seed, s.i, ev.fails, .call .run (Tup.get (D j)) ev :: (suEv c .run ++ s.trace)⟩)
        rfl h.i hnext hr0
      by_cases ha : e = .assertFailed
      · subst ha
        simp only [if_true]
        exact ⟨.propertyFailed, _, rfl, rfl, R, s', h5, h6⟩
      · simp only [if_neg ha, if_neg hne.1, if_neg hne.2]
        exact ⟨e, _, rfl, hs, R, s', h5, h6⟩

end

section
variable {c : Cfg σ A} (hc : Setting c) {f : Args A → Ev Bool} (hf : c.Pure f) (hr : Returns f)
  (hx : ∀ a, (f a).out = .throws .success ∨ (f a).out = .throws .discard → (f a).fails = [])
  {fails : Args A → Bool} (hfails : ∀ a, fails a = true ↔ (f a).Rejects)
  {D : Nat → Tup A} {seed : σ} (hD : ∀ j, ∃ r, Gen.drawTuple c.gens c.orderRun (c.next^[j] seed) = .ok (D j, r))
include hc hf hr hfails hD hx

/-- The `do ... while` loop, when the draws `j .. j+d-1` are discarded. -/
theorem doWhile_at : ∀ (d : Nat) (fuel j i : Nat) (s : St σ A) (_ : d < fuel) (_ : At c f D seed j i s)
    (_ : ∀ k, j ≤ k → k < j + d → (f (Tup.get (D k))).discarded = true),
    ((f (Tup.get (D (j + d)))).discarded = false → ¬ (f (Tup.get (D (j + d)))).Fails →
      ∃ s', doWhile c fuel s = (.ok none, s') ∧ At c f D seed (j + d + 1) i s') ∧
    ((f (Tup.get (D (j + d)))).Fails →
      (∃ R s', doWhile c fuel s = (.ok (some R), s') ∧ EndsAt c f D seed fails (j + d) i R s') ∨
      ∃ e s', doWhile c fuel s = (.throws e, s') ∧ e.isStd = true ∧
        ∃ R s'', shrink c s' = (.ok R, s'') ∧ EndsAt c f D seed fails (j + d) i R s'') := by
  intro d
  induction d with
  | zero =>
    intro fuel j i s hfu h _
    obtain ⟨fuel, rfl⟩ : ∃ k, fuel = k + 1 := ⟨fuel - 1, by omega⟩
    obtain ⟨_, hp, hF⟩ := guarded_at hc hf hr hx hfails (hD _) h
    rw [doWhile, Eng.bind_apply]
    refine ⟨fun h1 h2 => ?_, fun h1 => ?_⟩
    · obtain ⟨s', e, hs'⟩ := hp h1 h2
      rw [e]
      exact ⟨s', rfl, hs'⟩
    · rcases hF h1 with ⟨R, s', e, hs'⟩ | ⟨e', s', e, hs'⟩
      · rw [e]; exact .inl ⟨R, s', rfl, hs'⟩
      · rw [e]; exact .inr ⟨e', s', rfl, hs'⟩
  | succ d ih =>
    intro fuel j i s hfu h hd
    obtain ⟨fuel, rfl⟩ : ∃ k, fuel = k + 1 := ⟨fuel - 1, by omega⟩
    obtain ⟨ha, _, _⟩ := guarded_at hc hf hr hx hfails (hD _) h
    obtain ⟨s', e, hs'⟩ := ha (hd j (Nat.le_refl _) (by omega))
    rw [doWhile, Eng.bind_apply, e]
    have := ih fuel (j + 1) i s' (by omega) hs' (fun k h1 h2 => hd k (by omega) (by omega))
    have e2 : j + 1 + d = j + (d + 1) := by omega
    rw [e2] at this
    exact this

theorem doWhile_diverges : ∀ (fuel j i : Nat) (s : St σ A) (_ : At c f D seed j i s)
    (_ : ∀ k, j ≤ k → k < j + fuel → (f (Tup.get (D k))).discarded = true), (doWhile c fuel s).1 = .diverges := by
  intro fuel
  induction fuel with
  | zero => intro j i s h _; rfl
  | succ fuel ih =>
    intro j i s h hd
    obtain ⟨ha, _, _⟩ := guarded_at hc hf hr hx hfails (hD _) h
    obtain ⟨s', e, hs'⟩ := ha (hd j (Nat.le_refl _) (by omega))
    rw [doWhile, Eng.bind_apply, e]
    exact ih (j + 1) i s' hs' (fun k h1 h2 => hd k (by omega) (by omega))

end

/-- The number of draws among `j .. j+l-1` that are not discarded. -/
def keptCount (E : Nat → Ev Bool) (j l : Nat) : Nat := ((List.range' j l).filter fun k => !(E k).discarded).length

theorem keptCount_zero (E : Nat → Ev Bool) (j : Nat) : keptCount E j 0 = 0 := rfl
theorem keptCount_succ (E : Nat → Ev Bool) (j l : Nat) :
    keptCount E j (l + 1) = (if (E j).discarded then 0 else 1) + keptCount E (j + 1) l := by
  unfold keptCount
  rw [List.range'_succ, List.filter_cons]
  cases (E j).discarded <;> simp <;> omega

/-- Either all draws of a stretch are discarded, or there is a first one that is not. -/
theorem first_kept (E : Nat → Ev Bool) : ∀ (l j : Nat),
    (keptCount E j l = 0 ∧ ∀ k, j ≤ k → k < j + l → (E k).discarded = true) ∨
    ∃ d, d < l ∧ (∀ k, j ≤ k → k < j + d → (E k).discarded = true) ∧ (E (j + d)).discarded = false ∧
      keptCount E j l = 1 + keptCount E (j + d + 1) (l - d - 1) := by
  intro l
  induction l with
  | zero => intro j; exact .inl ⟨rfl, fun k h1 h2 => by omega⟩
  | succ l ih =>
    intro j
    rw [keptCount_succ]
    cases hj : (E j).discarded with
    | false =>
      right
      exact ⟨0, by omega, fun k h1 h2 => by omega, hj, by simp⟩
    | true =>
      rcases ih (j + 1) with ⟨h1, h2⟩ | ⟨d, h1, h2, h3, h4⟩
      · left
        refine ⟨by simpa using h1, fun k h5 h6 => ?_⟩
        by_cases hk : k = j
        · rw [hk]; exact hj
        · exact h2 k (by omega) (by omega)
      · right
        refine ⟨d + 1, by omega, fun k h5 h6 => ?_, by rw [← h3]; congr 2; omega, ?_⟩
        · by_cases hk : k = j
          · rw [hk]; exact hj
          · exact h2 k (by omega) (by omega)
        · have e1 : j + (d + 1) + 1 = j + 1 + d + 1 := by omega
          have e2 : l + 1 - (d + 1) - 1 = l - d - 1 := by omega
          rw [e1, e2]
          simpa using h4

section
variable {c : Cfg σ A} (hc : Setting c) {f : Args A → Ev Bool} (hf : c.Pure f) (hr : Returns f)
  (hx : ∀ a, (f a).out = .throws .success ∨ (f a).out = .throws .discard → (f a).fails = [])
  {fails : Args A → Bool} (hfails : ∀ a, fails a = true ↔ (f a).Rejects) (h0 : c.maxDurationMs = 0)
  {D : Nat → Tup A} {seed : σ} (hD : ∀ j, ∃ r, Gen.drawTuple c.gens c.orderRun (c.next^[j] seed) = .ok (D j, r))
include hc hf hr hfails hD hx h0

theorem forLoop_next {fuel left : Nat} {s s' : St σ A} (h : doWhile c fuel s = (.ok none, s')) :
    forLoop c fuel (left + 1) s = forLoop c fuel left { s' with i := s'.i + 1 } := by
  rw [forLoop_succ, if_neg (by simp [h0]), h]

theorem At.next {j i : Nat} {s : St σ A} (h : At c f D seed j i s) : At c f D seed j (i + 1) { s with i := s.i + 1 } :=
  ⟨h.rand, by simp [h.i], h.fails, h.runs, h.shrinks⟩

theorem forLoop_passes : ∀ (left l fuel j i : Nat) (s : St σ A) (_ : l < fuel) (_ : At c f D seed j i s)
    (_ : ∀ k, j ≤ k → k < j + l → ¬ (f (Tup.get (D k))).Fails)
    (_ : keptCount (fun k => f (Tup.get (D k))) j l = left),
    ∃ s' m, forLoop c fuel left s = (.ok .passed, s') ∧ m ≤ j + l ∧
      calls .run s'.trace = (List.range m).map fun k => (Tup.get (D k), f (Tup.get (D k))) := by
  intro left
  induction left with
  | zero =>
    intro l fuel j i s _ h _ _
    exact ⟨s, j, rfl, by omega, h.runs⟩
  | succ left ih =>
    intro l fuel j i s hfu h hnf hk
    rcases first_kept (fun k => f (Tup.get (D k))) l j with ⟨h1, _⟩ | ⟨d, h1, h2, h3, h4⟩
    · omega
    · obtain ⟨s', e, hs'⟩ := (doWhile_at hc hf hr hx hfails hD d fuel j i s (by omega) h h2).1 h3
        (hnf _ (by omega) (by omega))
      rw [forLoop_next hc hf hr hx hfails h0 hD e]
      obtain ⟨s'', m, e2, h5, h6⟩ := ih (l - d - 1) fuel (j + d + 1) (i + 1) _ (by omega)
        (hs'.next hc hf hr hx hfails h0 hD)
        (fun k h5 h6 => hnf k (by omega) (by omega)) (by omega)
      exact ⟨s'', m, e2, by omega, h6⟩

theorem forLoop_fails : ∀ (left l fuel j i : Nat) (s : St σ A) (_ : l < fuel) (_ : At c f D seed j i s)
    (_ : ∀ k, j ≤ k → k < j + l → ¬ (f (Tup.get (D k))).Fails) (_ : (f (Tup.get (D (j + l)))).Fails)
    (_ : keptCount (fun k => f (Tup.get (D k))) j l < left),
    (∃ R s', forLoop c fuel left s = (.ok R, s') ∧
      EndsAt c f D seed fails (j + l) (i + keptCount (fun k => f (Tup.get (D k))) j l) R s') ∨
    ∃ e s', forLoop c fuel left s = (.throws e, s') ∧ e.isStd = true ∧
      ∃ R s'', shrink c s' = (.ok R, s'') ∧
        EndsAt c f D seed fails (j + l) (i + keptCount (fun k => f (Tup.get (D k))) j l) R s'' := by
  intro left
  induction left with
  | zero => intro l fuel j i s _ _ _ _ h; omega
  | succ left ih =>
    intro l fuel j i s hfu h hnf hF hk
    rcases first_kept (fun k => f (Tup.get (D k))) l j with ⟨h1, h2⟩ | ⟨d, h1, h2, h3, h4⟩
    · rw [forLoop_succ, if_neg (by simp [h0]), h1]
      rcases (doWhile_at hc hf hr hx hfails hD l fuel j i s (by omega) h h2).2 hF with ⟨R, s', e, hE⟩ | ⟨x, s', e, hE⟩
      · rw [e]; exact .inl ⟨R, s', rfl, hE⟩
      · rw [e]; exact .inr ⟨x, s', rfl, hE⟩
    · obtain ⟨s', e, hs'⟩ := (doWhile_at hc hf hr hx hfails hD d fuel j i s (by omega) h h2).1 h3
        (hnf _ (by omega) (by omega))
      rw [forLoop_next hc hf hr hx hfails h0 hD e]
      have e1 : j + d + 1 + (l - d - 1) = j + l := by omega
      have := ih (l - d - 1) fuel (j + d + 1) (i + 1) _ (by omega)
        (hs'.next hc hf hr hx hfails h0 hD)
        (fun k h5 h6 => hnf k (by omega) (by omega)) (by rw [e1]; exact hF) (by omega)
      have e2 : i + 1 + keptCount (fun k => f (Tup.get (D k))) (j + d + 1) (l - d - 1) =
        i + keptCount (fun k => f (Tup.get (D k))) j l := by omega
      rw [e1, e2] at this
      exact this

theorem forLoop_diverges : ∀ (left fuel j i : Nat) (s : St σ A) (_ : At c f D seed j i s)
    (_ : ∀ k, j ≤ k → ¬ (f (Tup.get (D k))).Fails)
    (_ : ∀ l, keptCount (fun k => f (Tup.get (D k))) j l < left), (forLoop c fuel left s).1 = .diverges := by
  intro left
  induction left with
  | zero => intro fuel j i s _ _ h; exact absurd (h 0) (by omega)
  | succ left ih =>
    intro fuel j i s h hnf hk
    rcases first_kept (fun k => f (Tup.get (D k))) fuel j with ⟨h1, h2⟩ | ⟨d, h1, h2, h3, h4⟩
    · have := doWhile_diverges hc hf hr hx hfails hD fuel j i s h h2
      rw [forLoop_succ, if_neg (by simp [h0])]
      cases he : doWhile c fuel s with
      | mk o s1 => rw [he] at this; simp only at this; subst this; rfl
    · obtain ⟨s', e, hs'⟩ := (doWhile_at hc hf hr hx hfails hD d fuel j i s (by omega) h h2).1 h3
        (hnf _ (by omega))
      rw [forLoop_next hc hf hr hx hfails h0 hD e]
      refine ih fuel (j + d + 1) (i + 1) _ (hs'.next hc hf hr hx hfails h0 hD) (fun k h5 => hnf k (by omega)) fun l => ?_
      have h5 := hk (d + 1 + l)
      rcases first_kept (fun k => f (Tup.get (D k))) (d + 1 + l) j with ⟨h6, h7⟩ | ⟨d', g1, g2, g3, g4⟩
      · have := h7 (j + d) (by omega) (by omega)
        rw [h3] at this; cases this
      · have hdd : d' = d := by
          by_contra hne
          rcases Nat.lt_or_gt_of_ne hne with hlt | hlt
          · have := h2 (j + d') (by omega) (by omega)
            rw [g3] at this; cases this
          · have := g2 (j + d) (by omega) (by omega)
            rw [h3] at this; cases this
        subst hdd
        have e3 : d' + 1 + l - d' - 1 = l := by omega
        rw [e3] at g4
        omega

end
end Engine
end Verif
