import Verif.Lemmas.PropertyVerdict
/-
What one run of a property adds to the history, for the time limit of `forAll`.
-/
namespace Verif
namespace Engine
open PairTuple
variable {n : Nat} {A : Fin n → Type} {σ : Type}

section
variable {c : Cfg σ A} (hc : Setting c)
include hc

theorem test_suffix (N : Fin n) (vals : Tup A) (next : Shr (A N)) (s : St σ A) :
    s.trace <:+ (test c vals N next s).2.trace := by
  obtain ⟨cu, _, h⟩ := test_quiet hc.quiet vals N next s _ rfl
  rw [h]
  exact ((List.suffix_append _ _).trans (List.suffix_cons _ _)).trans (List.suffix_append _ _)

theorem shrink_suffix (s : St σ A) : s.trace <:+ (shrink c s).2.trace :=
  shrink_inv (P := fun tr => s.trace <:+ tr) (fun N vals next s1 h => h.trans (test_suffix hc N vals next s1))
    (fun _ _ h => h.trans (List.suffix_cons _ _)) s (List.suffix_refl _)

omit hc in
theorem shrink_runs (s : St σ A) : calls .run (shrink c s).2.trace = calls .run s.trace := by
  refine shrink_inv (P := fun tr => calls .run tr = calls .run s.trace) (fun N vals next s1 h => ?_)
    (fun e tr h => ?_) s rfl
  · rw [(test_bounded c vals N next s1).runs]; exact h
  · rw [calls_cons, h]; simp [Event.call?]

/-- What `m` does to the history between `tr` and `tr'`: it is extended, at most one call of the run phase is made, none
that is kept if the attempt is repeated. -/
structure Once (tr tr' : Trace A) (again : Prop) : Prop where
  suffix : tr <:+ tr'
  once : ((calls .run tr').filter kept).length ≤ ((calls .run tr).filter kept).length + 1
  none : again → ((calls .run tr').filter kept).length = ((calls .run tr).filter kept).length

theorem guarded_once (s : St σ A) : Once s.trace (guarded c s).2.trace ((guarded c s).1 = .ok .again) := by
  have hsu : s.trace <:+ suEv c .run ++ s.trace := List.suffix_append _ _
  unfold guarded Eng.tryCatch
  rw [attempt_quiet hc.quiet]
  cases hd : Gen.drawTuple c.gens c.orderRun s.rand with
  | ub => exact ⟨hsu, by simp [calls_append], fun h => (by cases h)⟩
  | diverges => exact ⟨hsu, by simp [calls_append], fun h => (by cases h)⟩
  | throws e =>
    have hruns : calls .run (.genThrew .run e :: (suEv c .run ++ s.trace)) = calls .run s.trace := by
      rw [calls_cons]; simp [Event.call?, calls_append]
    have key : ∀ p, Once s.trace (.genThrew .run e :: (suEv c .run ++ s.trace)) p := fun p =>
      ⟨hsu.trans (List.suffix_cons _ _), by rw [hruns]; omega, fun _ => by rw [hruns]⟩
    simp only
    split
    · exact key _
    · split
      · exact key _
      · exact key _
  | ok p =>
    obtain ⟨ts, r⟩ := p
    simp only
    set ev := c.func (suEv c .run ++ s.trace) (Tup.get ts) with hev
    have hruns := calls_run_step c [] (fun _ => rfl) (Tup.get ts) ev s.trace
    have hruns2 := calls_run_step c (cuEv c .run) (fun _ => calls_cuEv _ _ _) (Tup.get ts) ev s.trace
    simp only [List.nil_append] at hruns
    have hs1 : s.trace <:+ .call .run (Tup.get ts) ev :: (suEv c .run ++ s.trace) := hsu.trans (List.suffix_cons _ _)
    have hs2 : s.trace <:+ cuEv c .run ++ .call .run (Tup.get ts) ev :: (suEv c .run ++ s.trace) :=
      hs1.trans (List.suffix_append _ _)
    have hone : ((calls .run s.trace ++ [(Tup.get ts, ev)]).filter kept).length ≤
        ((calls .run s.trace).filter kept).length + 1 := by
      rw [List.filter_append, List.length_append]
      have := List.length_filter_le kept [(Tup.get ts, ev)]
      simp only [List.length_singleton] at this
      omega
    cases ho : ev.out with
    | ub => exact ⟨hs1, by simp only [hruns]; exact hone, fun h => (by cases h)⟩
    | diverges => exact ⟨hs1, by simp only [hruns]; exact hone, fun h => (by cases h)⟩
    | throws e =>
      simp only
      by_cases h1 : (if e = .assertFailed then Exn.propertyFailed else e) = .success
      · rw [if_pos h1]
        exact ⟨hs1, by simp only [Eng.pure_apply, hruns]; exact hone, fun h => (by cases h)⟩
      rw [if_neg h1]
      by_cases h2 : (if e = .assertFailed then Exn.propertyFailed else e) = .discard
      · rw [if_pos h2]
        have h2' : e = .discard := by
          by_cases he : e = .assertFailed
          · rw [if_pos he] at h2; cases h2
          · rw [if_neg he] at h2; exact h2
        refine ⟨hs1, by simp only [Eng.pure_apply, hruns]; exact hone, fun _ => ?_⟩
        simp only [Eng.pure_apply, hruns, List.filter_append]
        simp [kept, Ev.discarded, ho, h2']
      · rw [if_neg h2]
        exact ⟨hs1, by simp only [Eng.throw, hruns]; exact hone, fun h => (by cases h)⟩
    | ok b =>
      simp only
      by_cases hp : s.fails ++ ev.fails = [] ∧ b = true
      · rw [if_pos hp]
        exact ⟨hs2, by simp only [hruns2]; exact hone, fun h => (by cases h)⟩
      · rw [if_neg hp]
        set s2 : St σ A := ⟨r, s.rand, s.i, [], cuEv c .run ++ .call .run (Tup.get ts) ev :: (suEv c .run ++ s.trace)⟩
          with hs2'
        have hsf := shrink_suffix hc s2
        have hru := shrink_runs (c := c) s2
        rw [show calls .run s2.trace = _ from hruns2] at hru
        have hall : ∀ (p : Prop), ¬ p → Once s.trace (shrink c s2).2.trace p := fun p hnp =>
          ⟨hs2.trans hsf, by rw [hru]; exact hone, fun h => absurd h hnp⟩
        rw [Eng.bind_apply]
        -- an exception that gets out of the shrink phase is not a Discard
        have hforeign : ∀ e s', shrink c s2 = (.throws e, s') → e ≠ .discard := by
          intro e s' h
          rw [shrink_apply, hc.order] at h
          simp only [hs2'] at h
          rw [hd] at h
          simp only at h
          have hb := shrinkEach_bounded c c.orderEach hc.nodup ts
            ⟨r, r, s.i, [], cuEv c .run ++ .call .run (Tup.get ts) ev :: (suEv c .run ++ s.trace)⟩
          cases hm : shrinkEach c c.orderEach ts
            ⟨r, r, s.i, [], cuEv c .run ++ .call .run (Tup.get ts) ev :: (suEv c .run ++ s.trace)⟩ with
          | mk o s3 =>
            rw [hm] at hb h
            cases o with
            | ok v => cases h
            | ub => cases h
            | diverges => cases h
            | throws e' =>
              cases h
              have := hb.foreign e rfl
              rintro rfl
              simp [Exn.isStd] at this
        cases hsh : shrink c s2 with
        | mk o s3 =>
          rw [hsh] at hall hforeign
          cases o with
          | ok R => exact hall _ (by simp [Eng.pure_apply])
          | ub => exact hall _ (by simp)
          | diverges => exact hall _ (by simp)
          | throws e =>
            have hne := hforeign e s3 rfl
            simp only
            split
            · exact hall _ (by simp [Eng.pure_apply])
            · exact hall _ (by simp [Eng.throw])

theorem doWhile_once : ∀ (fuel : Nat) (s : St σ A), Once s.trace (doWhile c fuel s).2.trace False
  | 0, s => ⟨List.suffix_refl _, by simp [doWhile, Eng.lift], fun h => h.elim⟩
  | fuel + 1, s => by
    have hg := guarded_once hc s
    rw [doWhile, Eng.bind_apply]
    cases hm : guarded c s with
    | mk o s1 =>
      rw [hm] at hg
      have hg' : Once s.trace s1.trace False := ⟨hg.suffix, hg.once, fun h => h.elim⟩
      cases o with
      | ub => exact hg'
      | diverges => exact hg'
      | throws e => exact hg'
      | ok v =>
        cases v with
        | pass => exact hg'
        | stop r => exact hg'
        | again =>
          have ih := doWhile_once fuel s1
          have h0 := hg.none rfl
          simp only at h0
          exact ⟨hg.suffix.trans ih.suffix, by rw [← h0]; exact ih.once, fun h => h.elim⟩

theorem forLoop_suffix (fuel : Nat) : ∀ (left : Nat) (s : St σ A), s.trace <:+ (forLoop c fuel left s).2.trace
  | 0, s => by rw [forLoop, Eng.pure_apply]; exact List.suffix_refl _
  | left + 1, s => by
    rw [forLoop_succ]
    split
    · exact List.suffix_refl _
    · have hd := (doWhile_once hc fuel s).suffix
      cases hm : doWhile c fuel s with
      | mk o s1 =>
        rw [hm] at hd
        cases o with
        | ub => exact hd
        | diverges => exact hd
        | throws e => exact hd
        | ok v =>
          cases v with
          | some r => exact hd
          | none => exact hd.trans (forLoop_suffix fuel left { s1 with i := s1.i + 1 })

omit hc in
theorem kept_le {tr tr' : Trace A} (h : tr <:+ tr') :
    ((calls .run tr).filter kept).length ≤ ((calls .run tr').filter kept).length := by
  obtain ⟨x, rfl⟩ := h
  rw [calls_append, List.filter_append, List.length_append]
  omega

omit hc in
theorem clock_le (hclock : ∀ x tr, c.clock tr ≤ c.clock (x :: tr)) {tr tr' : Trace A} (h : tr <:+ tr') :
    c.clock tr ≤ c.clock tr' := by
  obtain ⟨x, rfl⟩ := h
  induction x with
  | nil => exact Nat.le_refl _
  | cons y x ih => exact Nat.le_trans ih (hclock y _)

omit hc in
/-- Once the limit has passed, nothing is done any more. -/
theorem forLoop_over (hm : c.maxDurationMs ≠ 0) (fuel left : Nat) (s : St σ A)
    (ho : c.maxDurationMs < c.clock s.trace) : (forLoop c fuel left s).2.trace = s.trace := by
  cases left with
  | zero => rw [forLoop, Eng.pure_apply]
  | succ left => rw [forLoop_succ, if_pos ⟨hm, ho⟩]

/-- If the limit has passed when the history is `e`, at most one call is kept later. -/
theorem forLoop_limit (hm : c.maxDurationMs ≠ 0) (hclock : ∀ x tr, c.clock tr ≤ c.clock (x :: tr)) (fuel : Nat)
    (e : Trace A) (ho : c.maxDurationMs < c.clock e) : ∀ (left : Nat) (s : St σ A),
    s.trace <:+ e → e <:+ (forLoop c fuel left s).2.trace →
    ((calls .run (forLoop c fuel left s).2.trace).filter kept).length ≤ ((calls .run e).filter kept).length + 1
  | 0, s, hs, _ => by
    rw [forLoop, Eng.pure_apply]
    have := kept_le hs
    simp only
    omega
  | left + 1, s, hs, he => by
    have hke := kept_le hs
    rw [forLoop_succ] at he ⊢
    by_cases htime : c.maxDurationMs ≠ 0 ∧ c.maxDurationMs < c.clock s.trace
    · rw [if_pos htime]
      simp only
      omega
    · rw [if_neg htime] at he ⊢
      have hd := doWhile_once hc fuel s
      cases hw : doWhile c fuel s with
      | mk o s1 =>
        rw [hw] at hd he
        have h1 := hd.once
        simp only at h1
        have hstop : ((calls .run s1.trace).filter kept).length ≤ ((calls .run e).filter kept).length + 1 := by omega
        cases o with
        | ub => exact hstop
        | diverges => exact hstop
        | throws x => exact hstop
        | ok v =>
          cases v with
          | some r => exact hstop
          | none =>
            simp only at he ⊢
            have hsuf := forLoop_suffix hc fuel left { s1 with i := s1.i + 1 }
            rcases List.suffix_or_suffix_of_suffix he hsuf with h | h
            · rw [forLoop_over hm fuel left _ (Nat.lt_of_lt_of_le ho (clock_le hclock h))]
              exact hstop
            · exact forLoop_limit hm hclock fuel e ho left _ h he

theorem forAll_limit (hm : c.maxDurationMs ≠ 0) (hclock : ∀ x tr, c.clock tr ≤ c.clock (x :: tr)) (fuel : Nat) (seed : σ)
    (e : Trace A) (ho : c.maxDurationMs < c.clock e) (he : e <:+ (forAll c fuel seed []).2) :
    ((calls .run (forAll c fuel seed []).2).filter kept).length ≤ ((calls .run e).filter kept).length + 1 := by
  have hl := forLoop_limit hc hm hclock fuel e ho c.numRuns ⟨seed, seed, 0, [], []⟩ (List.nil_suffix)
  revert he
  unfold forAll runForAll Eng.withContext Eng.catchStd Eng.tryCatch
  simp only
  cases hf : forLoop c fuel c.numRuns (⟨seed, seed, 0, [], []⟩ : St σ A) with
  | mk o s1 =>
    rw [hf] at hl
    cases o with
    | ok r => exact hl
    | ub => exact hl
    | diverges => exact hl
    | throws x =>
      simp only
      split
      · intro he
        change e <:+ (shrink c s1).2.trace at he
        change ((calls .run (shrink c s1).2.trace).filter kept).length ≤ _
        rw [shrink_runs]
        rcases List.suffix_or_suffix_of_suffix he (shrink_suffix hc s1) with h | h
        · exact hl h
        · have := kept_le h
          omega
      · exact hl

omit hc in
theorem shrink_report (s : St σ A) (R : Report A) (s' : St σ A) (h : shrink c s = (.ok R, s')) :
    ∃ a b d, R = .falsified a b d := by
  rw [shrink_apply] at h
  cases hd : Gen.drawTuple c.gens c.orderShrink s.saved with
  | ub => rw [hd] at h; cases h
  | diverges => rw [hd] at h; cases h
  | throws e => rw [hd] at h; cases h
  | ok p =>
    rw [hd] at h
    obtain ⟨ts, r⟩ := p
    simp only at h
    cases hm : shrinkEach c c.orderEach ts { s with saved := r } with
    | mk o s1 =>
      rw [hm] at h
      cases o with
      | ub => cases h
      | diverges => cases h
      | throws e => cases h
      | ok v => cases h; exact ⟨_, _, _, rfl⟩

theorem guarded_report (s : St σ A) (R : Report A) (s' : St σ A) (h : guarded c s = (.ok (.stop R), s')) :
    ∃ a b d, R = .falsified a b d := by
  unfold guarded Eng.tryCatch at h
  rw [attempt_quiet hc.quiet] at h
  cases hd : Gen.drawTuple c.gens c.orderRun s.rand with
  | ub => rw [hd] at h; cases h
  | diverges => rw [hd] at h; cases h
  | throws e =>
    rw [hd] at h
    simp only at h
    split at h
    · cases h
    · split at h <;> cases h
  | ok p =>
    rw [hd] at h
    obtain ⟨ts, r⟩ := p
    simp only at h
    cases ho : (c.func (suEv c .run ++ s.trace) (Tup.get ts)).out with
    | ub => rw [ho] at h; cases h
    | diverges => rw [ho] at h; cases h
    | throws e =>
      rw [ho] at h
      simp only at h
      generalize (if e = .assertFailed then Exn.propertyFailed else e) = e' at h
      by_cases h1 : e' = .success
      · rw [if_pos h1] at h; cases h
      · rw [if_neg h1] at h
        by_cases h2 : e' = .discard
        · rw [if_pos h2] at h; cases h
        · rw [if_neg h2] at h; cases h
    | ok b =>
      rw [ho] at h
      simp only at h
      by_cases hp : s.fails ++ (c.func (suEv c .run ++ s.trace) (Tup.get ts)).fails = [] ∧ b = true
      · rw [if_pos hp] at h; cases h
      · rw [if_neg hp, Eng.bind_apply] at h
        cases hs : shrink c ⟨r, s.rand, s.i, [], cuEv c .run ++
            .call .run (Tup.get ts) (c.func (suEv c .run ++ s.trace) (Tup.get ts)) :: (suEv c .run ++ s.trace)⟩ with
        | mk o s1 =>
          rw [hs] at h
          cases o with
          | ub => cases h
          | diverges => cases h
          | throws e =>
            simp only at h
            split at h
            · cases h
            · split at h <;> cases h
          | ok R' =>
            cases h
            exact shrink_report _ _ _ hs

theorem doWhile_report : ∀ (fuel : Nat) (s : St σ A) (R : Report A) (s' : St σ A),
    doWhile c fuel s = (.ok (some R), s') → ∃ a b d, R = .falsified a b d
  | 0, s, R, s', h => by cases h
  | fuel + 1, s, R, s', h => by
    rw [doWhile, Eng.bind_apply] at h
    cases hm : guarded c s with
    | mk o s1 =>
      rw [hm] at h
      cases o with
      | ub => cases h
      | diverges => cases h
      | throws e => cases h
      | ok v =>
        cases v with
        | pass => cases h
        | stop r => cases h; exact guarded_report hc _ _ _ hm
        | again => exact doWhile_report fuel s1 R s' h

end

end Engine
end Verif
