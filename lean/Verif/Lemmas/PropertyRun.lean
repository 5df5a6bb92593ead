import Mathlib.Tactic.Set
import Mathlib.Logic.Function.Iterate
import Mathlib.Tactic.DefEqTransformations
import Verif.Lemmas.Property
/-
Helper lemmas about runs and shrinking with hooks that do not interfere.
-/
namespace Verif
namespace Engine
open PairTuple
variable {n : Nat} {A : Fin n → Type} {σ : Type} {α β : Type}

/-- The events of the startup hook. -/
def suEv (c : Cfg σ A) (ph : Phase) : Trace A := if c.startup.isSome then [.startup ph ⟨[], .ok ()⟩] else []
/-- The events of the cleanup hook. -/
def cuEv (c : Cfg σ A) (ph : Phase) : Trace A := if c.cleanup.isSome then [.cleanup ph ⟨[], .ok ()⟩] else []

@[simp] theorem calls_suEv (c : Cfg σ A) (ph ph' : Phase) : calls ph' (suEv c ph) = [] := by
  unfold suEv; split <;> rfl
@[simp] theorem calls_cuEv (c : Cfg σ A) (ph ph' : Phase) : calls ph' (cuEv c ph) = [] := by
  unfold cuEv; split <;> rfl

theorem runStartup_quiet {c : Cfg σ A} (h : QuietHook c.startup) (ph : Phase) (s : St σ A) :
    runStartup c ph s = (.ok (), { s with trace := suEv c ph ++ s.trace }) := by
  unfold runStartup suEv
  cases hk : c.startup with
  | none => rfl
  | some k => simp [record, h k hk]

theorem runCleanup_quiet {c : Cfg σ A} (h : QuietHook c.cleanup) (ph : Phase) (s : St σ A) :
    runCleanup c ph s = (.ok (), { s with trace := cuEv c ph ++ s.trace }) := by
  unfold runCleanup cuEv
  cases hk : c.cleanup with
  | none => rfl
  | some k => simp [record, h k hk]

theorem callFunc_apply (c : Cfg σ A) (ph : Phase) (args : Args A) (s : St σ A) :
    callFunc c ph args s = ((c.func s.trace args).out,
      { s with fails := s.fails ++ (c.func s.trace args).fails,
               trace := .call ph args (c.func s.trace args) :: s.trace }) := rfl

theorem drawRun_apply (c : Cfg σ A) (s : St σ A) : drawRun c s =
    match Gen.drawTuple c.gens c.orderRun s.rand with
    | .ok (ts, r) => (.ok ts, { s with rand := r })
    | .throws e => (.throws e, { s with rand := c.thrown s.rand, trace := .genThrew .run e :: s.trace })
    | .ub => (.ub, s)
    | .diverges => (.diverges, s) := rfl

/-- What `test` does. -/
theorem test_quiet {c : Cfg σ A} (hq : c.Quiet) (vals : Tup A) (N : Fin n) (next : Shr (A N)) (s : St σ A)
    (ev : Ev Bool)
    (hev : ev = c.func (suEv c .shrink ++ s.trace) (Function.update (Tup.get vals) N next.value)) :
    ∃ cu : Trace A, (∀ ph, calls ph cu = []) ∧
      test c vals N next s =
        ((match ev.out with
          | .ok b => .ok b
          | .throws e => if e.isStd then .ok false else .throws e
          | .ub => .ub
          | .diverges => .diverges),
        { s with
          fails := s.fails ++ ev.fails
          trace := cu ++ .call .shrink (Function.update (Tup.get vals) N next.value) ev ::
            (suEv c .shrink ++ s.trace) }) := by
  unfold test Eng.catchStd Eng.tryCatch
  simp only [Eng.bind_apply, runStartup_quiet hq.1, callFunc_apply, ← hev]
  cases ho : ev.out with
  | ok b =>
    refine ⟨cuEv c .shrink, fun _ => calls_cuEv _ _ _, ?_⟩
    simp only [runCleanup_quiet hq.2, Eng.pure_apply]
  | throws e =>
    refine ⟨[], fun _ => rfl, ?_⟩
    by_cases he : e.isStd <;> simp [he, Eng.throw, Eng.pure_apply]
  | ub => exact ⟨[], fun _ => rfl, rfl⟩
  | diverges => exact ⟨[], fun _ => rfl, rfl⟩

/-- Some call of the shrink phase in `tr`, with arguments `a`, satisfied `P`. -/
def Seen (c : Cfg σ A) (tr : Trace A) (a : Args A) (P : Ev Bool → Prop) : Prop :=
  ∃ tr', .call .shrink a (c.func tr' a) ∈ tr ∧ P (c.func tr' a)

theorem Seen.mono {c : Cfg σ A} {tr tr' : Trace A} {a : Args A} {P : Ev Bool → Prop} (h : Seen c tr a P)
    (hs : tr ⊆ tr') : Seen c tr' a P := by
  obtain ⟨t, h1, h2⟩ := h
  exact ⟨t, hs h1, h2⟩

/-- The guarantees of `shrinkN`. -/
structure ShrinkSpec (c : Cfg σ A) (vals : Tup A) (N : Fin n) (s : St σ A) (vals' : Tup A) (s' : St σ A) :
    Prop where
  others : ∀ j, j ≠ N → vals' j = vals j
  desc : Desc (vals N) (vals' N)
  fails : vals' = vals ∨ Seen c s'.trace (Tup.get vals') Ev.Rejects
  minimal : ∀ child ∈ (vals' N).shrinks,
    Seen c s'.trace (Function.update (Tup.get vals') N child.value) (fun e => ¬ e.Rejects)
  trace : s.trace ⊆ s'.trace

theorem get_update (vals : Tup A) (N : Fin n) (t : Shr (A N)) :
    Tup.get (Function.update vals N t) = Function.update (Tup.get vals) N t.value := by
  funext j
  unfold Tup.get
  by_cases h : j = N
  · subst h; simp
  · simp [h]

theorem update_update_get (vals : Tup A) (N : Fin n) (t : Shr (A N)) (v : A N) :
    Function.update (Tup.get (Function.update vals N t)) N v = Function.update (Tup.get vals) N v := by
  rw [get_update, Function.update_idem]

section
variable {c : Cfg σ A} (hq : c.Quiet)
include hq

mutual
theorem shrinkN_spec (vals : Tup A) (N : Fin n) : ∀ (t : Shr (A N)) (_ : vals N = t) (s : St σ A) (vals' : Tup A)
    (s' : St σ A) (_ : shrinkN c vals N t s = (.ok vals', s')), ShrinkSpec c vals N s vals' s'
  | .node v ss => by
    intro ht s vals' s' h
    rw [shrinkN] at h
    have := shrinkNIter_spec vals N s.fails ss { s with fails := [] } rfl vals' s' h (by
      intro child hc
      rw [ht] at hc
      exact Or.inl hc) (by intro child hc; rw [ht]; exact hc)
    exact ⟨this.others, this.desc, this.fails, this.minimal, this.trace⟩
theorem shrinkNIter_spec (vals : Tup A) (N : Fin n) (outer : List String) :
    ∀ (ss : List (Shr (A N))) (s : St σ A) (_ : s.fails = []) (vals' : Tup A) (s' : St σ A)
      (_ : shrinkNIter c vals N outer ss s = (.ok vals', s'))
      (_ : ∀ child ∈ (vals N).shrinks, child ∈ ss ∨
        Seen c s.trace (Function.update (Tup.get vals) N child.value) (fun e => ¬ e.Rejects))
      (_ : ∀ child ∈ ss, child ∈ (vals N).shrinks), ShrinkSpec c vals N s vals' s'
  | [] => by
    intro s _ vals' s' h hall _
    rw [shrinkNIter] at h; beta_reduce at h
    cases h
    exact ⟨fun _ _ => rfl, .refl _, Or.inl rfl, fun child hc => (hall child hc).resolve_left (by simp),
      fun _ h => h⟩
  | next :: rest => by
    intro s hs vals' s' h hall hsub
    rw [shrinkNIter] at h; beta_reduce at h
    obtain ⟨cu, hcu, ht⟩ := test_quiet hq vals N next s _ rfl
    set a := Function.update (Tup.get vals) N next.value with ha
    set ev := c.func (suEv c .shrink ++ s.trace) a with hev
    have hmem : ∀ X : Trace A, .call .shrink a (c.func (suEv c .shrink ++ s.trace) a) ∈
        X ++ .call .shrink a ev :: (suEv c .shrink ++ s.trace) := fun X => by simp [hev]
    have hsubs : s.trace ⊆ cu ++ .call .shrink a ev :: (suEv c .shrink ++ s.trace) := by
      intro x hx; simp [hx]
    rw [ht] at h
    generalize hs1 : (({ s with fails := s.fails ++ ev.fails, trace := cu ++ .call .shrink a ev ::
            (suEv c .shrink ++ s.trace) } : St σ A)) = s1 at h
    have h1f : s1.fails = ev.fails := by rw [← hs1]; simp [hs]
    have h1t : s1.trace = cu ++ .call .shrink a ev :: (suEv c .shrink ++ s.trace) := by rw [← hs1]
    have key : ∀ result, (∃ o, o = ev.out ∧
        (match o with
          | .ok b => .ok b
          | .throws e => if e.isStd then .ok false else .throws e
          | .ub => .ub
          | .diverges => .diverges) = Outcome.ok result) →
        ((!result || !s1.fails.isEmpty) = true → ev.Rejects) ∧
        (¬ (!result || !s1.fails.isEmpty) = true → ¬ ev.Rejects) := by
      rintro result ⟨o, ho, hr⟩
      rw [h1f]
      constructor
      · intro hb
        simp only [Bool.or_eq_true, Bool.not_eq_true', List.isEmpty_eq_false_iff] at hb
        rcases hb with hb | hb
        · subst hb
          cases o with
          | ok b => simp at hr; subst hr; exact Or.inl ho.symm
          | throws e =>
            by_cases he : e.isStd
            · exact Or.inr (Or.inl ⟨e, ho.symm, he⟩)
            · simp [he] at hr
          | ub => simp at hr
          | diverges => simp at hr
        · exact Or.inr (Or.inr hb)
      · intro hb hrej
        simp only [Bool.or_eq_true, Bool.not_eq_true', List.isEmpty_eq_false_iff, not_or, not_not,
          Bool.not_eq_false] at hb
        obtain ⟨rfl, hf⟩ := hb
        rcases hrej with h1 | ⟨x, hx, hstd⟩ | h3
        · rw [h1] at ho; subst ho; simp at hr
        · rw [hx] at ho; subst ho; simp [hstd] at hr
        · exact h3 hf
    cases hm : (match ev.out with
          | .ok b => .ok b
          | .throws e => if e.isStd then .ok false else .throws e
          | .ub => .ub
          | .diverges => .diverges : Outcome Bool) with
    | throws e => rw [hm] at h; simp at h
    | ub => rw [hm] at h; simp at h
    | diverges => rw [hm] at h; simp at h
    | ok result =>
      rw [hm] at h
      simp only at h
      obtain ⟨k1, k2⟩ := key result ⟨_, rfl, hm⟩
      by_cases hb : (!result || !s1.fails.isEmpty) = true
      · rw [if_pos hb] at h
        have hrej := k1 hb
        have ih := shrinkN_spec (Function.update vals N next) N next (by simp) _ vals' s' h
        have hin := hsub next List.mem_cons_self
        refine ⟨?_, ?_, ?_, ih.minimal, ?_⟩
        · intro j hj
          rw [ih.others j hj]
          simp [hj]
        · have := ih.desc
          simp only [Function.update_self] at this
          exact .step hin this
        · rcases ih.fails with e | e
          · refine Or.inr ?_
            rw [e, get_update]
            exact ⟨_, ih.trace (by rw [h1t]; exact hmem _), hrej⟩
          · exact Or.inr e
        · intro x hx
          exact ih.trace (by rw [h1t]; exact hsubs hx)
      · rw [if_neg hb] at h
        have hnrej := k2 hb
        have hf1 : s1.fails = [] := by
          simp only [Bool.or_eq_true, Bool.not_eq_true', List.isEmpty_eq_false_iff, not_or, not_not] at hb
          exact hb.2
        have ih := shrinkNIter_spec vals N outer rest s1 hf1 vals' s' h (by
          intro child hc
          rcases hall child hc with h2 | h2
          · rcases List.mem_cons.mp h2 with rfl | h2
            · exact Or.inr ⟨_, by rw [h1t]; exact hmem _, hnrej⟩
            · exact Or.inl h2
          · exact Or.inr (h2.mono (by rw [h1t]; exact hsubs)))
          (fun child hc => hsub child (List.mem_cons_of_mem _ hc))
        exact ⟨ih.others, ih.desc, ih.fails, ih.minimal, fun x hx => ih.trace (by rw [h1t]; exact hsubs hx)⟩
end

omit hq in
theorem Eng.mk_apply (f : St σ A → Outcome α × St σ A) (s : St σ A) : Eng.mk f s = f s := rfl

/-- The guarantees of `shrinkEach`. -/
structure EachSpec (c : Cfg σ A) (order : List (Fin n)) (start : Tup A) (s : St σ A) (vals' : Tup A)
    (s' : St σ A) : Prop where
  untouched : ∀ j, j ∉ order → vals' j = start j
  desc : ∀ j, Desc (start j) (vals' j)
  fails : vals' = start ∨ Seen c s'.trace (Tup.get vals') Ev.Rejects
  minimal : ∀ pre N post, order = pre ++ N :: post → ∀ child ∈ (vals' N).shrinks,
    Seen c s'.trace
      (Function.update (Tup.get (fun j => if j ∈ post then start j else vals' j)) N child.value)
      (fun e => ¬ e.Rejects)
  trace : s.trace ⊆ s'.trace
  run : shrinkEach c order start s = (.ok vals', s')

theorem shrinkEach_spec : ∀ (order : List (Fin n)) (_ : order.Nodup) (start : Tup A) (s : St σ A) (vals' : Tup A)
    (s' : St σ A) (_ : shrinkEach c order start s = (.ok vals', s')), EachSpec c order start s vals' s'
  | [], _, start, s, vals', s', h => by
    have hrun := h
    rw [shrinkEach, Eng.pure_apply] at h
    cases h
    exact ⟨fun _ _ => rfl, fun _ => .refl _, Or.inl rfl, fun pre N post e => by simp at e, fun _ h => h, hrun⟩
  | M :: rest, hn, start, s, vals', s', h => by
    have hrun := h
    rw [shrinkEach, Eng.bind_apply, Eng.mk_apply] at h
    cases hM : shrinkN c start M (start M) s with
    | mk o s1 =>
      rw [hM] at h
      cases o with
      | throws e => simp at h
      | ub => simp at h
      | diverges => simp at h
      | ok v1 =>
        simp only at h
        have sp := shrinkN_spec hq start M _ rfl s v1 s1 hM
        rw [List.nodup_cons] at hn
        have ih := shrinkEach_spec rest hn.2 v1 s1 vals' s' h
        have hM' : vals' M = v1 M := ih.untouched M hn.1
        refine ⟨?_, ?_, ?_, ?_, fun x hx => ih.trace (sp.trace hx), hrun⟩
        · intro j hj
          rw [List.mem_cons, not_or] at hj
          rw [ih.untouched j hj.2, sp.others j hj.1]
        · intro j
          by_cases hj : j = M
          · subst hj; rw [hM']; exact sp.desc
          · rw [← sp.others j hj]; exact ih.desc j
        · rcases ih.fails with e | e
          · rcases sp.fails with e2 | e2
            · exact Or.inl (e.trans e2)
            · rw [e]; exact Or.inr (e2.mono ih.trace)
          · exact Or.inr e
        · intro pre N post e child hc
          cases pre with
          | nil =>
            simp only [List.nil_append, List.cons.injEq] at e
            obtain ⟨rfl, rfl⟩ := e
            have hw : (fun j => if j ∈ rest then start j else vals' j) = v1 := by
              funext j
              by_cases hj : j ∈ rest
              · simp only [hj, if_true]
                exact (sp.others j (fun e => hn.1 (e ▸ hj))).symm
              · simp only [hj, if_false]
                exact ih.untouched j hj
            rw [hw]
            rw [hM'] at hc
            exact (sp.minimal child hc).mono ih.trace
          | cons p pre =>
            simp only [List.cons_append, List.cons.injEq] at e
            obtain ⟨rfl, e⟩ := e
            have := ih.minimal pre N post e child hc
            have hw : (fun j => if j ∈ post then v1 j else vals' j) =
                (fun j => if j ∈ post then start j else vals' j) := by
              funext j
              by_cases hj : j ∈ post
              · simp only [hj, if_true]
                refine sp.others j (fun e2 => hn.1 ?_)
                rw [e, ← e2]; simp [hj]
              · simp only [hj, if_false]
            rwa [hw] at this

/-- What one execution of the inner `try` block does. -/
theorem attempt_quiet (s : St σ A) :
    attempt c s =
      match Gen.drawTuple c.gens c.orderRun s.rand with
      | .throws e => (.throws e,
          ⟨c.thrown s.rand, s.rand, s.i, s.fails, .genThrew .run e :: (suEv c .run ++ s.trace)⟩)
      | .ub => (.ub, { s with saved := s.rand, trace := suEv c .run ++ s.trace })
      | .diverges => (.diverges, { s with saved := s.rand, trace := suEv c .run ++ s.trace })
      | .ok (ts, r) =>
        let ev := c.func (suEv c .run ++ s.trace) (Tup.get ts)
        let s1 : St σ A := ⟨r, s.rand, s.i, s.fails ++ ev.fails,
          .call .run (Tup.get ts) ev :: (suEv c .run ++ s.trace)⟩
        let s2 : St σ A := ⟨r, s.rand, s.i, [], cuEv c .run ++ s1.trace⟩
        match ev.out with
        | .throws e => (.throws (if e = .assertFailed then .propertyFailed else e), s1)
        | .ub => (.ub, s1)
        | .diverges => (.diverges, s1)
        | .ok b =>
          if s.fails ++ ev.fails = [] ∧ b = true then (.ok .pass, s2)
          else (shrink c >>= fun r => pure (.stop r)) s2 := by
  unfold attempt invokeWithGenTuple assertToProperty
  simp only [Eng.bind_apply, Eng.modify, runStartup_quiet hq.1, drawRun_apply]
  cases hd : Gen.drawTuple c.gens c.orderRun s.rand with
  | throws e => rfl
  | ub => rfl
  | diverges => rfl
  | ok p =>
    obtain ⟨ts, r⟩ := p
    simp only [Eng.tryCatch, callFunc_apply]
    cases ho : (c.func (suEv c .run ++ s.trace) (Tup.get ts)).out with
    | throws e => by_cases he : e = .assertFailed <;> simp [he, Eng.throw]
    | ub => rfl
    | diverges => rfl
    | ok b =>
      simp only [runCleanup_quiet hq.2, flushFailures]
      generalize s.fails ++ (c.func (suEv c .run ++ s.trace) (Tup.get ts)).fails = F
      cases F with
      | nil => cases b <;> simp [Eng.pure_apply, Eng.bind_apply]
      | cons x xs => simp [Eng.bind_apply]

end
end Engine
end Verif
