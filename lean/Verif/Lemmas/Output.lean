import Verif.Spec.Output
import Verif.Lemmas.PropertyLoop
/-
Helper lemmas about the output of `forAll`.
-/
namespace Verif
namespace Output
open PairTuple Engine Context
variable {n : Nat} {A : Fin n → Type} {σ K V α β : Type}

theorem XEng.pure_apply (a : α) (x : XSt σ A K V) : (pure a : XEng σ A K V α) x = (.ok a, x) := rfl

theorem XEng.bind_apply (m : XEng σ A K V α) (f : α → XEng σ A K V β) (x : XSt σ A K V) :
    (m >>= f) x = match m x with
      | (.ok a, x') => f a x'
      | (.throws e, x') => (.throws e, x')
      | (.ub, x') => (.ub, x')
      | (.diverges, x') => (.diverges, x') := rfl

/-! ### Without the output -/

/-- Apart from output and tags, `m` does what `m0` does. -/
def Agrees (m : XEng σ A K V α) (m0 : Eng σ A α) : Prop := ∀ x, (m x).1 = (m0 x.st).1 ∧ (m x).2.st = (m0 x.st).2

theorem Agrees.pure (a : α) : Agrees (pure a : XEng σ A K V α) (pure a) := fun _ => ⟨rfl, rfl⟩

theorem Agrees.up (m : Eng σ A α) : Agrees (XEng.up m : XEng σ A K V α) m := fun _ => ⟨rfl, rfl⟩

theorem Agrees.throw (e : Exn) : Agrees (XEng.throw e : XEng σ A K V α) (Eng.throw e) := fun _ => ⟨rfl, rfl⟩

theorem Agrees.bind {m : XEng σ A K V α} {m0 : Eng σ A α} {f : α → XEng σ A K V β} {f0 : α → Eng σ A β}
    (hm : Agrees m m0) (hf : ∀ a, Agrees (f a) (f0 a)) : Agrees (m >>= f) (m0 >>= f0) := by
  intro x
  have h := hm x
  rw [XEng.bind_apply, Eng.bind_apply]
  cases h1 : m x with
  | mk o x1 =>
    cases h2 : m0 x.st with
    | mk o0 s1 =>
      rw [h1, h2] at h
      obtain ⟨h, h'⟩ := h
      simp only at h h'
      subst h h'
      cases o with
      | ok a => exact hf a x1
      | throws e => exact ⟨rfl, rfl⟩
      | ub => exact ⟨rfl, rfl⟩
      | diverges => exact ⟨rfl, rfl⟩

theorem Agrees.tryCatch {m : XEng σ A K V α} {m0 : Eng σ A α} {k : Exn → XEng σ A K V α} {k0 : Exn → Eng σ A α}
    (hm : Agrees m m0) (hk : ∀ e, Agrees (k e) (k0 e)) : Agrees (XEng.tryCatch m k) (Eng.tryCatch m0 k0) := by
  intro x
  have h := hm x
  unfold XEng.tryCatch Eng.tryCatch
  cases h1 : m x with
  | mk o x1 =>
    cases h2 : m0 x.st with
    | mk o0 s1 =>
      rw [h1, h2] at h
      obtain ⟨h, h'⟩ := h
      simp only at h h'
      subst h h'
      cases o with
      | ok a => exact ⟨rfl, rfl⟩
      | throws e => exact hk e x1
      | ub => exact ⟨rfl, rfl⟩
      | diverges => exact ⟨rfl, rfl⟩

theorem Agrees.print {l : Line A K V} {f : Unit → XEng σ A K V β} {m0 : Eng σ A β} (h : Agrees (f ()) m0) :
    Agrees (XEng.print l >>= f) m0 := fun x => h { x with out := x.out ++ [l] }

theorem Agrees.printOf {l : XSt σ A K V → Line A K V} {f : Unit → XEng σ A K V β} {m0 : Eng σ A β}
    (h : Agrees (f ()) m0) : Agrees (XEng.printOf l >>= f) m0 := fun x => h { x with out := x.out ++ [l x] }

variable [LinearOrder K] [LinearOrder V] (c : TCfg σ A K V)

theorem runStartup_agrees : Agrees (runStartup c) (Engine.runStartup c.cfg .run) := by
  intro x
  unfold runStartup Engine.runStartup
  cases c.cfg.startup <;> exact ⟨rfl, rfl⟩

theorem runCleanup_agrees : Agrees (runCleanup c) (Engine.runCleanup c.cfg .run) := by
  intro x
  unfold runCleanup Engine.runCleanup
  cases c.cfg.cleanup <;> exact ⟨rfl, rfl⟩

theorem invoke_agrees : Agrees (invokeWithGenTuple c) (Engine.invokeWithGenTuple c.cfg) := by
  refine Agrees.bind (Agrees.up _) fun ts => ?_
  refine Agrees.tryCatch (fun x => ⟨rfl, rfl⟩) fun e => ?_
  split <;> exact Agrees.throw _

mutual
theorem shrinkN_agrees (vals : Tup A) (N : Fin n) : ∀ (t : Shr (A N)) (x : XSt σ A K V),
    (shrinkN c vals N t x).1 = (Engine.shrinkN c.cfg vals N t x.st).1 ∧
    (shrinkN c vals N t x).2.st = (Engine.shrinkN c.cfg vals N t x.st).2
  | .node v ss, x => by
    rw [shrinkN, Engine.shrinkN]
    exact shrinkNIter_agrees vals N x.st.fails ss _
theorem shrinkNIter_agrees (vals : Tup A) (N : Fin n) (outer : List String) : ∀ (ss : List (Shr (A N)))
    (x : XSt σ A K V),
    (shrinkNIter c vals N outer ss x).1 = (Engine.shrinkNIter c.cfg vals N outer ss x.st).1 ∧
    (shrinkNIter c vals N outer ss x).2.st = (Engine.shrinkNIter c.cfg vals N outer ss x.st).2
  | [], x => by
    rw [shrinkNIter, Engine.shrinkNIter]
    exact ⟨rfl, rfl⟩
  | next :: rest, x => by
    rw [shrinkNIter, Engine.shrinkNIter]
    beta_reduce
    cases test c.cfg vals N next x.st with
    | mk o s1 =>
      cases o with
      | throws e => exact ⟨rfl, rfl⟩
      | ub => exact ⟨rfl, rfl⟩
      | diverges => exact ⟨rfl, rfl⟩
      | ok b =>
        simp only
        by_cases hb : (!b || !s1.fails.isEmpty) = true
        · rw [if_pos hb, if_pos hb]
          exact shrinkN_agrees _ N next _
        · rw [if_neg hb, if_neg hb]
          exact shrinkNIter_agrees vals N outer rest _
end

theorem shrinkEach_agrees : ∀ (order : List (Fin n)) (vals : Tup A),
    Agrees (shrinkEach c order vals) (Engine.shrinkEach c.cfg order vals)
  | [], vals => Agrees.pure _
  | N :: rest, vals => by
    rw [shrinkEach, Engine.shrinkEach]
    exact Agrees.bind (fun x => shrinkN_agrees c vals N _ x) fun v => shrinkEach_agrees rest v

theorem shrink_agrees : Agrees (shrink c) (Engine.shrink c.cfg) := by
  unfold shrink Engine.shrink
  refine Agrees.bind (Agrees.up _) fun i => Agrees.bind (Agrees.up _) fun start => ?_
  refine Agrees.print (Agrees.bind (shrinkEach_agrees c _ start) fun shrunk => ?_)
  exact Agrees.print (Agrees.pure _)

theorem attempt_agrees : Agrees (attempt c) (Engine.attempt c.cfg) := by
  unfold attempt Engine.attempt
  refine Agrees.bind (Agrees.up _) fun _ => Agrees.bind (runStartup_agrees c) fun _ =>
    Agrees.bind (invoke_agrees c) fun result => Agrees.bind (runCleanup_agrees c) fun _ =>
    Agrees.bind (Agrees.up _) fun failures => ?_
  split
  · exact Agrees.printOf (Agrees.bind (shrink_agrees c) fun _ => Agrees.pure _)
  · split
    · exact Agrees.printOf (Agrees.bind (shrink_agrees c) fun _ => Agrees.pure _)
    · exact Agrees.pure _

theorem guarded_agrees : Agrees (guarded c) (Engine.guarded c.cfg) := by
  refine Agrees.tryCatch (attempt_agrees c) fun e => ?_
  split
  · exact Agrees.pure _
  · split
    · exact Agrees.pure _
    · exact Agrees.throw _

theorem doWhile_agrees : ∀ fuel, Agrees (doWhile c fuel) (Engine.doWhile c.cfg fuel)
  | 0 => Agrees.up _
  | fuel + 1 => by
    rw [doWhile, Engine.doWhile]
    refine Agrees.bind (guarded_agrees c) fun v => ?_
    cases v with
    | pass => exact Agrees.pure _
    | again => exact doWhile_agrees fuel
    | stop r => exact Agrees.pure _

theorem forLoop_agrees (fuel : Nat) : ∀ left, Agrees (forLoop c fuel left) (Engine.forLoop c.cfg fuel left)
  | 0 => Agrees.print (Agrees.printOf (Agrees.pure _))
  | left + 1 => by
    rw [forLoop, Engine.forLoop]
    refine Agrees.bind (Agrees.up _) fun el => ?_
    split
    · exact Agrees.printOf (Agrees.printOf (Agrees.up _))
    · refine Agrees.bind (doWhile_agrees c fuel) fun v => ?_
      cases v with
      | some r => exact Agrees.pure _
      | none => exact Agrees.bind (Agrees.up _) fun _ => forLoop_agrees fuel left

/-- Apart from what is printed, `forAll` is that of Model/Property.lean. -/
theorem forAll_agrees (fuel : Nat) (seed : σ) (tr : Trace A) :
    Engine.forAll c.cfg fuel seed tr = ((forAll c fuel seed tr).1, (forAll c fuel seed tr).2.1) := by
  have h : Agrees (XEng.print .seed >>= fun _ => XEng.tryCatch (forLoop c fuel c.cfg.numRuns) (fun e =>
      if e.isStd then do
        XEng.printOf (fun x => .falsifiable (x.st.i + 1) (.exception e))
        shrink c
      else XEng.throw e)) (Eng.catchStd (Engine.forLoop c.cfg fuel c.cfg.numRuns) (Engine.shrink c.cfg)) := by
    refine Agrees.print (Agrees.tryCatch (forLoop_agrees c fuel _) fun e => ?_)
    by_cases he : e.isStd = true
    · rw [if_pos he, if_pos he]; exact Agrees.printOf (shrink_agrees c)
    · rw [if_neg he, if_neg he]; exact Agrees.throw _
  have h1 := h ⟨{ rand := seed, saved := seed, i := 0, fails := [], trace := tr }, [], []⟩
  unfold Engine.forAll Engine.runForAll Eng.withContext forAll runForAll
  simp only at h1 ⊢
  rw [h1.1, h1.2]

/-! ### The output of shrinking -/

theorem Steps.trans {vals mid last : Tup A} {cs cs' : List (Args A × Ev Bool)} {ls ls' : List (Line A K V)}
    (h : Steps vals cs ls mid) (h' : Steps mid cs' ls' last) : Steps vals (cs ++ cs') (ls ++ ls') last := by
  induction h with
  | done vals => simpa using h'
  | passed vals N child e cs ls last h1 h2 _ ih => exact .passed _ _ _ _ _ _ _ h1 h2 (ih h')
  | adopted vals N child e cs ls last h1 h2 _ ih =>
    have h3 := Steps.adopted vals N child e _ _ _ h1 h2 (ih h')
    by_cases he : e.fails = []
    · simpa [he] using h3
    · simpa [he] using h3

/-- What shrinking added: calls of the shrink phase and lines of output. -/
structure Shrunk (x : XSt σ A K V) (vals vals' : Tup A) (x' : XSt σ A K V) : Prop where
  ex : ∃ new ls, x'.st.trace = new ++ x.st.trace ∧ x'.out = x.out ++ ls ∧ Steps vals (calls .shrink new) ls vals'

/-- What `test` makes of the outcome of a call. -/
def testResult : Outcome Bool → Outcome Bool
  | .ok b => .ok b
  | .throws e => if e.isStd then .ok false else .throws e
  | .ub => .ub
  | .diverges => .diverges

theorem result_rejects {ev : Ev Bool} {b : Bool} (h : testResult ev.out = .ok b) :
    ev.Rejects ↔ (!b || !ev.fails.isEmpty) = true := by
  unfold Ev.Rejects
  cases ho : ev.out with
  | ok b' =>
    rw [ho] at h
    simp only [testResult, Outcome.ok.injEq] at h
    subst h
    cases b' <;> simp
  | throws e =>
    rw [ho] at h
    by_cases he : e.isStd = true
    · simp only [testResult, he, if_true, Outcome.ok.injEq] at h
      subst h
      simp [he]
    · simp [testResult, he] at h
  | ub => rw [ho] at h; simp [testResult] at h
  | diverges => rw [ho] at h; simp [testResult] at h

section
variable {c : TCfg σ A K V} (hq : c.cfg.Quiet)
include hq

mutual
theorem shrinkN_out (N : Fin n) : ∀ (t : Shr (A N)) (vals : Tup A) (_ : vals N = t) (x : XSt σ A K V) (vals' : Tup A)
    (x' : XSt σ A K V) (_ : shrinkN c vals N t x = (.ok vals', x')), Shrunk x vals vals' x'
  | .node v ss => by
    intro vals ht x vals' x' h
    rw [shrinkN] at h
    obtain ⟨new, ls, h1, h2, h3⟩ := shrinkNIter_out N ss vals x.st.fails _ rfl vals' x' h
      (fun child hc => by rw [ht]; exact hc)
    exact ⟨new, ls, h1, h2, h3⟩
theorem shrinkNIter_out (N : Fin n) : ∀ (ss : List (Shr (A N))) (vals : Tup A) (outer : List String)
    (x : XSt σ A K V) (_ : x.st.fails = []) (vals' : Tup A) (x' : XSt σ A K V)
    (_ : shrinkNIter c vals N outer ss x = (.ok vals', x')) (_ : ∀ child ∈ ss, child ∈ (vals N).shrinks),
    Shrunk x vals vals' x'
  | [] => by
    intro vals outer x _ vals' x' h _
    rw [shrinkNIter] at h; beta_reduce at h
    cases h
    exact ⟨[], [], rfl, by simp, .done _⟩
  | next :: rest => by
    intro vals outer x hx vals' x' h hsub
    rw [shrinkNIter] at h; beta_reduce at h
    obtain ⟨cu, hcu, ht⟩ := test_quiet hq vals N next x.st _ rfl
    set a := Function.update (Tup.get vals) N next.value with ha
    set ev := c.cfg.func (suEv c.cfg .shrink ++ x.st.trace) a with hev
    have hin := hsub next List.mem_cons_self
    have hcalls : ∀ new : Trace A, calls .shrink (new ++ (cu ++ .call .shrink a ev :: suEv c.cfg .shrink)) =
        (Tup.get (Function.update vals N next), ev) :: calls .shrink new := by
      intro new
      rw [calls_append, calls_append, hcu, calls_cons, calls_suEv, get_update, ← ha]
      simp [Event.call?]
    have ht' : test c.cfg vals N next x.st = (testResult ev.out,
        { x.st with fails := ev.fails, trace := cu ++ .call .shrink a ev :: (suEv c.cfg .shrink ++ x.st.trace) }) := by
      rw [ht, hx, List.nil_append]
      cases ev.out <;> rfl
    rw [ht'] at h
    cases hm : testResult ev.out with
    | throws e => rw [hm] at h; simp at h
    | ub => rw [hm] at h; simp at h
    | diverges => rw [hm] at h; simp at h
    | ok result =>
      rw [hm] at h
      simp only at h
      have hrej := result_rejects hm
      by_cases hb : (!result || !ev.fails.isEmpty) = true
      · rw [if_pos hb] at h
        obtain ⟨new, ls, h1, h2, h3⟩ := shrinkN_out N next (Function.update vals N next) (by simp) _ vals' x' h
        refine ⟨new ++ (cu ++ .call .shrink a ev :: suEv c.cfg .shrink),
          Line.simpler N (Tup.get (Function.update vals N next)) ::
            (if ev.fails = [] then ls else .byExpectations ev.fails :: ls), ?_, ?_, ?_⟩
        · rw [h1]; simp
        · rw [h2]
          by_cases hf : ev.fails = []
          · simp [hf]
          · simp [hf]
        · rw [hcalls]
          exact .adopted _ _ _ _ _ _ _ hin (hrej.mpr hb) h3
      · rw [if_neg hb] at h
        have hf : ev.fails = [] := by
          simp only [Bool.or_eq_true, Bool.not_eq_true', List.isEmpty_eq_false_iff, not_or, not_not] at hb
          exact hb.2
        obtain ⟨new, ls, h1, h2, h3⟩ := shrinkNIter_out N rest vals outer _ hf vals' x' h
          (fun child hc => hsub child (List.mem_cons_of_mem _ hc))
        refine ⟨new ++ (cu ++ .call .shrink a ev :: suEv c.cfg .shrink), ls, ?_, h2, ?_⟩
        · rw [h1]; simp
        · rw [hcalls]
          exact .passed _ _ _ _ _ _ _ hin (fun hr => hb (hrej.mp hr)) h3
end

theorem shrinkEach_out : ∀ (order : List (Fin n)) (vals : Tup A) (x : XSt σ A K V) (vals' : Tup A) (x' : XSt σ A K V)
    (_ : shrinkEach c order vals x = (.ok vals', x')), Shrunk x vals vals' x'
  | [], vals, x, vals', x', h => by
    rw [shrinkEach, XEng.pure_apply] at h
    cases h
    exact ⟨[], [], rfl, by simp, .done _⟩
  | N :: rest, vals, x, vals', x', h => by
    rw [shrinkEach, XEng.bind_apply, XEng.mk] at h
    cases hN : shrinkN c vals N (vals N) x with
    | mk o x1 =>
      simp only [hN] at h
      cases o with
      | throws e => simp at h
      | ub => simp at h
      | diverges => simp at h
      | ok v1 =>
        simp only at h
        obtain ⟨new, ls, h1, h2, h3⟩ := shrinkN_out hq N _ vals rfl x v1 x1 hN
        obtain ⟨new', ls', h1', h2', h3'⟩ := shrinkEach_out rest v1 x1 vals' x' h
        refine ⟨new' ++ new, ls ++ ls', ?_, ?_, ?_⟩
        · rw [h1', h1]; simp
        · rw [h2', h2]; simp
        · rw [calls_append]
          exact h3.trans h3'

/-- The output of the shrink phase when it ends normally. -/
theorem shrink_out (x : XSt σ A K V) (R : Report A) (x' : XSt σ A K V) (h : shrink c x = (.ok R, x')) :
    ∃ start shrunk r new ls, Gen.drawTuple c.cfg.gens c.cfg.orderShrink x.st.saved = .ok (start, r) ∧
      R = .falsified (x.st.i + 1) start shrunk ∧ x'.st.trace = new ++ x.st.trace ∧
      x'.out = x.out ++ .withArgs (Tup.get start) :: ls ++ [.simplest (Tup.get shrunk)] ∧
      Steps start (calls .shrink new) ls shrunk := by
  unfold shrink at h
  simp only [XEng.bind_apply, XEng.up, Eng.reads, drawSaved] at h
  cases hd : Gen.drawTuple c.cfg.gens c.cfg.orderShrink x.st.saved with
  | throws e => rw [hd] at h; simp at h
  | ub => rw [hd] at h; simp at h
  | diverges => rw [hd] at h; simp at h
  | ok p =>
    obtain ⟨ts, r⟩ := p
    rw [hd] at h
    simp only [XEng.print] at h
    cases he : shrinkEach c c.cfg.orderEach ts
        ⟨{ x.st with saved := r }, x.tags, x.out ++ [.withArgs (Tup.get ts)]⟩ with
    | mk o x1 =>
      rw [he] at h
      cases o with
      | throws e => simp at h
      | ub => simp at h
      | diverges => simp at h
      | ok v =>
        simp only [XEng.pure_apply] at h
        cases h
        obtain ⟨new, ls, h1, h2, h3⟩ := shrinkEach_out hq _ ts _ v x1 he
        refine ⟨ts, v, r, new, ls, rfl, rfl, h1, ?_, h3⟩
        simp [h2]

end

/-! ### The output of the runs -/

/-- The tags of the context of `runForAll` after the given events. -/
def allTags (c : TCfg σ A K V) (tr : Trace A) : Tags K V :=
  (runTags c.tags tr).foldl (fun t kv => tag t kv.1 kv.2) []

/-- The variables, with the tags of the events so far. -/
def withTags (c : TCfg σ A K V) (s : St σ A) (out : List (Line A K V)) : XSt σ A K V := ⟨s, allTags c s.trace, out⟩

theorem runStartup_out {c : TCfg σ A K V} (hq : c.cfg.Quiet) (s : St σ A) (out : List (Line A K V)) :
    runStartup c (withTags c s out) = (.ok (), withTags c { s with trace := suEv c.cfg .run ++ s.trace } out) := by
  unfold runStartup suEv
  cases hk : c.cfg.startup with
  | none => simp [withTags]
  | some k => simp [recordTags, record, withTags, allTags, runTags, hq.1 k hk]

theorem runCleanup_out {c : TCfg σ A K V} (hq : c.cfg.Quiet) (s : St σ A) (out : List (Line A K V)) :
    runCleanup c (withTags c s out) = (.ok (), withTags c { s with trace := cuEv c.cfg .run ++ s.trace } out) := by
  unfold runCleanup cuEv
  cases hk : c.cfg.cleanup with
  | none => simp [withTags]
  | some k => simp [recordTags, record, withTags, allTags, runTags, hq.2 k hk]

theorem callFunc_out (c : TCfg σ A K V) (args : Args A) (s : St σ A) (out : List (Line A K V)) :
    callFunc c args (withTags c s out) = ((c.cfg.func s.trace args).out,
      withTags c { s with fails := s.fails ++ (c.cfg.func s.trace args).fails,
                          trace := .call .run args (c.cfg.func s.trace args) :: s.trace } out) := by
  simp [callFunc, recordTags, record, withTags, allTags, runTags]

/-- What one execution of the inner `try` block does and prints. -/
theorem attempt_out {c : TCfg σ A K V} (hq : c.cfg.Quiet) (s : St σ A) (out : List (Line A K V)) :
    attempt c (withTags c s out) =
      match Gen.drawTuple c.cfg.gens c.cfg.orderRun s.rand with
      | .throws e => (.throws e, withTags c
          ⟨c.cfg.thrown s.rand, s.rand, s.i, s.fails, .genThrew .run e :: (suEv c.cfg .run ++ s.trace)⟩ out)
      | .ub => (.ub, withTags c { s with saved := s.rand, trace := suEv c.cfg .run ++ s.trace } out)
      | .diverges => (.diverges, withTags c { s with saved := s.rand, trace := suEv c.cfg .run ++ s.trace } out)
      | .ok (ts, r) =>
        let ev := c.cfg.func (suEv c.cfg .run ++ s.trace) (Tup.get ts)
        let s1 : St σ A := ⟨r, s.rand, s.i, s.fails ++ ev.fails,
          .call .run (Tup.get ts) ev :: (suEv c.cfg .run ++ s.trace)⟩
        let s2 : St σ A := ⟨r, s.rand, s.i, [], cuEv c.cfg .run ++ s1.trace⟩
        match ev.out with
        | .throws e => (.throws (if e = .assertFailed then .propertyFailed else e), withTags c s1 out)
        | .ub => (.ub, withTags c s1 out)
        | .diverges => (.diverges, withTags c s1 out)
        | .ok b =>
          if s.fails ++ ev.fails = [] ∧ b = true then (.ok .pass, withTags c s2 out)
          else (shrink c >>= fun r => pure (.stop r))
            (withTags c s2 (out ++ [.falsifiable (s.i + 1) (whyOf s.fails ev)])) := by
  unfold attempt invokeWithGenTuple
  have h0 : ∀ x : XSt σ A K V, (XEng.up (Eng.modify (fun s => { s with saved := s.rand })) : XEng σ A K V Unit) x =
      (.ok (), { x with st := { x.st with saved := x.st.rand } }) := fun _ => rfl
  have h1 : ({ withTags c s out with st := { (withTags c s out).st with saved := (withTags c s out).st.rand } } : XSt σ A K V) =
      withTags c { s with saved := s.rand } out := rfl
  simp only [XEng.bind_apply, h0, h1, runStartup_out hq]
  have h2 : ∀ (s : St σ A) (out : List (Line A K V)), (XEng.up (drawRun c.cfg) : XEng σ A K V (Tup A)) (withTags c s out) =
      match Gen.drawTuple c.cfg.gens c.cfg.orderRun s.rand with
      | .ok (ts, r) => (.ok ts, withTags c { s with rand := r } out)
      | .throws e => (.throws e, withTags c { s with rand := c.cfg.thrown s.rand, trace := .genThrew .run e :: s.trace } out)
      | .ub => (.ub, withTags c s out)
      | .diverges => (.diverges, withTags c s out) := by
    intro s out
    unfold XEng.up
    simp only [drawRun_apply]
    have e : (withTags c s out).st = s := rfl
    rw [e]
    cases Gen.drawTuple c.cfg.gens c.cfg.orderRun s.rand with
    | ok p => rfl
    | throws e => simp [withTags, allTags, runTags]
    | ub => rfl
    | diverges => rfl
  simp only [h2]
  cases hd : Gen.drawTuple c.cfg.gens c.cfg.orderRun s.rand with
  | throws e => rfl
  | ub => rfl
  | diverges => rfl
  | ok p =>
    obtain ⟨ts, r⟩ := p
    simp only [XEng.tryCatch, callFunc_out]
    cases ho : (c.cfg.func (suEv c.cfg .run ++ s.trace) (Tup.get ts)).out with
    | throws e => by_cases he : e = .assertFailed <;> simp [he, XEng.throw]
    | ub => rfl
    | diverges => rfl
    | ok b =>
      simp only [runCleanup_out hq]
      have h3 : ∀ (s : St σ A) (out : List (Line A K V)), (XEng.up flushFailures : XEng σ A K V (List String)) (withTags c s out) =
          (.ok s.fails, withTags c { s with fails := [] } out) := fun _ _ => rfl
      simp only [h3]
      unfold whyOf
      rw [ho]
      simp only
      generalize s.fails ++ (c.cfg.func (suEv c.cfg .run ++ s.trace) (Tup.get ts)).fails = F
      have h4 : ∀ (l : XSt σ A K V → Line A K V) (s : St σ A) (out : List (Line A K V)),
          (XEng.printOf l : XEng σ A K V Unit) (withTags c s out) =
          (.ok (), withTags c s (out ++ [l (withTags c s out)])) := fun _ _ _ => rfl
      cases F with
      | nil =>
        cases b with
        | true => simp [XEng.pure_apply]
        | false =>
          simp [XEng.pure_apply, XEng.bind_apply, h4]
          rfl
      | cons x xs =>
        simp [XEng.bind_apply, h4]
        rfl

/-- Invariant of the loops. -/
structure OInv (s : St σ A) : Prop where
  left : s.fails = leftover (calls .run s.trace)
  shr : calls .shrink s.trace = []

omit [LinearOrder K] [LinearOrder V] in
/-- What was printed when a run failed. -/
structure StoppedOut (i : Nat) (R : Report A) (out : List (Line A K V)) (x' : XSt σ A K V) : Prop where
  ex : ∃ start shrunk pre y ls, R = .falsified (i + 1) start shrunk ∧ calls .run x'.st.trace = pre ++ [y] ∧
    y.1 = Tup.get start ∧
    x'.out = out ++ .falsifiable (i + 1) (whyOf (leftover pre) y.2) :: .withArgs (Tup.get start) :: ls ++
      [.simplest (Tup.get shrunk)] ∧
    Steps start (calls .shrink x'.st.trace) ls shrunk

/-- What is known when an exception left the loop. -/
structure ThrewOut (c : TCfg σ A K V) (i : Nat) (e : Exn) (out : List (Line A K V)) (x' : XSt σ A K V) : Prop where
  ex : ∃ s', x' = withTags c s' out ∧ s'.i = i ∧ calls .shrink s'.trace = [] ∧
    (Gen.drawTuple c.cfg.gens c.cfg.orderRun s'.saved = .throws e ∨
      ∃ ts r pre y, Gen.drawTuple c.cfg.gens c.cfg.orderRun s'.saved = .ok (ts, r) ∧
        calls .run s'.trace = pre ++ [y] ∧ y.1 = Tup.get ts ∧ whyOf (leftover pre) y.2 = .exception e)

/-- What one execution of the `do ... while` body guarantees. -/
structure StepOut (c : TCfg σ A K V) (i : Nat) (out : List (Line A K V)) (o : Outcome (Step A)) (x' : XSt σ A K V) :
    Prop where
  go : o = .ok .pass ∨ o = .ok .again → ∃ s', x' = withTags c s' out ∧ OInv s' ∧ s'.i = i
  stop : ∀ R, o = .ok (.stop R) → StoppedOut i R out x'
  threw : ∀ e, o = .throws e → e.isStd = true → ThrewOut c i e out x'

omit [LinearOrder K] [LinearOrder V] in
theorem leftover_append (cs : List (Args A × Ev Bool)) (x : Args A × Ev Bool) :
    leftover (cs ++ [x]) = match x.2.out with
      | .ok _ => []
      | _ => leftover cs ++ x.2.fails := by
  unfold leftover
  rw [List.foldl_append]
  rfl

/-- The shrink phase after a failing call. -/
theorem shrink_stop {c : TCfg σ A K V} (hc : Setting c.cfg) {s : St σ A} {out0 : List (Line A K V)}
    {why : Why} {ts : Tup A} {r : σ} {pre : List (Args A × Ev Bool)} {y : Args A × Ev Bool}
    (hd : Gen.drawTuple c.cfg.gens c.cfg.orderRun s.saved = .ok (ts, r)) (hy : y.1 = Tup.get ts)
    (hcalls : calls .run s.trace = pre ++ [y]) (hs : calls .shrink s.trace = [])
    (hwhy : why = whyOf (leftover pre) y.2) (x : XSt σ A K V) (hx : x.st = s)
    (ho : x.out = out0 ++ [.falsifiable (s.i + 1) why]) :
    (∀ R x', shrink c x = (.ok R, x') → StoppedOut s.i R out0 x') ∧
    (∀ e x', shrink c x = (.throws e, x') → e.isStd = false) := by
  have hag := shrink_agrees c x
  rw [hx, shrink_apply, hc.order, hd] at hag
  simp only at hag
  have hb := shrinkEach_bounded c.cfg c.cfg.orderEach hc.nodup ts { s with saved := r }
  constructor
  · intro R x' h
    obtain ⟨start, shrunk, r', new, ls, h1, h2, h3, h4, h5⟩ := shrink_out hc.quiet x R x' h
    rw [hx, hc.order, hd] at h1
    cases h1
    rw [h] at hag
    have hruns : calls .run x'.st.trace = calls .run s.trace := by
      rw [hag.2]
      cases he : Engine.shrinkEach c.cfg c.cfg.orderEach ts { s with saved := r } with
      | mk o s1 =>
        rw [he] at hb
        have := hb.runs
        cases o <;> exact this
    rw [hx] at h2 h3
    refine ⟨ts, shrunk, pre, y, ls, h2, hruns.trans hcalls, hy, ?_, ?_⟩
    · rw [h4, ho, hwhy]; simp
    · rw [h3, calls_append, hs, List.nil_append]
      exact h5
  · intro e x' h
    rw [h] at hag
    cases he : Engine.shrinkEach c.cfg c.cfg.orderEach ts { s with saved := r } with
    | mk o s1 =>
      rw [he] at hb hag
      cases o with
      | throws e' =>
        have h6 := hag.1
        simp only [Outcome.throws.injEq] at h6
        subst h6
        exact hb.foreign _ rfl
      | ok v => simp at hag
      | ub => simp at hag
      | diverges => simp at hag

theorem guarded_out {c : TCfg σ A K V} (hc : Setting c.cfg) (s : St σ A) (out : List (Line A K V)) (hi : OInv s) :
    StepOut c s.i out (guarded c (withTags c s out)).1 (guarded c (withTags c s out)).2 := by
  unfold guarded XEng.tryCatch
  rw [attempt_out hc.quiet]
  cases hd : Gen.drawTuple c.cfg.gens c.cfg.orderRun s.rand with
  | ub => exact ⟨fun h => by simp at h, fun R h => by simp at h, fun e h => by simp at h⟩
  | diverges => exact ⟨fun h => by simp at h, fun R h => by simp at h, fun e h => by simp at h⟩
  | throws e =>
    simp only
    have hruns : calls .run (.genThrew .run e :: (suEv c.cfg .run ++ s.trace)) = calls .run s.trace := by
      rw [calls_cons]; simp [Event.call?]
    have hshr : calls .shrink (.genThrew .run e :: (suEv c.cfg .run ++ s.trace)) = calls .shrink s.trace := by
      rw [calls_cons]; simp [Event.call?]
    by_cases h1 : e = .success
    · subst h1; exact absurd hd (hc.gens _)
    by_cases h2 : e = .discard
    · subst h2
      rw [if_neg h1, if_pos rfl, XEng.pure_apply]
      refine ⟨fun _ => ⟨_, rfl, ⟨?_, ?_⟩, rfl⟩, fun R h => by simp at h, fun e h => by simp at h⟩
      · simp only [hruns]; exact hi.left
      · simp only [hshr]; exact hi.shr
    · rw [if_neg h1, if_neg h2]
      refine ⟨fun h => by simp [XEng.throw] at h, fun R h => by simp [XEng.throw] at h, fun e' h hstd => ?_⟩
      simp only [XEng.throw, Outcome.throws.injEq] at h
      subst h
      exact ⟨_, rfl, rfl, by rw [hshr]; exact hi.shr, Or.inl hd⟩
  | ok p =>
    obtain ⟨ts, r⟩ := p
    simp only
    set ev := c.cfg.func (suEv c.cfg .run ++ s.trace) (Tup.get ts) with hev
    have hruns := calls_run_step c.cfg [] (fun _ => rfl) (Tup.get ts) ev s.trace
    have hshr := calls_shrink_step c.cfg [] (fun _ => rfl) (Tup.get ts) ev s.trace
    have hruns2 := calls_run_step c.cfg (cuEv c.cfg .run) (fun _ => calls_cuEv _ _ _) (Tup.get ts) ev s.trace
    have hshr2 := calls_shrink_step c.cfg (cuEv c.cfg .run) (fun _ => calls_cuEv _ _ _) (Tup.get ts) ev s.trace
    simp only [List.nil_append] at hruns hshr
    cases ho : ev.out with
    | ub => exact ⟨fun h => by simp at h, fun R h => by simp at h, fun e h => by simp at h⟩
    | diverges => exact ⟨fun h => by simp at h, fun R h => by simp at h, fun e h => by simp at h⟩
    | throws e =>
      simp only
      have hinv : OInv (⟨r, s.rand, s.i, s.fails ++ ev.fails,
          .call .run (Tup.get ts) ev :: (suEv c.cfg .run ++ s.trace)⟩ : St σ A) := by
        refine ⟨?_, ?_⟩
        · simp only [hruns, leftover_append, ho, hi.left]
        · simp only [hshr]; exact hi.shr
      by_cases h1 : e = .success
      · subst h1
        rw [if_pos (by decide), XEng.pure_apply]
        exact ⟨fun _ => ⟨_, rfl, hinv, rfl⟩, fun R h => by simp at h, fun e h => by simp at h⟩
      by_cases h2 : e = .discard
      · subst h2
        rw [if_neg (by decide), if_pos (by decide), XEng.pure_apply]
        exact ⟨fun _ => ⟨_, rfl, hinv, rfl⟩, fun R h => by simp at h, fun e h => by simp at h⟩
      · set e' := if e = .assertFailed then Exn.propertyFailed else e with he'
        have h1' : e' ≠ .success := by rw [he']; split <;> simp [h1]
        have h2' : e' ≠ .discard := by rw [he']; split <;> simp [h2]
        rw [if_neg h1', if_neg h2']
        refine ⟨fun h => by simp [XEng.throw] at h, fun R h => by simp [XEng.throw] at h, fun e2 h hstd => ?_⟩
        simp only [XEng.throw, Outcome.throws.injEq] at h
        subst h
        refine ⟨_, rfl, rfl, hinv.shr, Or.inr ⟨ts, r, _, _, hd, hruns, rfl, ?_⟩⟩
        simp only [whyOf, ho, he']
    | ok b =>
      simp only
      by_cases hp : s.fails ++ ev.fails = [] ∧ b = true
      · rw [if_pos hp]
        refine ⟨fun _ => ⟨_, rfl, ⟨?_, ?_⟩, rfl⟩, fun R h => by simp at h, fun e h => by simp at h⟩
        · simp only [hruns2, leftover_append, ho]
        · simp only [hshr2]; exact hi.shr
      · rw [if_neg hp]
        have hsa := shrink_stop hc (s := ⟨r, s.rand, s.i, [], cuEv c.cfg .run ++ .call .run (Tup.get ts) ev ::
          (suEv c.cfg .run ++ s.trace)⟩) (out0 := out) (why := whyOf s.fails ev) hd rfl hruns2 (by rw [hshr2]; exact hi.shr)
          (by rw [hi.left]) (withTags c ⟨r, s.rand, s.i, [], cuEv c.cfg .run ++ .call .run (Tup.get ts) ev ::
          (suEv c.cfg .run ++ s.trace)⟩ (out ++ [.falsifiable (s.i + 1) (whyOf s.fails ev)])) rfl rfl
        rw [XEng.bind_apply]
        cases hsh : shrink c (withTags c ⟨r, s.rand, s.i, [], cuEv c.cfg .run ++ .call .run (Tup.get ts) ev ::
          (suEv c.cfg .run ++ s.trace)⟩ (out ++ [.falsifiable (s.i + 1) (whyOf s.fails ev)])) with
        | mk o x1 =>
          rw [hsh] at hsa
          cases o with
          | ub => exact ⟨fun h => by simp at h, fun R h => by simp at h, fun e h => by simp at h⟩
          | diverges => exact ⟨fun h => by simp at h, fun R h => by simp at h, fun e h => by simp at h⟩
          | throws e =>
            have hns := hsa.2 e x1 rfl
            simp only
            have h1 : e ≠ .success := by rintro rfl; simp [Exn.isStd] at hns
            have h2 : e ≠ .discard := by rintro rfl; simp [Exn.isStd] at hns
            rw [if_neg h1, if_neg h2]
            refine ⟨fun h => by simp [XEng.throw] at h, fun R h => by simp [XEng.throw] at h, fun e' h hstd => ?_⟩
            simp only [XEng.throw, Outcome.throws.injEq] at h
            subst h
            rw [hns] at hstd; cases hstd
          | ok R =>
            simp only [XEng.pure_apply]
            refine ⟨fun h => by simp at h, fun R' h => ?_, fun e h => by simp at h⟩
            cases h
            exact hsa.1 R x1 rfl

/-- What the `do ... while` loop guarantees. -/
structure LoopOut (c : TCfg σ A K V) (i : Nat) (out : List (Line A K V)) (o : Outcome (Option (Report A)))
    (x' : XSt σ A K V) : Prop where
  go : o = .ok none → ∃ s', x' = withTags c s' out ∧ OInv s' ∧ s'.i = i
  stop : ∀ R, o = .ok (some R) → StoppedOut i R out x'
  threw : ∀ e, o = .throws e → e.isStd = true → ThrewOut c i e out x'

theorem doWhile_out {c : TCfg σ A K V} (hc : Setting c.cfg) (out : List (Line A K V)) : ∀ (fuel : Nat) (s : St σ A)
    (_ : OInv s), LoopOut c s.i out (doWhile c fuel (withTags c s out)).1 (doWhile c fuel (withTags c s out)).2
  | 0, s, _ => by
    rw [doWhile]
    exact ⟨fun h => by simp [XEng.up, Eng.lift] at h, fun R h => by simp [XEng.up, Eng.lift] at h,
      fun e h => by simp [XEng.up, Eng.lift] at h⟩
  | fuel + 1, s, hi => by
    have hg := guarded_out hc s out hi
    rw [doWhile, XEng.bind_apply]
    cases hm : guarded c (withTags c s out) with
    | mk o x1 =>
      rw [hm] at hg
      cases o with
      | ub => exact ⟨fun h => by simp at h, fun R h => by simp at h, fun e h => by simp at h⟩
      | diverges => exact ⟨fun h => by simp at h, fun R h => by simp at h, fun e h => by simp at h⟩
      | throws e =>
        refine ⟨fun h => by simp at h, fun R h => by simp at h, fun e' h hstd => ?_⟩
        cases h
        exact hg.threw e rfl hstd
      | ok v =>
        cases v with
        | pass =>
          refine ⟨fun _ => hg.go (Or.inl rfl), fun R h => ?_, fun e h => ?_⟩ <;> simp [XEng.pure_apply] at h
        | again =>
          obtain ⟨s', hx, hi', hii⟩ := hg.go (Or.inr rfl)
          simp only at hx ⊢
          rw [hx, ← hii]
          exact doWhile_out hc out fuel s' hi'
        | stop R =>
          refine ⟨fun h => ?_, fun R' h => ?_, fun e h => ?_⟩
          · simp [XEng.pure_apply] at h
          · simp only [XEng.pure_apply, Outcome.ok.injEq, Option.some.injEq] at h
            subst h
            exact hg.stop R rfl
          · simp [XEng.pure_apply] at h

/-- What the `for` loop guarantees. -/
structure ForOut (c : TCfg σ A K V) (out : List (Line A K V)) (o : Outcome (Report A)) (x' : XSt σ A K V) : Prop where
  passed : o = .ok .passed → x'.out = out ++ [.passed c.cfg.numRuns, .statistics (printSummary (allTags c x'.st.trace))]
  timedOut : ∀ k, o = .ok (.timedOut k) →
    x'.out = out ++ [.timedOut k, .statistics (printSummary (allTags c x'.st.trace))]
  stop : ∀ R, o = .ok R → R.verdict = false → ∃ i, StoppedOut i R out x'
  threw : ∀ e, o = .throws e → e.isStd = true → ∃ i, ThrewOut c i e out x'

theorem forLoop_out {c : TCfg σ A K V} (hc : Setting c.cfg) (out : List (Line A K V)) (fuel : Nat) :
    ∀ (left : Nat) (s : St σ A) (_ : OInv s),
      ForOut c out (forLoop c fuel left (withTags c s out)).1 (forLoop c fuel left (withTags c s out)).2
  | 0, s, _ => by
    refine ⟨fun _ => ?_, fun k h => ?_, fun R h hv => ?_, fun e h => ?_⟩
    · simp [forLoop, XEng.bind_apply, XEng.print, XEng.printOf, XEng.pure_apply, withTags]
    · simp [forLoop, XEng.bind_apply, XEng.print, XEng.printOf, XEng.pure_apply] at h
    · simp [forLoop, XEng.bind_apply, XEng.print, XEng.printOf, XEng.pure_apply] at h
      subst h
      cases hv
    · simp [forLoop, XEng.bind_apply, XEng.print, XEng.printOf, XEng.pure_apply] at h
  | left + 1, s, hi => by
    rw [forLoop, XEng.bind_apply]
    simp only [XEng.up, Eng.reads]
    by_cases ht : c.cfg.maxDurationMs ≠ 0 ∧ c.cfg.maxDurationMs < c.cfg.clock (withTags c s out).st.trace
    · rw [if_pos ht]
      have hv : ((do
          XEng.printOf (fun x => .timedOut x.st.i)
          XEng.printOf (fun x => .statistics (printSummary x.tags))
          XEng.up (Eng.reads (fun s => .timedOut s.i)) : XEng σ A K V (Report A)) (withTags c s out)) =
          (.ok (.timedOut s.i), withTags c s
            (out ++ [.timedOut s.i] ++ [.statistics (printSummary (allTags c s.trace))])) := rfl
      refine ⟨fun h => ?_, fun k h => ?_, fun R h hv' => ?_, fun e h => ?_⟩
      · exact absurd ((congrArg Prod.fst hv).symm.trans h) (by simp)
      · have := (congrArg Prod.fst hv).symm.trans h
        simp only [Outcome.ok.injEq, Report.timedOut.injEq] at this
        subst this
        refine (congrArg (fun r => r.2.out) hv).trans ?_
        rw [List.append_assoc]
        rfl
      · have := (congrArg Prod.fst hv).symm.trans h
        simp only [Outcome.ok.injEq] at this
        subst this
        cases hv'
      · exact absurd ((congrArg Prod.fst hv).symm.trans h) (by simp)
    · rw [if_neg ht]
      have hd := doWhile_out hc out fuel s hi
      have hw : ({ st := (withTags c s out).st, tags := (withTags c s out).tags, out := (withTags c s out).out } :
        XSt σ A K V) = withTags c s out := rfl
      rw [hw, XEng.bind_apply]
      cases hm : doWhile c fuel (withTags c s out) with
      | mk o x1 =>
        rw [hm] at hd
        cases o with
        | ub => exact ⟨fun h => by simp at h, fun k h => by simp at h, fun R h => by simp at h, fun e h => by simp at h⟩
        | diverges => exact ⟨fun h => by simp at h, fun k h => by simp at h, fun R h => by simp at h, fun e h => by simp at h⟩
        | throws e =>
          refine ⟨fun h => by simp at h, fun k h => by simp at h, fun R h => by simp at h, fun e' h hstd => ?_⟩
          cases h
          exact ⟨_, hd.threw e rfl hstd⟩
        | ok v =>
          cases v with
          | some R =>
            obtain ⟨start, shrunk, _, _, _, hR, _⟩ := (hd.stop R rfl).ex
            refine ⟨fun h => ?_, fun k h => ?_, fun R' h hv => ?_, fun e h => ?_⟩
            · simp [XEng.pure_apply, hR] at h
            · simp [XEng.pure_apply, hR] at h
            · simp only [XEng.pure_apply, Outcome.ok.injEq] at h
              subst h
              exact ⟨_, hd.stop R rfl⟩
            · simp [XEng.pure_apply] at h
          | none =>
            obtain ⟨s', hx, hi', _⟩ := hd.go rfl
            simp only at hx
            subst hx
            have ih := forLoop_out hc out fuel left { s' with i := s'.i + 1 } ⟨hi'.left, hi'.shr⟩
            simp only
            rw [XEng.bind_apply]
            exact ih

/-- What `forAll` prints. -/
theorem forAll_out {c : TCfg σ A K V} (hc : Setting c.cfg) (fuel : Nat) (seed : σ) (R : Report A) (tr : Trace A)
    (out : List (Line A K V)) (h : forAll c fuel seed [] = (.ok R, tr, out)) :
    (R = .passed → out = [.seed, .passed c.cfg.numRuns, .statistics (printSummary (allTags c tr))]) ∧
    (∀ k, R = .timedOut k → out = [.seed, .timedOut k, .statistics (printSummary (allTags c tr))]) ∧
    (∀ a start shrunk, R = .falsified a start shrunk → ∃ pre y ls, calls .run tr = pre ++ [y] ∧ y.1 = Tup.get start ∧
      out = .seed :: .falsifiable a (whyOf (leftover pre) y.2) :: .withArgs (Tup.get start) :: ls ++
        [.simplest (Tup.get shrunk)] ∧ Steps start (calls .shrink tr) ls shrunk) := by
  have hf := forLoop_out hc [.seed] fuel c.cfg.numRuns
    ({ rand := seed, saved := seed, i := 0, fails := [], trace := [] } : St σ A) ⟨rfl, rfl⟩
  have hw : (withTags c ({ rand := seed, saved := seed, i := 0, fails := [], trace := [] } : St σ A) [.seed] :
      XSt σ A K V) = ⟨{ rand := seed, saved := seed, i := 0, fails := [], trace := [] }, [], [.seed]⟩ := rfl
  rw [hw] at hf
  unfold forAll runForAll at h
  rw [XEng.bind_apply] at h
  simp only [XEng.print, XEng.tryCatch, List.nil_append] at h
  cases hm : forLoop c fuel c.cfg.numRuns
      ⟨{ rand := seed, saved := seed, i := 0, fails := [], trace := [] }, [], [.seed]⟩ with
  | mk o x1 =>
    rw [hm] at hf h
    cases o with
    | ub => simp at h
    | diverges => simp at h
    | ok R' =>
      simp only [Prod.mk.injEq, Outcome.ok.injEq] at h
      obtain ⟨rfl, rfl, rfl⟩ := h
      refine ⟨fun hR => ?_, fun k hR => ?_, fun a start shrunk hR => ?_⟩
      · rw [hf.passed (by rw [hR])]; rfl
      · rw [hf.timedOut k (by rw [hR])]; rfl
      · obtain ⟨i, start', shrunk', pre, y, ls, h1, h2, h3, h4, h5⟩ := hf.stop R' rfl (by rw [hR]; rfl)
        rw [hR] at h1
        cases h1
        exact ⟨pre, y, ls, h2, h3, by rw [h4]; simp, h5⟩
    | throws e =>
      by_cases he : e.isStd = true
      · simp only [he, if_true] at h
        rw [XEng.bind_apply] at h
        simp only [XEng.printOf] at h
        obtain ⟨i, s', hx, hi, hs, hd⟩ := hf.threw e rfl he
        simp only at hx
        subst hx
        rcases hd with hd | ⟨ts, r, pre, y, hd, hcalls, hy, hwhy⟩
        · have hag := shrink_agrees c ⟨s', allTags c s'.trace, [.seed] ++ [.falsifiable (s'.i + 1) (.exception e)]⟩
          rw [shrink_apply, hc.order, hd] at hag
          simp only at hag
          have h1 := hag.1
          simp only [withTags] at h
          rw [Prod.mk.injEq] at h
          rw [h.1] at h1
          cases h1
        · have hsa := shrink_stop hc (s := s') (out0 := [.seed]) hd hy hcalls hs hwhy.symm
            ⟨s', allTags c s'.trace, [.seed] ++ [.falsifiable (s'.i + 1) (.exception e)]⟩ rfl rfl
          cases hsh : shrink c ⟨s', allTags c s'.trace, [.seed] ++ [.falsifiable (s'.i + 1) (.exception e)]⟩ with
          | mk o x2 =>
            simp only [withTags] at h
            rw [hsh] at h hsa
            simp only [Prod.mk.injEq] at h
            obtain ⟨h1, h2, h3⟩ := h
            subst h1 h2 h3
            obtain ⟨start', shrunk', pre', y', ls, g1, g2, g3, g4, g5⟩ := hsa.1 R x2 rfl
            refine ⟨fun hR => ?_, fun k hR => ?_, fun a start shrunk hR => ?_⟩
            · rw [hR] at g1; cases g1
            · rw [hR] at g1; cases g1
            · rw [hR] at g1
              cases g1
              exact ⟨pre', y', ls, g2, g3, by rw [g4]; simp, g5⟩
      · simp [he, XEng.throw] at h

end Output
end Verif
