import Verif.Lemmas.PropertyKeeps
import Verif.Props.TimeLimit
/-
C193: hooks that do nothing change nothing.
-/
namespace Verif
namespace Engine
open PairTuple
variable {n : Nat} {A : Fin n → Type} {σ : Type}

/-- A call of a hook. -/
def Event.isHook : Event A → Bool
  | .startup .. => true
  | .cleanup .. => true
  | _ => false

/-- The history without the calls of hooks. -/
def Trace.unhooked (tr : Trace A) : Trace A := tr.filter fun e => !e.isHook

/-- The state, with this history. -/
def St.unhooked (s : St σ A) : St σ A := { s with trace := Trace.unhooked s.trace }

/-- The test without hooks. -/
def Cfg.unhooked (c : Cfg σ A) : Cfg σ A := { c with startup := none, cleanup := none }

/-- Hooks that return normally and report nothing, and a function and (if there is a time limit) a clock that do not depend
on calls of hooks. -/
structure Cfg.QuietHooks (c : Cfg σ A) : Prop where
  startup : ∀ h, c.startup = some h → ∀ tr, h tr = ⟨[], .ok ()⟩
  cleanup : ∀ h, c.cleanup = some h → ∀ tr, h tr = ⟨[], .ok ()⟩
  func : ∀ tr a, c.func tr a = c.func (Trace.unhooked tr) a
  clock : c.maxDurationMs ≠ 0 → ∀ tr, c.clock tr = c.clock (Trace.unhooked tr)

/-- The second statement does what the first one does, without hooks. -/
def SameUnhooked {α : Type} (m m' : Eng σ A α) : Prop := ∀ s, m' s.unhooked = ((m s).1, (m s).2.unhooked)

section
variable {α β : Type} {c : Cfg σ A}

theorem SameUnhooked.bind {m m' : Eng σ A α} {f f' : α → Eng σ A β} (h : SameUnhooked m m') (hf : ∀ a, SameUnhooked (f a) (f' a)) :
    SameUnhooked (m >>= f) (m' >>= f') := by
  intro s
  rw [Eng.bind_apply, Eng.bind_apply, h s]
  rcases m s with ⟨a | e | _ | _, s1⟩
  · exact hf a s1
  · rfl
  · rfl
  · rfl

theorem SameUnhooked.tryCatch {m m' : Eng σ A α} {f f' : Exn → Eng σ A α} (h : SameUnhooked m m') (hf : ∀ e, SameUnhooked (f e) (f' e)) :
    SameUnhooked (Eng.tryCatch m f) (Eng.tryCatch m' f') := by
  intro s
  unfold Eng.tryCatch
  rw [h s]
  rcases m s with ⟨a | e | _ | _, s1⟩
  · rfl
  · exact hf e s1
  · rfl
  · rfl

theorem SameUnhooked.throw (e : Exn) : SameUnhooked (Eng.throw e : Eng σ A α) (Eng.throw e) := fun _ => rfl

theorem SameUnhooked.pure (a : α) : SameUnhooked (pure a : Eng σ A α) (pure a) := fun _ => rfl

theorem SameUnhooked.catchStd {m m' f f' : Eng σ A α} (h : SameUnhooked m m') (hf : SameUnhooked f f') :
    SameUnhooked (Eng.catchStd m f) (Eng.catchStd m' f') :=
  h.tryCatch fun e => by
    split
    · exact hf
    · exact .throw e

theorem SameUnhooked.withContext {m m' : Eng σ A α} (h : SameUnhooked m m') : SameUnhooked (Eng.withContext m) (Eng.withContext m') := by
  intro s
  have := h { s with fails := [] }
  unfold Eng.withContext
  rw [show ({ s.unhooked with fails := [] } : St σ A) = ({ s with fails := [] } : St σ A).unhooked from rfl, this]
  rfl

variable (hc : c.QuietHooks)
include hc

theorem sameBut_startup (ph : Phase) : SameUnhooked (runStartup c ph) (runStartup c.unhooked ph) := by
  intro s
  show (Outcome.ok (), s.unhooked) = _
  unfold runStartup
  split
  · rfl
  · next h hh =>
    rw [hc.startup h hh]
    simp [record, St.unhooked, Trace.unhooked, Event.isHook]

theorem sameBut_cleanup (ph : Phase) : SameUnhooked (runCleanup c ph) (runCleanup c.unhooked ph) := by
  intro s
  show (Outcome.ok (), s.unhooked) = _
  unfold runCleanup
  split
  · rfl
  · next h hh =>
    rw [hc.cleanup h hh]
    simp [record, St.unhooked, Trace.unhooked, Event.isHook]

theorem sameBut_call (ph : Phase) (a : Args A) : SameUnhooked (callFunc c ph a) (callFunc c.unhooked ph a) := by
  intro s
  unfold callFunc
  rw [hc.func s.trace a]
  simp [record, St.unhooked, Trace.unhooked, Event.isHook, Cfg.unhooked]

theorem sameBut_drawRun : SameUnhooked (drawRun c) (drawRun c.unhooked) := by
  intro s
  unfold drawRun
  simp only [St.unhooked, Cfg.unhooked]
  cases Gen.drawTuple c.gens c.orderRun s.rand <;> simp [Trace.unhooked, Event.isHook]

theorem sameBut_drawSaved : SameUnhooked (drawSaved c) (drawSaved c.unhooked) := by
  intro s
  unfold drawSaved
  simp only [St.unhooked, Cfg.unhooked]
  cases Gen.drawTuple c.gens c.orderShrink s.saved <;> simp [Trace.unhooked, Event.isHook]

theorem sameBut_test (vals : Tup A) (N : Fin n) (next : Shr (A N)) : SameUnhooked (test c vals N next) (test c.unhooked vals N next) :=
  SameUnhooked.catchStd (.bind (sameBut_startup hc _) fun _ => .bind (sameBut_call hc _ _) fun b =>
    .bind (sameBut_cleanup hc _) fun _ => .pure b) (.pure false)

mutual
theorem sameBut_shrinkN (N : Fin n) : ∀ (t : Shr (A N)) (vals : Tup A),
    SameUnhooked (shrinkN c vals N t) (shrinkN c.unhooked vals N t)
  | .node v ss, vals, s => by
    rw [shrinkN, shrinkN]
    exact sameBut_shrinkNIter N ss vals s.fails { s with fails := [] }
theorem sameBut_shrinkNIter (N : Fin n) : ∀ (ss : List (Shr (A N))) (vals : Tup A) (outer : List String),
    SameUnhooked (shrinkNIter c vals N outer ss) (shrinkNIter c.unhooked vals N outer ss)
  | [], vals, outer, s => by rw [shrinkNIter, shrinkNIter]; rfl
  | next :: rest, vals, outer, s => by
    rw [shrinkNIter, shrinkNIter]
    beta_reduce
    rw [sameBut_test hc vals N next s]
    rcases test c vals N next s with ⟨b | e | _ | _, s1⟩
    · simp only
      have : s1.unhooked.fails = s1.fails := rfl
      rw [this]
      split_ifs
      · exact sameBut_shrinkN N next _ { s1 with fails := outer }
      · exact sameBut_shrinkNIter N rest vals outer s1
    · rfl
    · rfl
    · rfl
end

theorem sameBut_shrinkEach : ∀ (order : List (Fin n)) (vals : Tup A),
    SameUnhooked (shrinkEach c order vals) (shrinkEach c.unhooked order vals)
  | [], _ => .pure _
  | N :: rest, vals => .bind (sameBut_shrinkN hc N _ vals) fun w => sameBut_shrinkEach rest w

theorem sameBut_shrink : SameUnhooked (shrink c) (shrink c.unhooked) :=
  .bind (fun _ => rfl) fun _ => .bind (sameBut_drawSaved hc) fun _ => .bind (sameBut_shrinkEach hc _ _) fun _ => .pure _

theorem sameBut_attempt : SameUnhooked (attempt c) (attempt c.unhooked) := by
  refine .bind (fun _ => rfl) fun _ => .bind (sameBut_startup hc _) fun _ => .bind ?_ fun _ =>
    .bind (sameBut_cleanup hc _) fun _ => .bind (fun _ => rfl) fun _ => ?_
  · exact .bind (sameBut_drawRun hc) fun _ => .tryCatch (sameBut_call hc _ _) fun e => by
      split <;> exact .throw _
  · split
    · exact .bind (sameBut_shrink hc) fun _ => .pure _
    · split
      · exact .bind (sameBut_shrink hc) fun _ => .pure _
      · exact .pure _

theorem sameBut_guarded : SameUnhooked (guarded c) (guarded c.unhooked) :=
  .tryCatch (sameBut_attempt hc) fun e => by
    split
    · exact .pure _
    · split
      · exact .pure _
      · exact .throw _

theorem sameBut_doWhile : ∀ fuel, SameUnhooked (doWhile c fuel) (doWhile c.unhooked fuel)
  | 0 => fun _ => rfl
  | fuel + 1 => by
    refine .bind (sameBut_guarded hc) fun v => ?_
    cases v with
    | pass => exact .pure _
    | again => exact sameBut_doWhile fuel
    | stop r => exact .pure _

theorem sameBut_forLoop (fuel : Nat) : ∀ left, SameUnhooked (forLoop c fuel left) (forLoop c.unhooked fuel left)
  | 0 => .pure _
  | left + 1 => by
    intro s
    have key : SameUnhooked (doWhile c fuel >>= fun v => match v with
          | some r => pure r
          | none => Eng.modify (fun s => { s with i := s.i + 1 }) >>= fun _ => forLoop c fuel left)
        (doWhile c.unhooked fuel >>= fun v => match v with
          | some r => pure r
          | none => Eng.modify (fun s => { s with i := s.i + 1 }) >>= fun _ => forLoop c.unhooked fuel left) := by
      refine .bind (sameBut_doWhile hc fuel) fun v => ?_
      cases v with
      | some r => exact .pure _
      | none => exact .bind (fun _ => rfl) fun _ => sameBut_forLoop fuel left
    rw [forLoop, forLoop, Eng.bind_apply, Eng.bind_apply]
    simp only [Eng.reads]
    have e : (c.unhooked.maxDurationMs ≠ 0 ∧ c.unhooked.maxDurationMs < c.unhooked.clock s.unhooked.trace) ↔
        (c.maxDurationMs ≠ 0 ∧ c.maxDurationMs < c.clock s.trace) := by
      refine and_congr_right fun h0 => ?_
      rw [hc.clock h0 s.trace]
      rfl
    by_cases h : c.maxDurationMs ≠ 0 ∧ c.maxDurationMs < c.clock s.trace
    · rw [if_pos h, if_pos (e.2 h)]
      rfl
    · rw [if_neg h, if_neg fun h' => h (e.1 h')]
      exact key s

end

/-- C193. Hooks that return normally and report nothing do not change a test: without them it makes the same calls of
the property function, in the same order, and gives the same report. -/
theorem C193_quiet_hooks (c : Cfg σ A) (hc : c.QuietHooks) (fuel : Nat) (seed : σ) (tr : Trace A) :
    forAll c.unhooked fuel seed (Trace.unhooked tr) = ((forAll c fuel seed tr).1, Trace.unhooked (forAll c fuel seed tr).2) := by
  have := (SameUnhooked.withContext (SameUnhooked.catchStd (sameBut_forLoop hc fuel c.numRuns) (sameBut_shrink hc)))
    ⟨seed, seed, 0, [], tr⟩
  unfold forAll runForAll
  exact congrArg (fun r => (r.1, r.2.trace)) this

/-- C193. For a function without state and a test without time limit: all hooks that return normally and report nothing
give the same report, and the same calls. -/
theorem C193_any_quiet_hooks (c : Cfg σ A) (f : Args A → Ev Bool) (hf : ∀ tr, c.func tr = f) (h0 : c.maxDurationMs = 0)
    (su cl su' cl' : Option (Trace A → Ev Unit)) (hsu : ∀ h ∈ [su, cl, su', cl'], ∀ k, h = some k → ∀ tr, k tr = ⟨[], .ok ()⟩)
    (fuel : Nat) (seed : σ) (tr : Trace A) :
    (forAll { c with startup := su, cleanup := cl } fuel seed tr).1 =
      (forAll { c with startup := su', cleanup := cl' } fuel seed tr).1 ∧
    ∀ ph, calls ph (forAll { c with startup := su, cleanup := cl } fuel seed tr).2 =
      calls ph (forAll { c with startup := su', cleanup := cl' } fuel seed tr).2 := by
  have h1 := C193_quiet_hooks { c with startup := su, cleanup := cl }
    ⟨fun h e => hsu su (by simp) h e, fun h e => hsu cl (by simp) h e, fun tr a => by simp only [hf], fun h => absurd h0 h⟩ fuel seed tr
  have h2 := C193_quiet_hooks { c with startup := su', cleanup := cl' }
    ⟨fun h e => hsu su' (by simp) h e, fun h e => hsu cl' (by simp) h e, fun tr a => by simp only [hf], fun h => absurd h0 h⟩ fuel seed tr
  have e : Cfg.unhooked { c with startup := su, cleanup := cl } = Cfg.unhooked { c with startup := su', cleanup := cl' } := rfl
  rw [e, h2] at h1
  obtain ⟨e1, e2⟩ := Prod.mk.inj h1
  refine ⟨e1.symm, fun ph => ?_⟩
  have hu : ∀ tr : Trace A, calls ph tr = calls ph (Trace.unhooked tr) := by
    intro tr
    unfold calls Trace.unhooked
    rw [← List.filter_reverse, List.filterMap_filter]
    congr 1
    funext x
    cases x <;> rfl
  rw [hu, hu (forAll { c with startup := su', cleanup := cl' } fuel seed tr).2, e2]

/-- A startup hook for a test of the numbers 0, 1, 2, ... that fails at 3: 4 calls of the hook in the runs and one to shrink; the
report and the calls of the function are those of the test without hooks. -/
example : (forAll { demo chain (fun k => returns (decide (k < 3))) 5 with startup := some fun _ => ⟨[], .ok ()⟩ } 5 0 []).2.length = 10 ∧
    (forAll { demo chain (fun k => returns (decide (k < 3))) 5 with startup := some fun _ => ⟨[], .ok ()⟩ } 5 0 []).1 =
      (forAll { demo chain (fun k => returns (decide (k < 3))) 5 with startup := none } 5 0 []).1 :=
  ⟨by decide +kernel, (C193_any_quiet_hooks (demo chain (fun k => returns (decide (k < 3))) 5) _ (fun _ => rfl) rfl
    (some fun _ => ⟨[], .ok ()⟩) none none none (by
      intro h hh k e tr
      simp only [List.mem_cons, List.not_mem_nil, or_false, or_self] at hh
      rcases hh with rfl | rfl
      · cases e; rfl
      · cases e) 5 0 []).1⟩

end Engine
end Verif
