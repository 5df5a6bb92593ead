import Verif.Spec.PropertyState
import Mathlib.Tactic.SplitIfs
/-
Auxiliary facts: a property whose generators have a state of their own that does not matter behaves like one whose
generators have none.
-/
namespace Verif
namespace Engine
open PairTuple
variable {n : Nat} {A : Fin n → Type} {σ ρ ω : Type} {α β : Type}

/-- Forgets the states of the generators. -/
def St.forget (s : St (ρ × ω) A) : St ρ A where
  rand := s.rand.1
  saved := s.saved.1
  i := s.i
  fails := s.fails
  trace := s.trace

/-- Both statements do the same, apart from the states of the generators. -/
def Sim (m : Eng (ρ × ω) A α) (m' : Eng ρ A α) : Prop := ∀ s, m' s.forget = ((m s).1, (m s).2.forget)

theorem Sim.bind {m : Eng (ρ × ω) A α} {m' : Eng ρ A α} {f : α → Eng (ρ × ω) A β} {f' : α → Eng ρ A β} (h : Sim m m')
    (hf : ∀ a, Sim (f a) (f' a)) : Sim (m >>= f) (m' >>= f') := by
  intro s
  show Eng.bind m' f' s.forget = ((Eng.bind m f s).1, (Eng.bind m f s).2.forget)
  unfold Eng.bind
  rw [h s]
  cases hm : m s with
  | mk o s1 =>
    cases o with
    | ok a => exact hf a s1
    | _ => rfl

theorem Sim.pure (a : α) : Sim (pure a : Eng (ρ × ω) A α) (pure a : Eng ρ A α) := fun _ => rfl

theorem Sim.throw (e : Exn) : Sim (Eng.throw e : Eng (ρ × ω) A α) (Eng.throw e) := fun _ => rfl

theorem Sim.tryCatch {m : Eng (ρ × ω) A α} {m' : Eng ρ A α} {f : Exn → Eng (ρ × ω) A α} {f' : Exn → Eng ρ A α}
    (h : Sim m m') (hf : ∀ e, Sim (f e) (f' e)) : Sim (Eng.tryCatch m f) (Eng.tryCatch m' f') := by
  intro s
  unfold Eng.tryCatch
  rw [h s]
  cases hm : m s with
  | mk o s1 =>
    cases o with
    | throws e => exact hf e s1
    | _ => rfl

theorem Sim.catchStd {m m1 : Eng (ρ × ω) A α} {m' m1' : Eng ρ A α} (h : Sim m m') (h1 : Sim m1 m1') :
    Sim (Eng.catchStd m m1) (Eng.catchStd m' m1') := by
  refine h.tryCatch fun e => ?_
  split_ifs
  · exact h1
  · exact Sim.throw e

theorem Sim.withContext {m : Eng (ρ × ω) A α} {m' : Eng ρ A α} (h : Sim m m') :
    Sim (Eng.withContext m) (Eng.withContext m') := by
  intro s
  have := h { s with fails := [] }
  unfold Eng.withContext
  dsimp only
  rw [show ({ s.forget with fails := [] } : St ρ A) = ({ s with fails := [] } : St (ρ × ω) A).forget from rfl, this]
  rfl

theorem Sim.record (ev : Ev α) (x : Event A) : Sim (record ev x : Eng (ρ × ω) A α) (record ev x) := fun _ => rfl


theorem sim_shrinkParts {c : Cfg (ρ × ω) A} {c' : Cfg ρ A} (h : SameBut c c') (ph : Phase) :
    Sim (runStartup c ph) (runStartup c' ph) ∧ Sim (runCleanup c ph) (runCleanup c' ph) ∧
      ∀ args, Sim (callFunc c ph args) (callFunc c' ph args) := by
  refine ⟨?_, ?_, ?_⟩
  · intro s
    unfold runStartup
    rw [h.startup]
    split <;> rfl
  · intro s
    unfold runCleanup
    rw [h.cleanup]
    split <;> rfl
  · intro args s
    unfold callFunc
    rw [h.func]
    rfl

theorem sim_test {c : Cfg (ρ × ω) A} {c' : Cfg ρ A} (h : SameBut c c') (vals : Tup A) (N : Fin n) (next : Shr (A N)) :
    Sim (test c vals N next) (test c' vals N next) := by
  obtain ⟨h1, h2, h3⟩ := sim_shrinkParts h .shrink
  exact Sim.catchStd (h1.bind fun _ => (h3 _).bind fun _ => h2.bind fun _ => Sim.pure _) (Sim.pure _)

mutual
theorem sim_shrinkN {c : Cfg (ρ × ω) A} {c' : Cfg ρ A} (h : SameBut c c') (N : Fin n) :
    ∀ (t : Shr (A N)) (vals : Tup A), Sim (shrinkN c vals N t) (shrinkN c' vals N t)
  | .node v shrinks, vals => by
    intro s
    rw [shrinkN, shrinkN]
    exact sim_shrinkNIter h N shrinks vals s.fails { s with fails := [] }
theorem sim_shrinkNIter {c : Cfg (ρ × ω) A} {c' : Cfg ρ A} (h : SameBut c c') (N : Fin n) :
    ∀ (ts : List (Shr (A N))) (vals : Tup A) (outer : List String),
      Sim (shrinkNIter c vals N outer ts) (shrinkNIter c' vals N outer ts)
  | [], vals, outer => by
    intro s
    rw [shrinkNIter, shrinkNIter]
    rfl
  | next :: rest, vals, outer => by
    intro s
    rw [shrinkNIter, shrinkNIter]
    dsimp only
    have ht := sim_test h vals N next s
    rw [ht]
    cases hm : test c vals N next s with
    | mk o s1 =>
      cases o with
      | ok b =>
        dsimp only
        have e : s1.forget.fails = s1.fails := rfl
        rw [e]
        split
        · exact sim_shrinkN h N next (Function.update vals N next) { s1 with fails := outer }
        · exact sim_shrinkNIter h N rest vals outer s1
      | _ => rfl
end

theorem sim_shrinkEach {c : Cfg (ρ × ω) A} {c' : Cfg ρ A} (h : SameBut c c') (order : List (Fin n)) :
    ∀ vals, Sim (shrinkEach c order vals) (shrinkEach c' order vals) := by
  induction order with
  | nil => intro vals; exact Sim.pure _
  | cons N rest ih =>
    intro vals
    exact Sim.bind (sim_shrinkN h N (vals N) vals) fun v => ih v

/-! ### Draws -/

theorem drawInto_forget {c : Cfg (ρ × ω) A} {c' : Cfg ρ A} (h : SameBut c c') (order : List (Fin n)) :
    ∀ acc (s : ρ × ω), Gen.drawInto c'.gens order acc s.1 =
      match Gen.drawInto c.gens order acc s with
      | .ok (a, s') => .ok (a, s'.1)
      | .throws e => .throws e
      | .ub => .ub
      | .diverges => .diverges := by
  induction order with
  | nil => intro acc s; rfl
  | cons i is ih =>
    intro acc s
    obtain ⟨r, w⟩ := s
    simp only [Gen.drawInto]
    have hg := h.gens i r w
    cases hc : c.gens i (r, w) with
    | ok x =>
      obtain ⟨t, s'⟩ := x
      rw [hc] at hg
      rw [hg]
      exact ih _ s'
    | throws e => rw [hc] at hg; rw [hg]; rfl
    | ub => rw [hc] at hg; rw [hg]; rfl
    | diverges => rw [hc] at hg; rw [hg]; rfl

theorem drawTuple_forget {c : Cfg (ρ × ω) A} {c' : Cfg ρ A} (h : SameBut c c') (order : List (Fin n)) (s : ρ × ω) :
    Gen.drawTuple c'.gens order s.1 =
      match Gen.drawTuple c.gens order s with
      | .ok (a, s') => .ok (a, s'.1)
      | .throws e => .throws e
      | .ub => .ub
      | .diverges => .diverges := by
  unfold Gen.drawTuple
  rw [drawInto_forget h order _ s]
  cases Gen.drawInto c.gens order (fun _ => none) s with
  | ok x =>
    obtain ⟨a, s'⟩ := x
    dsimp only [Bind.bind, Outcome.bind]
    split_ifs <;> rfl
  | _ => rfl

theorem sim_drawRun {c : Cfg (ρ × ω) A} {c' : Cfg ρ A} (h : SameBut c c') : Sim (drawRun c) (drawRun c') := by
  intro s
  unfold drawRun
  rw [show s.forget.rand = s.rand.1 from rfl, h.orderRun, drawTuple_forget h c.orderRun s.rand]
  cases Gen.drawTuple c.gens c.orderRun s.rand with
  | ok x => rfl
  | throws e =>
    dsimp only
    rw [h.thrown s.rand.1 s.rand.2]
    rfl
  | _ => rfl

theorem sim_drawAgain {c : Cfg (ρ × ω) A} {c' : Cfg ρ A} (h : SameBut c c') : Sim (drawAgain c) (drawSaved c') := by
  intro s
  unfold drawAgain drawSaved
  have hd := drawTuple_forget h c.orderShrink (s.saved.1, s.rand.2)
  dsimp only at hd
  rw [show s.forget.saved = s.saved.1 from rfl, h.orderShrink, hd]
  cases Gen.drawTuple c.gens c.orderShrink (s.saved.1, s.rand.2) with
  | ok x => rfl
  | throws e =>
    dsimp only
    rw [h.thrown s.saved.1 s.rand.2]
    rfl
  | _ => rfl

/-! ### The loops -/

theorem sim_shrink {c : Cfg (ρ × ω) A} {c' : Cfg ρ A} (h : SameBut c c') :
    Sim (shrinkWith (drawAgain c) c) (shrink c') := by
  unfold shrinkWith shrink
  refine Sim.bind (fun _ => rfl) fun i => (sim_drawAgain h).bind fun start => ?_
  rw [h.orderEach]
  exact (sim_shrinkEach h _ start).bind fun _ => Sim.pure _

theorem sim_attempt {c : Cfg (ρ × ω) A} {c' : Cfg ρ A} (h : SameBut c c') :
    Sim (attemptWith (drawAgain c) c) (attempt c') := by
  obtain ⟨h1, h2, h3⟩ := sim_shrinkParts h .run
  unfold attemptWith attempt
  refine Sim.bind (fun _ => rfl) fun _ => h1.bind fun _ => Sim.bind ?_ fun result => h2.bind fun _ =>
    Sim.bind (fun _ => rfl) fun failures => ?_
  · unfold invokeWithGenTuple assertToProperty
    refine (sim_drawRun h).bind fun ts => (h3 _).tryCatch fun e => ?_
    split_ifs
    · exact Sim.throw _
    · exact Sim.throw _
  · split_ifs
    · exact (sim_shrink h).bind fun _ => Sim.pure _
    · exact (sim_shrink h).bind fun _ => Sim.pure _
    · exact Sim.pure _

theorem sim_guarded {c : Cfg (ρ × ω) A} {c' : Cfg ρ A} (h : SameBut c c') :
    Sim (guardedWith (drawAgain c) c) (guarded c') := by
  refine (sim_attempt h).tryCatch fun e => ?_
  split_ifs
  · exact Sim.pure _
  · exact Sim.pure _
  · exact Sim.throw _

theorem sim_doWhile {c : Cfg (ρ × ω) A} {c' : Cfg ρ A} (h : SameBut c c') (fuel : Nat) :
    Sim (doWhileWith (drawAgain c) c fuel) (doWhile c' fuel) := by
  induction fuel with
  | zero => exact fun _ => rfl
  | succ fuel ih =>
    refine (sim_guarded h).bind fun v => ?_
    cases v with
    | pass => exact Sim.pure _
    | again => exact ih
    | stop r => exact Sim.pure _

theorem sim_forLoop {c : Cfg (ρ × ω) A} {c' : Cfg ρ A} (h : SameBut c c') (fuel left : Nat) :
    Sim (forLoopWith (drawAgain c) c fuel left) (forLoop c' fuel left) := by
  induction left with
  | zero => exact Sim.pure _
  | succ left ih =>
    unfold forLoopWith forLoop
    rw [h.clock, h.maxDurationMs]
    refine Sim.bind (fun _ => rfl) fun elapsed => ?_
    split_ifs
    · exact fun _ => rfl
    · refine (sim_doWhile h fuel).bind fun v => ?_
      cases v with
      | none => exact Sim.bind (fun _ => rfl) fun _ => ih
      | some r => exact Sim.pure _

theorem forAllOwn_forget {c : Cfg (ρ × ω) A} {c' : Cfg ρ A} (h : SameBut c c') (fuel : Nat) (seed : ρ) (own : ω)
    (tr : Trace A) : forAllOwn c fuel seed own tr = forAll c' fuel seed tr := by
  have hs : Sim (runForAllWith (drawAgain c) c fuel) (runForAll c' fuel) := by
    unfold runForAllWith runForAll
    rw [h.numRuns]
    exact Sim.withContext (Sim.catchStd (sim_forLoop h fuel _) (sim_shrink h))
  have := hs ⟨(seed, own), (seed, own), 0, [], tr⟩
  unfold forAllOwn forAll
  dsimp only
  rw [show (⟨seed, seed, 0, [], tr⟩ : St ρ A) = (⟨(seed, own), (seed, own), 0, [], tr⟩ : St (ρ × ω) A).forget from rfl, this]
  rfl

end Engine
end Verif
