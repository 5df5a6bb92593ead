import Verif.Spec.Property
import Verif.Spec.Greedy
import Verif.Lemmas.Tree
import Verif.Lemmas.PairTuple
/-
Helper lemmas about the property engine.
-/
namespace Verif
namespace Engine
open PairTuple
variable {n : Nat} {A : Fin n → Type} {σ : Type} {α β : Type}

theorem Eng.pure_apply (a : α) (s : St σ A) : (pure a : Eng σ A α) s = (.ok a, s) := rfl

theorem Eng.bind_apply (m : Eng σ A α) (f : α → Eng σ A β) (s : St σ A) :
    (m >>= f) s = match m s with
      | (.ok a, s') => f a s'
      | (.throws e, s') => (.throws e, s')
      | (.ub, s') => (.ub, s')
      | (.diverges, s') => (.diverges, s') := rfl

theorem Eng.bind_ok {m : Eng σ A α} {f : α → Eng σ A β} {s s' : St σ A} {a : α} (h : m s = (.ok a, s')) :
    (m >>= f) s = f a s' := by rw [Eng.bind_apply, h]

theorem Eng.bind_throws {m : Eng σ A α} {f : α → Eng σ A β} {s s' : St σ A} {e : Exn}
    (h : m s = (.throws e, s')) : (m >>= f) s = (.throws e, s') := by rw [Eng.bind_apply, h]

@[simp] theorem calls_append (ph : Phase) (new tr : Trace A) :
    calls ph (new ++ tr) = calls ph tr ++ calls ph new := by
  simp [calls, List.filterMap_append]

@[simp] theorem calls_nil (ph : Phase) : calls ph ([] : Trace A) = [] := rfl

theorem calls_cons (ph : Phase) (x : Event A) (tr : Trace A) :
    calls ph (x :: tr) = calls ph tr ++ (Event.call? ph x).toList := by
  unfold calls
  simp only [List.reverse_cons, List.filterMap_append]
  cases h : Event.call? ph x <;> simp [h]

/-! ### Frames: user functions without memory -/

/-- `m` neither reads nor drops the history: started on another history it does the same and adds the same
events. -/
def Frame (m : Eng σ A α) : Prop :=
  ∀ s : St σ A, ∃ (o : Outcome α) (s' : St σ A) (new : Trace A),
    ∀ tr, m { s with trace := tr } = (o, { s' with trace := new ++ tr })

theorem Frame.pure (a : α) : Frame (pure a : Eng σ A α) := fun s => ⟨.ok a, s, [], fun _ => rfl⟩

theorem Frame.throw (e : Exn) : Frame (Eng.throw e : Eng σ A α) := fun s => ⟨.throws e, s, [], fun _ => rfl⟩

theorem Frame.bind {m : Eng σ A α} {f : α → Eng σ A β} (hm : Frame m) (hf : ∀ a, Frame (f a)) :
    Frame (m >>= f) := by
  intro s
  obtain ⟨o, s1, new, h⟩ := hm s
  cases o with
  | ok a =>
    obtain ⟨o2, s2, new2, h2⟩ := hf a s1
    exact ⟨o2, s2, new2 ++ new, fun tr => by rw [Eng.bind_apply, h]; simp only [h2, List.append_assoc]⟩
  | throws e => exact ⟨.throws e, s1, new, fun tr => by rw [Eng.bind_apply, h]⟩
  | ub => exact ⟨.ub, s1, new, fun tr => by rw [Eng.bind_apply, h]⟩
  | diverges => exact ⟨.diverges, s1, new, fun tr => by rw [Eng.bind_apply, h]⟩

theorem Frame.tryCatch {m : Eng σ A α} {k : Exn → Eng σ A α} (hm : Frame m) (hk : ∀ e, Frame (k e)) :
    Frame (Eng.tryCatch m k) := by
  intro s
  obtain ⟨o, s1, new, h⟩ := hm s
  cases o with
  | throws e =>
    obtain ⟨o2, s2, new2, h2⟩ := hk e s1
    exact ⟨o2, s2, new2 ++ new, fun tr => by simp only [Eng.tryCatch, h, h2, List.append_assoc]⟩
  | ok a => exact ⟨.ok a, s1, new, fun tr => by simp only [Eng.tryCatch, h]⟩
  | ub => exact ⟨.ub, s1, new, fun tr => by simp only [Eng.tryCatch, h]⟩
  | diverges => exact ⟨.diverges, s1, new, fun tr => by simp only [Eng.tryCatch, h]⟩

theorem Frame.catchStd {m k : Eng σ A α} (hm : Frame m) (hk : Frame k) : Frame (Eng.catchStd m k) := by
  refine Frame.tryCatch hm fun e => ?_
  by_cases h : e.isStd <;> simp only [h, if_true]
  · exact hk
  · exact Frame.throw e

theorem Frame.withContext {m : Eng σ A α} (hm : Frame m) : Frame (Eng.withContext m) := by
  intro s
  obtain ⟨o, s1, new, h⟩ := hm { s with fails := [] }
  refine ⟨o, { s1 with fails := s.fails }, new, fun tr => ?_⟩
  have := h tr
  simp only at this
  simp only [Eng.withContext, this]

/-- The hooks have no memory. -/
def MemHook (h : Option (Trace A → Ev Unit)) : Prop := ∀ k, h = some k → ∀ tr tr', k tr = k tr'

theorem frame_runStartup {c : Cfg σ A} (h : MemHook c.startup) (ph : Phase) : Frame (runStartup c ph) := by
  intro s
  unfold runStartup
  cases hk : c.startup with
  | none => exact ⟨.ok (), s, [], fun _ => rfl⟩
  | some k =>
    refine ⟨(k []).out, { s with fails := s.fails ++ (k []).fails }, [.startup ph (k [])], fun tr => ?_⟩
    simp only [record, h k hk tr [], List.singleton_append]

theorem frame_runCleanup {c : Cfg σ A} (h : MemHook c.cleanup) (ph : Phase) : Frame (runCleanup c ph) := by
  intro s
  unfold runCleanup
  cases hk : c.cleanup with
  | none => exact ⟨.ok (), s, [], fun _ => rfl⟩
  | some k =>
    refine ⟨(k []).out, { s with fails := s.fails ++ (k []).fails }, [.cleanup ph (k [])], fun tr => ?_⟩
    simp only [record, h k hk tr [], List.singleton_append]

theorem frame_callFunc {c : Cfg σ A} {f : Args A → Ev Bool} (h : c.Pure f) (ph : Phase) (args : Args A) :
    Frame (callFunc c ph args) := by
  intro s
  refine ⟨(f args).out, { s with fails := s.fails ++ (f args).fails }, [.call ph args (f args)], fun tr => ?_⟩
  simp only [callFunc, record, h tr args, List.singleton_append]

theorem frame_drawRun (c : Cfg σ A) : Frame (drawRun c) := by
  intro s
  unfold drawRun
  cases h : Gen.drawTuple c.gens c.orderRun s.rand with
  | ok r => exact ⟨.ok r.1, { s with rand := r.2 }, [], fun tr => by simp only [h]; rfl⟩
  | throws e => exact ⟨.throws e, { s with rand := c.thrown s.rand }, [.genThrew .run e], fun tr => by simp only [h]; rfl⟩
  | ub => exact ⟨.ub, s, [], fun tr => by simp only [h]; rfl⟩
  | diverges => exact ⟨.diverges, s, [], fun tr => by simp only [h]; rfl⟩

theorem frame_drawSaved (c : Cfg σ A) : Frame (drawSaved c) := by
  intro s
  unfold drawSaved
  cases h : Gen.drawTuple c.gens c.orderShrink s.saved with
  | ok r => exact ⟨.ok r.1, { s with saved := r.2 }, [], fun tr => by simp only [h]; rfl⟩
  | throws e => exact ⟨.throws e, { s with saved := c.thrown s.saved }, [.genThrew .shrink e], fun tr => by simp only [h]; rfl⟩
  | ub => exact ⟨.ub, s, [], fun tr => by simp only [h]; rfl⟩
  | diverges => exact ⟨.diverges, s, [], fun tr => by simp only [h]; rfl⟩

theorem frame_assertToProperty {m : Eng σ A α} (h : Frame m) : Frame (assertToProperty m) := by
  refine Frame.tryCatch h fun e => ?_
  by_cases he : e = .assertFailed <;> simp only [he, if_true, if_false] <;> exact Frame.throw _

/-- The user functions of the property have no memory. -/
structure NoMemory (c : Cfg σ A) (f : Args A → Ev Bool) : Prop where
  func : c.Pure f
  startup : MemHook c.startup
  cleanup : MemHook c.cleanup

section
variable {c : Cfg σ A} {f : Args A → Ev Bool} (hc : NoMemory c f)
include hc

theorem frame_test (vals : Tup A) (N : Fin n) (next : Shr (A N)) : Frame (test c vals N next) :=
  Frame.catchStd
    (Frame.bind (frame_runStartup hc.startup _) fun _ =>
      Frame.bind (frame_callFunc hc.func _ _) fun _ =>
        Frame.bind (frame_runCleanup hc.cleanup _) fun _ => Frame.pure _) (Frame.pure _)

mutual
theorem frame_shrinkN (vals : Tup A) (N : Fin n) :
    ∀ t : Shr (A N), Frame (Eng.mk (shrinkN c vals N t))
  | .node v ss => by
    intro s
    obtain ⟨o, s', new, h⟩ := frame_shrinkNIter vals N s.fails ss { s with fails := [] }
    exact ⟨o, s', new, fun tr => by unfold Eng.mk; rw [shrinkN]; exact h tr⟩
theorem frame_shrinkNIter (vals : Tup A) (N : Fin n) (outer : List String) :
    ∀ ss : List (Shr (A N)), Frame (Eng.mk (shrinkNIter c vals N outer ss))
  | [] => fun s => ⟨.ok vals, { s with fails := outer }, [], fun tr => by unfold Eng.mk; rw [shrinkNIter]; rfl⟩
  | next :: rest => by
    intro s
    obtain ⟨o, s1, new, h⟩ := frame_test hc vals N next s
    cases o with
    | ok result =>
      by_cases hb : (!result || !s1.fails.isEmpty) = true
      · obtain ⟨o2, s2, new2, h2⟩ :=
          frame_shrinkN (Function.update vals N next) N next { s1 with fails := outer }
        refine ⟨o2, s2, new2 ++ new, fun tr => ?_⟩
        unfold Eng.mk; rw [shrinkNIter]
        simp only [h]
        rw [if_pos hb]
        have := h2 (new ++ tr)
        simp only at this
        rw [List.append_assoc]; exact this
      · obtain ⟨o2, s2, new2, h2⟩ := frame_shrinkNIter vals N outer rest s1
        refine ⟨o2, s2, new2 ++ new, fun tr => ?_⟩
        unfold Eng.mk; rw [shrinkNIter]
        simp only [h]
        rw [if_neg hb]
        have := h2 (new ++ tr)
        rw [List.append_assoc]; exact this
    | throws e => exact ⟨.throws e, { s1 with fails := outer }, new, fun tr => by unfold Eng.mk; rw [shrinkNIter]; simp only [h]⟩
    | ub => exact ⟨.ub, { s1 with fails := outer }, new, fun tr => by unfold Eng.mk; rw [shrinkNIter]; simp only [h]⟩
    | diverges => exact ⟨.diverges, { s1 with fails := outer }, new, fun tr => by unfold Eng.mk; rw [shrinkNIter]; simp only [h]⟩
end

theorem frame_shrinkEach : ∀ (order : List (Fin n)) (vals : Tup A), Frame (shrinkEach c order vals)
  | [], vals => Frame.pure vals
  | N :: rest, vals => by
    rw [shrinkEach]
    exact Frame.bind (frame_shrinkN hc vals N _) fun v => frame_shrinkEach rest v

theorem frame_shrink : Frame (shrink c) := by
  unfold shrink
  refine Frame.bind (fun s => ⟨.ok s.i, s, [], fun _ => rfl⟩) fun i => ?_
  refine Frame.bind (frame_drawSaved c) fun start => ?_
  exact Frame.bind (frame_shrinkEach hc _ _) fun _ => Frame.pure _

theorem frame_attempt : Frame (attempt c) := by
  unfold attempt
  refine Frame.bind (fun s => ⟨.ok (), { s with saved := s.rand }, [], fun _ => rfl⟩) fun _ => ?_
  refine Frame.bind (frame_runStartup hc.startup _) fun _ => ?_
  refine Frame.bind (Frame.bind (frame_drawRun c) fun _ =>
    frame_assertToProperty (frame_callFunc hc.func _ _)) fun result => ?_
  refine Frame.bind (frame_runCleanup hc.cleanup _) fun _ => ?_
  refine Frame.bind (fun s => ⟨.ok s.fails, { s with fails := [] }, [], fun _ => rfl⟩) fun fs => ?_
  split
  · exact Frame.bind (frame_shrink hc) fun _ => Frame.pure _
  · split
    · exact Frame.bind (frame_shrink hc) fun _ => Frame.pure _
    · exact Frame.pure _

theorem frame_guarded : Frame (guarded c) := by
  refine Frame.tryCatch (frame_attempt hc) fun e => ?_
  split
  · exact Frame.pure _
  · split
    · exact Frame.pure _
    · exact Frame.throw _

theorem frame_doWhile : ∀ fuel, Frame (doWhile c fuel)
  | 0 => fun s => ⟨.diverges, s, [], fun _ => rfl⟩
  | fuel + 1 => by
    rw [doWhile]
    refine Frame.bind (frame_guarded hc) fun v => ?_
    cases v with
    | pass => exact Frame.pure _
    | again => exact frame_doWhile fuel
    | stop r => exact Frame.pure _

theorem frame_forLoop (h0 : c.maxDurationMs = 0) (fuel : Nat) : ∀ left, Frame (forLoop c fuel left)
  | 0 => Frame.pure _
  | left + 1 => by
    have e : forLoop c fuel (left + 1) = (do
        let v ← doWhile c fuel
        match v with
        | some r => pure r
        | none => do
          Eng.modify (fun s => { s with i := s.i + 1 })
          forLoop c fuel left) := by
      funext s
      rw [forLoop]
      show (if _ then _ else _ : Eng σ A (Report A)) s = _
      rw [if_neg (fun h => h.1 h0)]
      rfl
    rw [e]
    refine Frame.bind (frame_doWhile hc fuel) fun v => ?_
    cases v with
    | some r => exact Frame.pure _
    | none =>
      exact Frame.bind (fun s => ⟨.ok (), { s with i := s.i + 1 }, [], fun _ => rfl⟩) fun _ =>
        frame_forLoop h0 fuel left

theorem frame_runForAll (h0 : c.maxDurationMs = 0) (fuel : Nat) : Frame (runForAll c fuel) :=
  Frame.withContext (Frame.catchStd (frame_forLoop hc h0 fuel _) (frame_shrink hc))

end

end Engine
end Verif
