import Verif.Lemmas.PropertyRun
import Verif.Spec.Cost
/-
Helper lemmas about the loops of the property engine.
-/
namespace Verif

mutual
theorem Shr.cost_lt_values {α : Type} : ∀ t : Shr α, t.cost < t.values.length
  | .node v ss => by
    have := Shr.costList_le_values ss
    rw [Shr.cost, Shr.values, List.length_cons]; omega
theorem Shr.costList_le_values {α : Type} : ∀ ss : List (Shr α), Shr.costList ss ≤ (Shr.valuesList ss).length
  | [] => by simp [Shr.costList]
  | s :: ss => by
    have h1 := Shr.cost_lt_values s
    have h2 := Shr.costList_le_values ss
    rw [Shr.costList, Shr.valuesList, List.length_append]; omega
end

theorem Shr.cost_le_values {α : Type} (t : Shr α) : t.cost ≤ t.values.length - 1 := by
  have := t.cost_lt_values; omega

namespace Engine
open PairTuple
variable {n : Nat} {A : Fin n → Type} {σ : Type} {α β : Type}

/-! ### The shrink phase does not run, and is bounded -/

/-- `m` belongs to the shrink phase: it makes at most `k` calls of the property function, all of them of the
shrink phase, leaves `rand`, `i` alone, keeps the history, and lets no `std::exception` out. -/
structure Bounded (k : Nat) (s : St σ A) (o : Outcome α) (s' : St σ A) : Prop where
  rand : s'.rand = s.rand
  i : s'.i = s.i
  runs : calls .run s'.trace = calls .run s.trace
  count : (calls .shrink s'.trace).length ≤ (calls .shrink s.trace).length + k
  foreign : ∀ e, o = .throws e → e.isStd = false

theorem Bounded.mono {k k' : Nat} {s s' : St σ A} {o : Outcome α} (h : Bounded k s o s') (hk : k ≤ k') :
    Bounded k' s o s' := ⟨h.rand, h.i, h.runs, Nat.le_trans h.count (by omega), h.foreign⟩

theorem Bounded.trans {k1 k2 : Nat} {s s1 s2 : St σ A} {o : Outcome α} {o2 : Outcome β} (h : Bounded k1 s o s1)
    (h2 : Bounded k2 s1 o2 s2) : Bounded (k1 + k2) s o2 s2 :=
  ⟨h2.rand.trans h.rand, h2.i.trans h.i, h2.runs.trans h.runs, by have := h.count; have := h2.count; omega,
    h2.foreign⟩

theorem calls_length_cons (ph : Phase) (x : Event A) (tr : Trace A) :
    (calls ph (x :: tr)).length ≤ (calls ph tr).length + 1 := by
  rw [calls_cons]
  cases Event.call? ph x <;> simp

theorem test_bounded (c : Cfg σ A) (vals : Tup A) (N : Fin n) (next : Shr (A N)) (s : St σ A) :
    Bounded 1 s (test c vals N next s).1 (test c vals N next s).2 := by
  have hs : ∀ s : St σ A, (runStartup c .shrink s).2.rand = s.rand ∧ (runStartup c .shrink s).2.i = s.i ∧
      ∀ ph, calls ph (runStartup c .shrink s).2.trace = calls ph s.trace := by
    intro s
    unfold runStartup
    cases c.startup with
    | none => exact ⟨rfl, rfl, fun _ => rfl⟩
    | some k => refine ⟨rfl, rfl, fun ph => ?_⟩; simp [record, calls_cons, Event.call?]
  have hcl : ∀ s : St σ A, (runCleanup c .shrink s).2.rand = s.rand ∧ (runCleanup c .shrink s).2.i = s.i ∧
      ∀ ph, calls ph (runCleanup c .shrink s).2.trace = calls ph s.trace := by
    intro s
    unfold runCleanup
    cases c.cleanup with
    | none => exact ⟨rfl, rfl, fun _ => rfl⟩
    | some k => refine ⟨rfl, rfl, fun ph => ?_⟩; simp [record, calls_cons, Event.call?]
  have hf : ∀ a (s : St σ A), (callFunc c .shrink a s).2.rand = s.rand ∧ (callFunc c .shrink a s).2.i = s.i ∧
      calls .run (callFunc c .shrink a s).2.trace = calls .run s.trace ∧
      (calls .shrink (callFunc c .shrink a s).2.trace).length ≤ (calls .shrink s.trace).length + 1 := by
    intro a s
    rw [callFunc_apply]
    exact ⟨rfl, rfl, by simp [calls_cons, Event.call?], calls_length_cons _ _ _⟩
  -- the state is right whatever happens, the outcome is filtered by the handler
  have key : ∀ (o : Outcome Bool) (s1 : St σ A), s1.rand = s.rand → s1.i = s.i →
      calls .run s1.trace = calls .run s.trace →
      (calls .shrink s1.trace).length ≤ (calls .shrink s.trace).length + 1 →
      Bounded 1 s
        (Eng.catchStd (Eng.mk fun _ => (o, s1)) (pure false) s).1
        (Eng.catchStd (Eng.mk fun _ => (o, s1)) (pure false) s).2 := by
    intro o s1 h1 h2 h3 h4
    unfold Eng.catchStd Eng.tryCatch Eng.mk
    cases o with
    | throws e =>
      by_cases he : e.isStd
      · simp only [he, if_true, Eng.pure_apply]
        exact ⟨h1, h2, h3, h4, fun e h => (by cases h)⟩
      · simp only [he]
        refine ⟨h1, h2, h3, h4, fun e' h => ?_⟩
        cases h
        simpa using he
    | ok b => exact ⟨h1, h2, h3, h4, fun e h => (by cases h)⟩
    | ub => exact ⟨h1, h2, h3, h4, fun e h => (by cases h)⟩
    | diverges => exact ⟨h1, h2, h3, h4, fun e h => (by cases h)⟩
  unfold test Eng.catchStd Eng.tryCatch
  generalize hm : ((do
    runStartup c .shrink
    let result ← callFunc c .shrink (Function.update (Tup.get vals) N next.value)
    runCleanup c .shrink
    pure result : Eng σ A Bool) s) = r
  have hr : r.2.rand = s.rand ∧ r.2.i = s.i ∧ calls .run r.2.trace = calls .run s.trace ∧
      (calls .shrink r.2.trace).length ≤ (calls .shrink s.trace).length + 1 := by
    rw [← hm, Eng.bind_apply]
    have h1 := hs s
    cases e1 : runStartup c .shrink s with
    | mk o1 s1 =>
      rw [e1] at h1
      obtain ⟨a1, a2, a3⟩ := h1
      simp only at a1 a2 a3
      have l0 : (calls .shrink s1.trace).length ≤ (calls .shrink s.trace).length + 1 := by rw [a3]; omega
      cases o1 with
      | throws e => exact ⟨a1, a2, a3 _, l0⟩
      | ub => exact ⟨a1, a2, a3 _, l0⟩
      | diverges => exact ⟨a1, a2, a3 _, l0⟩
      | ok u =>
        simp only
        rw [Eng.bind_apply]
        have h2 := hf (Function.update (Tup.get vals) N next.value) s1
        cases e2 : callFunc c .shrink (Function.update (Tup.get vals) N next.value) s1 with
        | mk o2 s2 =>
          rw [e2] at h2
          obtain ⟨b1, b2, b3, b4⟩ := h2
          simp only at b1 b2 b3 b4
          rw [a1] at b1; rw [a2] at b2; rw [a3] at b3 b4
          cases o2 with
          | throws e => exact ⟨b1, b2, b3, b4⟩
          | ub => exact ⟨b1, b2, b3, b4⟩
          | diverges => exact ⟨b1, b2, b3, b4⟩
          | ok b =>
            simp only
            rw [Eng.bind_apply]
            have h3 := hcl s2
            cases e3 : runCleanup c .shrink s2 with
            | mk o3 s3 =>
              rw [e3] at h3
              obtain ⟨c1, c2, c3⟩ := h3
              simp only at c1 c2 c3
              rw [b1] at c1; rw [b2] at c2
              have hh : s3.rand = s.rand ∧ s3.i = s.i ∧ calls .run s3.trace = calls .run s.trace ∧
                  (calls .shrink s3.trace).length ≤ (calls .shrink s.trace).length + 1 :=
                ⟨c1, c2, by rw [c3, b3], by rw [c3]; exact b4⟩
              cases o3 <;> exact hh
  obtain ⟨o, s1⟩ := r
  exact key o s1 hr.1 hr.2.1 hr.2.2.1 hr.2.2.2

section
variable (c : Cfg σ A)

mutual
theorem shrinkN_bounded (vals : Tup A) (N : Fin n) : ∀ (t : Shr (A N)) (s : St σ A),
    Bounded t.cost s (shrinkN c vals N t s).1 (shrinkN c vals N t s).2
  | .node v ss, s => by
    rw [shrinkN, Shr.cost]
    have h := shrinkNIter_bounded vals N s.fails ss { s with fails := [] }
    exact ⟨h.rand, h.i, h.runs, h.count, h.foreign⟩
theorem shrinkNIter_bounded (vals : Tup A) (N : Fin n) (outer : List String) :
    ∀ (ss : List (Shr (A N))) (s : St σ A),
      Bounded (Shr.costList ss) s (shrinkNIter c vals N outer ss s).1 (shrinkNIter c vals N outer ss s).2
  | [], s => by
    rw [shrinkNIter]
    exact ⟨rfl, rfl, rfl, by simp, fun e h => (by cases h)⟩
  | next :: rest, s => by
    rw [shrinkNIter, Shr.costList]
    have ht := test_bounded c vals N next s
    beta_reduce
    cases hm : test c vals N next s with
    | mk o s1 =>
      rw [hm] at ht
      cases o with
      | throws e => exact ⟨ht.rand, ht.i, ht.runs, by have := ht.count; simp only at this ⊢; omega,
          fun e' h => by cases h; exact ht.foreign e rfl⟩
      | ub => exact ⟨ht.rand, ht.i, ht.runs, by have := ht.count; simp only at this ⊢; omega,
          fun e' h => (by cases h)⟩
      | diverges => exact ⟨ht.rand, ht.i, ht.runs, by have := ht.count; simp only at this ⊢; omega,
          fun e' h => (by cases h)⟩
      | ok result =>
        simp only
        split
        · have ih := shrinkN_bounded (Function.update vals N next) N next { s1 with fails := outer }
          have ih' : Bounded next.cost s1 _ _ := ⟨ih.rand, ih.i, ih.runs, ih.count, ih.foreign⟩
          exact (ht.trans ih').mono (by omega)
        · exact (ht.trans (shrinkNIter_bounded vals N outer rest s1)).mono (by omega)
end

end

theorem shrinkN_others (c : Cfg σ A) (N : Fin n) : ∀ (t : Shr (A N)) (vals : Tup A) (s : St σ A) (vals' : Tup A)
    (s' : St σ A), shrinkN c vals N t s = (.ok vals', s') → ∀ j, j ≠ N → vals' j = vals j := by
  intro t
  refine Shr.rec (motive_1 := fun t => ∀ (vals : Tup A) (s : St σ A) (vals' : Tup A)
      (s' : St σ A), shrinkN c vals N t s = (.ok vals', s') → ∀ j, j ≠ N → vals' j = vals j)
    (motive_2 := fun ss => ∀ (vals : Tup A) (outer) (s : St σ A) (vals' : Tup A)
      (s' : St σ A), shrinkNIter c vals N outer ss s = (.ok vals', s') → ∀ j, j ≠ N → vals' j = vals j) ?_ ?_ ?_ t
  · intro v ss ih vals s vals' s' h
    rw [shrinkN] at h
    exact ih vals _ _ vals' s' h
  · intro vals outer s vals' s' h j _
    rw [shrinkNIter] at h
    cases h
    rfl
  · intro next rest ih1 ih2 vals outer s vals' s' h j hj
    rw [shrinkNIter] at h
    beta_reduce at h
    cases hm : test c vals N next s with
    | mk o s1 =>
      rw [hm] at h
      cases o with
      | throws e => simp at h
      | ub => simp at h
      | diverges => simp at h
      | ok result =>
        simp only at h
        split at h
        · rw [ih1 _ _ vals' s' h j hj]; simp [hj]
        · exact ih2 _ _ _ vals' s' h j hj

theorem shrinkEach_bounded (c : Cfg σ A) : ∀ (order : List (Fin n)) (_ : order.Nodup) (vals : Tup A) (s : St σ A),
    Bounded ((order.map (fun N => (vals N).cost)).sum) s (shrinkEach c order vals s).1
      (shrinkEach c order vals s).2
  | [], _, vals, s => ⟨rfl, rfl, rfl, by simp [shrinkEach, Eng.pure_apply], fun e h => by
      rw [shrinkEach, Eng.pure_apply] at h; cases h⟩
  | M :: rest, hn, vals, s => by
    rw [shrinkEach, Eng.bind_apply, Eng.mk_apply]
    rw [List.nodup_cons] at hn
    have h1 := shrinkN_bounded c vals M (vals M) s
    have ho := shrinkN_others c M (vals M) vals s
    simp only [List.map_cons, List.sum_cons]
    cases hm : shrinkN c vals M (vals M) s with
    | mk o s1 =>
      rw [hm] at h1 ho
      cases o with
      | throws e => exact Bounded.mono ⟨h1.rand, h1.i, h1.runs, h1.count,
          fun e' h => by cases h; exact h1.foreign e rfl⟩ (Nat.le_add_right _ _)
      | ub => exact Bounded.mono ⟨h1.rand, h1.i, h1.runs, h1.count, fun e' h => (by cases h)⟩ (Nat.le_add_right _ _)
      | diverges => exact Bounded.mono ⟨h1.rand, h1.i, h1.runs, h1.count, fun e' h => (by cases h)⟩ (Nat.le_add_right _ _)
      | ok v1 =>
        simp only
        have h2 := shrinkEach_bounded c rest hn.2 v1 s1
        have e : rest.map (fun N => (v1 N).cost) = rest.map (fun N => (vals N).cost) := by
          refine List.map_congr_left fun N hN => ?_
          rw [ho v1 s1 rfl N (fun e => hn.1 (e ▸ hN))]
        rw [e] at h2
        exact h1.trans h2

/-! ### The loops -/

/-- The call did not discard. -/
def kept (x : Args A × Ev Bool) : Bool := !x.2.discarded

/-- A call that does not stop the loop. -/
def GoodCall (x : Args A × Ev Bool) : Prop :=
  x.2.out = .throws .discard ∨ x.2.out = .throws .success ∨ (x.2.out = .ok true ∧ x.2.fails = [])

/-- Invariant of the loops: `k` calls were not discarded, none stopped the loop. -/
structure Inv (k : Nat) (s : St σ A) : Prop where
  count : ((calls .run s.trace).filter kept).length = k
  good : ∀ x ∈ calls .run s.trace, GoodCall x
  pend : s.fails ≠ [] → ∃ x ∈ calls .run s.trace, x.2.fails ≠ []

/-- The calls up to the one that stopped the loop, `i` of them neither last nor discarded. -/
def StopCalls (cs : List (Args A × Ev Bool)) (i : Nat) (pre : List (Args A × Ev Bool)) (x : Args A × Ev Bool) :
    Prop :=
  cs = pre ++ [x] ∧ (pre.filter kept).length = i ∧ (∀ y ∈ pre, GoodCall y) ∧
    (x.2.out = .ok false ∨
      (∃ e, x.2.out = .throws e ∧ e.isStd = true ∧ e ≠ .discard ∧ e ≠ .success) ∨
      (x.2.out = .ok true ∧ ∃ y ∈ pre ++ [x], y.2.fails ≠ []))

/-- What is known when the loop was stopped by a failing call. -/
structure Stopped (c : Cfg σ A) (i : Nat) (r : Report A) (tr : Trace A) : Prop where
  ex : ∃ pre x start shrunk s1 s2, r = .falsified (i + 1) start shrunk ∧ StopCalls (calls .run tr) i pre x ∧
    x.1 = Tup.get start ∧ (∃ tr', calls .shrink tr' = [] ∧ x.2 = c.func tr' x.1) ∧
    (∃ s r, Gen.drawTuple c.gens c.orderRun s = .ok (start, r)) ∧
    (calls .shrink s1.trace).length = 0 ∧
    Bounded ((c.orderEach.map (fun N => (start N).cost)).sum) s1 (Outcome.ok shrunk) s2 ∧
    EachSpec c c.orderEach start s1 shrunk s2 ∧ s2.trace = tr

theorem calls_run_step (c : Cfg σ A) (cu : Trace A) (hcu : ∀ ph, calls ph cu = []) (a : Args A) (ev : Ev Bool)
    (tr : Trace A) :
    calls .run (cu ++ .call .run a ev :: (suEv c .run ++ tr)) = calls .run tr ++ [(a, ev)] := by
  rw [calls_append, hcu, calls_cons, calls_append, calls_suEv]
  simp [Event.call?]

theorem calls_shrink_step (c : Cfg σ A) (cu : Trace A) (hcu : ∀ ph, calls ph cu = []) (a : Args A) (ev : Ev Bool)
    (tr : Trace A) :
    calls .shrink (cu ++ .call .run a ev :: (suEv c .run ++ tr)) = calls .shrink tr := by
  rw [calls_append, hcu, calls_cons, calls_append, calls_suEv]
  simp [Event.call?]

theorem shrink_apply (c : Cfg σ A) (s : St σ A) : shrink c s =
    match Gen.drawTuple c.gens c.orderShrink s.saved with
    | .ok (start, r) => (match shrinkEach c c.orderEach start { s with saved := r } with
        | (.ok v, s') => (.ok (.falsified (s.i + 1) start v), s')
        | (.throws e, s') => (.throws e, s')
        | (.ub, s') => (.ub, s')
        | (.diverges, s') => (.diverges, s'))
    | .throws e => (.throws e, { s with saved := c.thrown s.saved, trace := .genThrew .shrink e :: s.trace })
    | .ub => (.ub, s)
    | .diverges => (.diverges, s) := by
  unfold shrink
  simp only [Eng.bind_apply, Eng.reads, drawSaved]
  cases hd : Gen.drawTuple c.gens c.orderShrink s.saved with
  | ok p =>
    obtain ⟨ts, r⟩ := p
    simp only
    cases shrinkEach c c.orderEach ts { s with saved := r } with
    | mk o s1 => cases o <;> rfl
  | throws e => rfl
  | ub => rfl
  | diverges => rfl

/-- Shrinking after a failing call. -/
theorem shrink_after {c : Cfg σ A} (hc : Setting c) {s : St σ A} {pre : List (Args A × Ev Bool)}
    {x : Args A × Ev Bool} {ts : Tup A} {r : σ}
    (hd : Gen.drawTuple c.gens c.orderRun s.saved = .ok (ts, r)) (hx : x.1 = Tup.get ts)
    (hf : ∃ tr', calls .shrink tr' = [] ∧ x.2 = c.func tr' x.1)
    (hcalls : StopCalls (calls .run s.trace) s.i pre x) (h0 : (calls .shrink s.trace).length = 0) :
    (∀ R s', shrink c s = (.ok R, s') → Stopped c s.i R s'.trace) ∧
    (∀ e s', shrink c s = (.throws e, s') → e.isStd = false) := by
  rw [shrink_apply, hc.order, hd]
  simp only
  have hb := shrinkEach_bounded c c.orderEach hc.nodup ts { s with saved := r }
  cases he : shrinkEach c c.orderEach ts { s with saved := r } with
  | mk o s1 =>
    rw [he] at hb
    cases o with
    | throws e =>
      simp only
      refine ⟨fun R s' h => (by cases h), fun e' s' h => ?_⟩
      cases h
      exact hb.foreign e rfl
    | ub => exact ⟨fun R s' h => (by cases h), fun e' s' h => (by cases h)⟩
    | diverges => exact ⟨fun R s' h => (by cases h), fun e' s' h => (by cases h)⟩
    | ok v =>
      refine ⟨fun R s' h => ?_, fun e' s' h => (by cases h)⟩
      cases h
      have hs := shrinkEach_spec hc.quiet c.orderEach hc.nodup ts _ v s1 he
      refine ⟨pre, x, ts, v, _, s1, rfl, ?_, hx, hf, ⟨_, _, hd⟩, ?_, hb, hs, rfl⟩
      · have := hb.runs
        rw [this]
        exact hcalls
      · exact h0

/-- What one execution of the `do ... while` body guarantees. -/
structure StepPost (c : Cfg σ A) (i : Nat) (o : Outcome (Step A)) (s' : St σ A) : Prop where
  pass : o = .ok .pass → Inv (i + 1) s' ∧ s'.i = i ∧ (calls .shrink s'.trace).length = 0
  again : o = .ok .again → Inv i s' ∧ s'.i = i ∧ (calls .shrink s'.trace).length = 0
  stop : ∀ r, o = .ok (.stop r) → Stopped c i r s'.trace
  threw : ∀ e, o = .throws e → e.isStd = true → e ≠ .success ∧ e ≠ .discard ∧
    s'.i = i ∧ (calls .shrink s'.trace).length = 0 ∧
    (Gen.drawTuple c.gens c.orderRun s'.saved = .throws e ∨
      ∃ pre x ts r, Gen.drawTuple c.gens c.orderRun s'.saved = .ok (ts, r) ∧ x.1 = Tup.get ts ∧
        (∃ tr', calls .shrink tr' = [] ∧ x.2 = c.func tr' x.1) ∧ StopCalls (calls .run s'.trace) i pre x)

theorem guarded_post {c : Cfg σ A} (hc : Setting c) (s : St σ A) (hi : Inv s.i s)
    (h0 : (calls .shrink s.trace).length = 0) :
    StepPost c s.i (guarded c s).1 (guarded c s).2 := by
  unfold guarded Eng.tryCatch
  rw [attempt_quiet hc.quiet]
  cases hd : Gen.drawTuple c.gens c.orderRun s.rand with
  | ub => exact ⟨fun h => (by cases h), fun h => (by cases h), fun r h => (by cases h), fun e h => (by cases h)⟩
  | diverges => exact ⟨fun h => (by cases h), fun h => (by cases h), fun r h => (by cases h), fun e h => (by cases h)⟩
  | throws e =>
    simp only
    have hruns : calls .run (.genThrew .run e :: (suEv c .run ++ s.trace)) = calls .run s.trace := by
      rw [calls_cons]; simp [Event.call?]
    have hshr : calls .shrink (.genThrew .run e :: (suEv c .run ++ s.trace)) = calls .shrink s.trace := by
      rw [calls_cons]; simp [Event.call?]
    by_cases h1 : e = .success
    · subst h1; exact absurd hd (hc.gens _)
    by_cases h2 : e = .discard
    · subst h2
      rw [if_neg h1, if_pos rfl, Eng.pure_apply]
      refine ⟨fun h => (by cases h), fun _ => ⟨⟨?_, ?_, ?_⟩, rfl, ?_⟩, fun r h => (by cases h), fun e h => (by cases h)⟩
      · simp only [hruns]; exact hi.count
      · simp only [hruns]; exact hi.good
      · simp only [hruns]; exact hi.pend
      · simp only [hshr]; exact h0
    · rw [if_neg h1, if_neg h2]
      refine ⟨fun h => (by cases h), fun h => (by cases h), fun r h => (by cases h), fun e' h hstd => ?_⟩
      cases h
      refine ⟨h1, h2, rfl, ?_, Or.inl hd⟩
      show (calls .shrink (.genThrew .run e :: (suEv c .run ++ s.trace))).length = 0
      rw [hshr]; exact h0
  | ok p =>
    obtain ⟨ts, r⟩ := p
    simp only
    set ev := c.func (suEv c .run ++ s.trace) (Tup.get ts) with hev
    have hruns := calls_run_step c [] (fun _ => rfl) (Tup.get ts) ev s.trace
    have hshr := calls_shrink_step c [] (fun _ => rfl) (Tup.get ts) ev s.trace
    have hruns2 := calls_run_step c (cuEv c .run) (fun _ => calls_cuEv _ _ _) (Tup.get ts) ev s.trace
    have hshr2 := calls_shrink_step c (cuEv c .run) (fun _ => calls_cuEv _ _ _) (Tup.get ts) ev s.trace
    have hs0 : calls .shrink (suEv c .run ++ s.trace) = [] := by
      rw [calls_append, calls_suEv, List.append_nil]
      exact List.length_eq_zero_iff.mp h0
    simp only [List.nil_append] at hruns hshr
    cases ho : ev.out with
    | ub => exact ⟨fun h => (by cases h), fun h => (by cases h), fun r h => (by cases h), fun e h => (by cases h)⟩
    | diverges => exact ⟨fun h => (by cases h), fun h => (by cases h), fun r h => (by cases h), fun e h => (by cases h)⟩
    | throws e =>
      simp only
      have hpend : s.fails ++ ev.fails ≠ [] →
          ∃ x ∈ calls .run s.trace ++ [(Tup.get ts, ev)], x.2.fails ≠ [] := by
        intro hne
        by_cases hsf : s.fails = []
        · rw [hsf, List.nil_append] at hne
          exact ⟨(Tup.get ts, ev), by simp, hne⟩
        · obtain ⟨x, hx, hx2⟩ := hi.pend hsf
          exact ⟨x, by simp [hx], hx2⟩
      by_cases h1 : e = .success
      · subst h1
        rw [if_pos (by decide), Eng.pure_apply]
        refine ⟨fun _ => ⟨⟨?_, ?_, ?_⟩, rfl, ?_⟩, fun h => (by cases h), fun r h => (by cases h),
          fun e h => (by cases h)⟩
        · simp only [hruns, List.filter_append, List.length_append, hi.count]
          simp [kept, Ev.discarded, ho]
        · simp only [hruns]
          intro x hx
          rcases List.mem_append.mp hx with hx | hx
          · exact hi.good x hx
          · simp at hx; subst hx; exact Or.inr (Or.inl ho)
        · simp only [hruns]; exact hpend
        · simp only [hshr]; exact h0
      by_cases h2 : e = .discard
      · subst h2
        rw [if_neg (by decide), if_pos (by decide), Eng.pure_apply]
        refine ⟨fun h => (by cases h), fun _ => ⟨⟨?_, ?_, ?_⟩, rfl, ?_⟩, fun r h => (by cases h),
          fun e h => (by cases h)⟩
        · simp only [hruns, List.filter_append, List.length_append, hi.count]
          simp [kept, Ev.discarded, ho]
        · simp only [hruns]
          intro x hx
          rcases List.mem_append.mp hx with hx | hx
          · exact hi.good x hx
          · simp at hx; subst hx; exact Or.inl ho
        · simp only [hruns]; exact hpend
        · simp only [hshr]; exact h0
      · set e' := if e = .assertFailed then Exn.propertyFailed else e with he'
        have h1' : e' ≠ .success := by rw [he']; split <;> simp [h1]
        have h2' : e' ≠ .discard := by rw [he']; split <;> simp [h2]
        rw [if_neg h1', if_neg h2']
        refine ⟨fun h => (by cases h), fun h => (by cases h), fun r h => (by cases h), fun e2 h hstd => ?_⟩
        cases h
        have hstd' : e.isStd = true := by
          rw [he'] at hstd
          split at hstd
          · next h => rw [h]; rfl
          · exact hstd
        refine ⟨h1', h2', rfl, ?_, Or.inr ⟨calls .run s.trace, (Tup.get ts, ev), ts, r, hd, rfl, ⟨_, hs0, rfl⟩, ?_⟩⟩
        · show (calls .shrink (.call .run (Tup.get ts) ev :: (suEv c .run ++ s.trace))).length = 0
          rw [hshr]; exact h0
        · refine ⟨hruns, hi.count, hi.good, Or.inr (Or.inl ⟨e, ho, hstd', h2, h1⟩)⟩
    | ok b =>
      simp only
      by_cases hp : s.fails ++ ev.fails = [] ∧ b = true
      · rw [if_pos hp]
        obtain ⟨hf, rfl⟩ := hp
        rw [List.append_eq_nil_iff] at hf
        refine ⟨fun _ => ⟨⟨?_, ?_, fun h => absurd rfl h⟩, rfl, ?_⟩, fun h => (by cases h), fun r h => (by cases h),
          fun e h => (by cases h)⟩
        · simp only [hruns2, List.filter_append, List.length_append, hi.count]
          simp [kept, Ev.discarded, ho]
        · simp only [hruns2]
          intro x hx
          rcases List.mem_append.mp hx with hx | hx
          · exact hi.good x hx
          · simp at hx; subst hx; exact Or.inr (Or.inr ⟨ho, hf.2⟩)
        · simp only [hshr2]; exact h0
      · rw [if_neg hp]
        have hsc : StopCalls (calls .run (cuEv c .run ++ .call .run (Tup.get ts) ev :: (suEv c .run ++ s.trace)))
            s.i (calls .run s.trace) (Tup.get ts, ev) := by
          refine ⟨hruns2, hi.count, hi.good, ?_⟩
          cases b with
          | false => exact Or.inl ho
          | true =>
            refine Or.inr (Or.inr ⟨ho, ?_⟩)
            have hne : s.fails ++ ev.fails ≠ [] := fun h => hp ⟨h, rfl⟩
            by_cases hsf : s.fails = []
            · rw [hsf, List.nil_append] at hne
              exact ⟨(Tup.get ts, ev), by simp, hne⟩
            · obtain ⟨x, hx, hx2⟩ := hi.pend hsf
              exact ⟨x, by simp [hx], hx2⟩
        have hsa := shrink_after hc (s := ⟨r, s.rand, s.i, [], cuEv c .run ++ .call .run (Tup.get ts) ev ::
          (suEv c .run ++ s.trace)⟩) (x := (Tup.get ts, ev)) hd rfl ⟨_, hs0, rfl⟩ hsc (by
            show (calls .shrink (cuEv c .run ++ .call .run (Tup.get ts) ev :: (suEv c .run ++ s.trace))).length = 0
            rw [hshr2]; exact h0)
        rw [Eng.bind_apply]
        cases hsh : shrink c ⟨r, s.rand, s.i, [], cuEv c .run ++ .call .run (Tup.get ts) ev ::
          (suEv c .run ++ s.trace)⟩ with
        | mk o s1 =>
          rw [hsh] at hsa
          cases o with
          | ub => exact ⟨fun h => (by cases h), fun h => (by cases h), fun r h => (by cases h), fun e h => (by cases h)⟩
          | diverges => exact ⟨fun h => (by cases h), fun h => (by cases h), fun r h => (by cases h), fun e h => (by cases h)⟩
          | throws e =>
            have hns := hsa.2 e s1 rfl
            simp only
            have h1 : e ≠ .success := by rintro rfl; simp [Exn.isStd] at hns
            have h2 : e ≠ .discard := by rintro rfl; simp [Exn.isStd] at hns
            rw [if_neg h1, if_neg h2]
            refine ⟨fun h => (by cases h), fun h => (by cases h), fun r h => (by cases h), fun e' h hstd => ?_⟩
            cases h
            rw [hns] at hstd; cases hstd
          | ok R =>
            simp only [Eng.pure_apply]
            refine ⟨fun h => (by cases h), fun h => (by cases h), fun r h => ?_, fun e h => (by cases h)⟩
            cases h
            exact hsa.1 R s1 rfl

/-- What the `do ... while` loop guarantees. -/
structure LoopPost (c : Cfg σ A) (i : Nat) (o : Outcome (Option (Report A))) (s' : St σ A) : Prop where
  pass : o = .ok none → Inv (i + 1) s' ∧ s'.i = i ∧ (calls .shrink s'.trace).length = 0
  stop : ∀ r, o = .ok (some r) → Stopped c i r s'.trace
  threw : ∀ e, o = .throws e → e.isStd = true → e ≠ .success ∧ e ≠ .discard ∧
    s'.i = i ∧ (calls .shrink s'.trace).length = 0 ∧
    (Gen.drawTuple c.gens c.orderRun s'.saved = .throws e ∨
      ∃ pre x ts r, Gen.drawTuple c.gens c.orderRun s'.saved = .ok (ts, r) ∧ x.1 = Tup.get ts ∧
        (∃ tr', calls .shrink tr' = [] ∧ x.2 = c.func tr' x.1) ∧ StopCalls (calls .run s'.trace) i pre x)

theorem doWhile_post {c : Cfg σ A} (hc : Setting c) : ∀ (fuel : Nat) (s : St σ A) (_ : Inv s.i s)
    (_ : (calls .shrink s.trace).length = 0), LoopPost c s.i (doWhile c fuel s).1 (doWhile c fuel s).2
  | 0, s, _, _ => ⟨fun h => (by cases h), fun r h => (by cases h), fun e h => (by cases h)⟩
  | fuel + 1, s, hi, h0 => by
    have hg := guarded_post hc s hi h0
    rw [doWhile, Eng.bind_apply]
    cases hm : guarded c s with
    | mk o s1 =>
      rw [hm] at hg
      cases o with
      | ub => exact ⟨fun h => (by cases h), fun r h => (by cases h), fun e h => (by cases h)⟩
      | diverges => exact ⟨fun h => (by cases h), fun r h => (by cases h), fun e h => (by cases h)⟩
      | throws e => exact ⟨fun h => (by cases h), fun r h => (by cases h), fun e' h => by
          cases h; exact hg.threw e rfl⟩
      | ok v =>
        cases v with
        | pass => exact ⟨fun _ => hg.pass rfl, fun r h => (by cases h), fun e h => (by cases h)⟩
        | stop r => exact ⟨fun h => (by cases h), fun r h => (by cases h; exact hg.stop r rfl), fun e h => (by cases h)⟩
        | again =>
          simp only
          obtain ⟨h1, h2, h3⟩ := hg.again rfl
          have ih := doWhile_post hc fuel s1 (by rw [h2]; exact h1) h3
          rw [h2] at ih
          exact ih

/-- What the `for` loop guarantees. -/
structure ForPost (c : Cfg σ A) (total : Nat) (o : Outcome (Report A)) (s' : St σ A) : Prop where
  passed : o = .ok .passed → Inv total s'
  timedOut : ∀ k, o = .ok (.timedOut k) → Inv k s' ∧ k < total
  stop : ∀ a start shrunk, o = .ok (.falsified a start shrunk) →
    ∃ i, i < total ∧ Stopped c i (.falsified a start shrunk) s'.trace
  threw : ∀ e, o = .throws e → e.isStd = true → e ≠ .success ∧ e ≠ .discard ∧
    s'.i < total ∧ (calls .shrink s'.trace).length = 0 ∧
    (Gen.drawTuple c.gens c.orderRun s'.saved = .throws e ∨
      ∃ pre x ts r, Gen.drawTuple c.gens c.orderRun s'.saved = .ok (ts, r) ∧ x.1 = Tup.get ts ∧
        (∃ tr', calls .shrink tr' = [] ∧ x.2 = c.func tr' x.1) ∧ StopCalls (calls .run s'.trace) s'.i pre x)

theorem forLoop_succ (c : Cfg σ A) (fuel left : Nat) (s : St σ A) : forLoop c fuel (left + 1) s =
    if c.maxDurationMs ≠ 0 ∧ c.maxDurationMs < c.clock s.trace then (.ok (.timedOut s.i), s)
    else match doWhile c fuel s with
      | (.ok (some r), s') => (.ok r, s')
      | (.ok none, s') => forLoop c fuel left { s' with i := s'.i + 1 }
      | (.throws e, s') => (.throws e, s')
      | (.ub, s') => (.ub, s')
      | (.diverges, s') => (.diverges, s') := by
  rw [forLoop]
  simp only [Eng.bind_apply, Eng.reads]
  split
  · rfl
  · rw [Eng.bind_apply]
    cases doWhile c fuel s with
    | mk o s1 =>
      cases o with
      | ok v => cases v <;> rfl
      | throws e => rfl
      | ub => rfl
      | diverges => rfl

theorem forLoop_post {c : Cfg σ A} (hc : Setting c) (fuel total : Nat) : ∀ (left : Nat) (s : St σ A)
    (_ : s.i + left = total) (_ : Inv s.i s) (_ : (calls .shrink s.trace).length = 0),
    ForPost c total (forLoop c fuel left s).1 (forLoop c fuel left s).2
  | 0, s, ht, hi, _ => by
    have e : s.i = total := by omega
    rw [e] at hi
    refine ⟨fun _ => hi, fun k h => ?_, fun a b d h => ?_, fun e h => ?_⟩ <;>
      (rw [forLoop, Eng.pure_apply] at h; cases h)
  | left + 1, s, ht, hi, h0 => by
    rw [forLoop_succ]
    by_cases htime : c.maxDurationMs ≠ 0 ∧ c.maxDurationMs < c.clock s.trace
    · rw [if_pos htime]
      refine ⟨fun h => (by cases h), fun k h => ?_, fun a b d h => (by cases h), fun e h => (by cases h)⟩
      cases h
      exact ⟨hi, by omega⟩
    · rw [if_neg htime]
      have hp := doWhile_post hc fuel s hi h0
      cases hm : doWhile c fuel s with
      | mk o s1 =>
        rw [hm] at hp
        cases o with
        | ub => exact ⟨fun h => (by cases h), fun k h => (by cases h), fun a b d h => (by cases h), fun e h => (by cases h)⟩
        | diverges => exact ⟨fun h => (by cases h), fun k h => (by cases h), fun a b d h => (by cases h), fun e h => (by cases h)⟩
        | throws e =>
          refine ⟨fun h => (by cases h), fun k h => (by cases h), fun a b d h => (by cases h), fun e' h hstd => ?_⟩
          cases h
          obtain ⟨h1, h2, h3, h4, h5⟩ := hp.threw e rfl hstd
          simp only at h3 h5
          refine ⟨h1, h2, ?_, h4, ?_⟩
          · show s1.i < total
            omega
          · show _ ∨ ∃ pre x ts r, _ ∧ _ ∧ _ ∧ StopCalls (calls .run s1.trace) s1.i pre x
            rw [h3]; exact h5
        | ok v =>
          cases v with
          | some r =>
            have hs := hp.stop r rfl
            obtain ⟨pre, x, start, shrunk, s2, s3, hr, _⟩ := hs.ex
            refine ⟨fun h => ?_, fun k h => ?_, fun a b d h => ?_, fun e h => (by cases h)⟩
            · simp only [Outcome.ok.injEq] at h; rw [hr] at h; cases h
            · simp only [Outcome.ok.injEq] at h; rw [hr] at h; cases h
            · simp only [Outcome.ok.injEq] at h
              exact ⟨s.i, by omega, h ▸ hs⟩
          | none =>
            obtain ⟨h1, h2, h3⟩ := hp.pass rfl
            simp only at h2
            exact forLoop_post hc fuel total left { s1 with i := s1.i + 1 } (by simp only; omega)
              ⟨by simp only; rw [h1.count, h2], h1.good, h1.pend⟩ h3

/-- What `runForAll` guarantees. -/
structure Result (c : Cfg σ A) (o : Outcome (Report A)) (tr : Trace A) : Prop where
  passed : o = .ok .passed → ∃ s : St σ A, s.trace = tr ∧ Inv c.numRuns s
  timedOut : ∀ k, o = .ok (.timedOut k) → ∃ s : St σ A, s.trace = tr ∧ Inv k s ∧ k < c.numRuns
  stop : ∀ a start shrunk, o = .ok (.falsified a start shrunk) →
    ∃ i, i < c.numRuns ∧ Stopped c i (.falsified a start shrunk) tr

theorem inv_init (r : σ) : Inv 0 (⟨r, r, 0, [], []⟩ : St σ A) :=
  ⟨rfl, fun x h => by simp at h, fun h => absurd rfl h⟩

theorem forAll_result {c : Cfg σ A} (hc : Setting c) (fuel : Nat) (seed : σ) :
    Result c (forAll c fuel seed []).1 (forAll c fuel seed []).2 := by
  unfold forAll runForAll Eng.withContext Eng.catchStd Eng.tryCatch
  simp only
  have hp := forLoop_post hc fuel c.numRuns c.numRuns (⟨seed, seed, 0, [], []⟩ : St σ A) (by simp) (inv_init seed)
    (by simp)
  cases hm : forLoop c fuel c.numRuns (⟨seed, seed, 0, [], []⟩ : St σ A) with
  | mk o s1 =>
    rw [hm] at hp
    cases o with
    | ub => exact ⟨fun h => (by cases h), fun k h => (by cases h), fun a b d h => (by cases h)⟩
    | diverges => exact ⟨fun h => (by cases h), fun k h => (by cases h), fun a b d h => (by cases h)⟩
    | ok R =>
      refine ⟨fun h => ⟨s1, rfl, hp.passed h⟩, fun k h => ?_, fun a b d h => hp.stop a b d h⟩
      obtain ⟨h1, h2⟩ := hp.timedOut k h
      exact ⟨s1, rfl, h1, h2⟩
    | throws e =>
      by_cases he : e.isStd
      · simp only [he, if_true]
        obtain ⟨h1, h2, h3, h4, h5⟩ := hp.threw e rfl he
        rcases h5 with h5 | ⟨pre, x, ts, r, hd, hx, hf, hcalls⟩
        · rw [shrink_apply, hc.order]
          simp only at h5
          rw [h5]
          exact ⟨fun h => (by cases h), fun k h => (by cases h), fun a b d h => (by cases h)⟩
        · have hsa := shrink_after hc hd hx hf hcalls h4
          have happ := shrink_apply c s1
          rw [hc.order, hd] at happ
          cases hsh : shrink c s1 with
          | mk o2 s2 =>
            rw [hsh] at hsa
            cases o2 with
            | ub => exact ⟨fun h => (by cases h), fun k h => (by cases h), fun a b d h => (by cases h)⟩
            | diverges => exact ⟨fun h => (by cases h), fun k h => (by cases h), fun a b d h => (by cases h)⟩
            | throws e => exact ⟨fun h => (by cases h), fun k h => (by cases h), fun a b d h => (by cases h)⟩
            | ok R =>
              have hst := hsa.1 R s2 rfl
              obtain ⟨pre', x', start, shrunk, s3, s4, hr, hrest⟩ := hst.ex
              subst hr
              refine ⟨fun h => by simp at h, fun k h => by simp at h, fun a b d h => ?_⟩
              simp only [Outcome.ok.injEq] at h
              exact ⟨s1.i, h3, h ▸ hst⟩
      · simp only [he]
        exact ⟨fun h => (by cases h), fun k h => (by cases h), fun a b d h => (by cases h)⟩

/-! ### Invariants of the random engine and the history -/

section
variable {c : Cfg σ A} {P : σ → Trace A → Prop}

theorem shrinkBind_inv (hs : ∀ s : St σ A, P s.rand s.trace → P (shrink c s).2.rand (shrink c s).2.trace)
    (s : St σ A) (h : P s.rand s.trace) (k : Report A → Step A) :
    P ((shrink c >>= fun r => pure (k r)) s).2.rand ((shrink c >>= fun r => pure (k r)) s).2.trace := by
  have := hs s h
  rw [Eng.bind_apply]
  cases hm : shrink c s with
  | mk o s1 =>
    rw [hm] at this
    cases o <;> exact this

theorem guarded_inv (ha : ∀ s : St σ A, P s.rand s.trace → P (attempt c s).2.rand (attempt c s).2.trace)
    (s : St σ A) (h : P s.rand s.trace) : P (guarded c s).2.rand (guarded c s).2.trace := by
  have := ha s h
  unfold guarded Eng.tryCatch
  cases hm : attempt c s with
  | mk o s1 =>
    rw [hm] at this
    cases o with
    | throws e =>
      simp only
      split
      · exact this
      · split
        · exact this
        · exact this
    | ok a => exact this
    | ub => exact this
    | diverges => exact this

theorem doWhile_inv (ha : ∀ s : St σ A, P s.rand s.trace → P (attempt c s).2.rand (attempt c s).2.trace) :
    ∀ (fuel : Nat) (s : St σ A) (_ : P s.rand s.trace), P (doWhile c fuel s).2.rand (doWhile c fuel s).2.trace
  | 0, _, h => h
  | fuel + 1, s, h => by
    have h1 := guarded_inv ha s h
    rw [doWhile, Eng.bind_apply]
    cases hm : guarded c s with
    | mk o s1 =>
      rw [hm] at h1
      cases o with
      | throws e => exact h1
      | ub => exact h1
      | diverges => exact h1
      | ok v =>
        cases v with
        | pass => exact h1
        | stop r => exact h1
        | again => exact doWhile_inv ha fuel s1 h1

theorem forLoop_inv (ha : ∀ s : St σ A, P s.rand s.trace → P (attempt c s).2.rand (attempt c s).2.trace)
    (fuel : Nat) : ∀ (left : Nat) (s : St σ A) (_ : P s.rand s.trace),
      P (forLoop c fuel left s).2.rand (forLoop c fuel left s).2.trace
  | 0, _, h => h
  | left + 1, s, h => by
    rw [forLoop_succ]
    split
    · exact h
    · have h1 := doWhile_inv ha fuel s h
      cases hm : doWhile c fuel s with
      | mk o s1 =>
        rw [hm] at h1
        cases o with
        | throws e => exact h1
        | ub => exact h1
        | diverges => exact h1
        | ok v =>
          cases v with
          | some r => exact h1
          | none => exact forLoop_inv ha fuel left { s1 with i := s1.i + 1 } h1

theorem forAll_inv (ha : ∀ s : St σ A, P s.rand s.trace → P (attempt c s).2.rand (attempt c s).2.trace)
    (hs : ∀ s : St σ A, P s.rand s.trace → P (shrink c s).2.rand (shrink c s).2.trace)
    (fuel : Nat) (seed : σ) (tr : Trace A) (h : P seed tr) : ∃ r, P r (forAll c fuel seed tr).2 := by
  unfold forAll runForAll Eng.withContext Eng.catchStd Eng.tryCatch
  have h1 := forLoop_inv ha fuel c.numRuns (⟨seed, seed, 0, [], tr⟩ : St σ A) h
  simp only
  cases hm : forLoop c fuel c.numRuns (⟨seed, seed, 0, [], tr⟩ : St σ A) with
  | mk o s1 =>
    rw [hm] at h1
    cases o with
    | throws e =>
      simp only
      split
      · exact ⟨_, hs s1 h1⟩
      · exact ⟨_, h1⟩
    | ok a => exact ⟨_, h1⟩
    | ub => exact ⟨_, h1⟩
    | diverges => exact ⟨_, h1⟩

end

/-! ### Properties of the shrink phase -/

section
variable {c : Cfg σ A} {P : Trace A → Prop}

mutual
theorem shrinkN_inv (N : Fin n) (ht : ∀ vals next (s : St σ A), P s.trace → P (test c vals N next s).2.trace) :
    ∀ (t : Shr (A N)) (vals : Tup A) (s : St σ A), P s.trace → P (shrinkN c vals N t s).2.trace
  | .node v ss, vals, s, h => by
    rw [shrinkN]
    exact shrinkNIter_inv N ht ss vals s.fails { s with fails := [] } h
theorem shrinkNIter_inv (N : Fin n) (ht : ∀ vals next (s : St σ A), P s.trace → P (test c vals N next s).2.trace) :
    ∀ (ss : List (Shr (A N))) (vals : Tup A) (outer : List String) (s : St σ A), P s.trace →
      P (shrinkNIter c vals N outer ss s).2.trace
  | [], vals, outer, s, h => by rw [shrinkNIter]; exact h
  | next :: rest, vals, outer, s, h => by
    have h1 := ht vals next s h
    rw [shrinkNIter]
    beta_reduce
    cases hm : test c vals N next s with
    | mk o s1 =>
      rw [hm] at h1
      cases o with
      | throws e => exact h1
      | ub => exact h1
      | diverges => exact h1
      | ok b =>
        simp only
        split
        · exact shrinkN_inv N ht next _ { s1 with fails := outer } h1
        · exact shrinkNIter_inv N ht rest vals outer s1 h1
end

theorem shrinkEach_inv (ht : ∀ N vals next (s : St σ A), P s.trace → P (test c vals N next s).2.trace) :
    ∀ (order : List (Fin n)) (vals : Tup A) (s : St σ A), P s.trace → P (shrinkEach c order vals s).2.trace
  | [], _, _, h => h
  | M :: rest, vals, s, h => by
    have h1 := shrinkN_inv M (ht M) (vals M) vals s h
    rw [shrinkEach, Eng.bind_apply, Eng.mk_apply]
    cases hm : shrinkN c vals M (vals M) s with
    | mk o s1 =>
      rw [hm] at h1
      cases o with
      | throws e => exact h1
      | ub => exact h1
      | diverges => exact h1
      | ok v => exact shrinkEach_inv ht rest v s1 h1

theorem shrink_inv (ht : ∀ N vals next (s : St σ A), P s.trace → P (test c vals N next s).2.trace)
    (hg : ∀ e tr, P tr → P (.genThrew .shrink e :: tr)) (s : St σ A) (h : P s.trace) :
    P (shrink c s).2.trace := by
  rw [shrink_apply]
  cases hd : Gen.drawTuple c.gens c.orderShrink s.saved with
  | throws e => exact hg e _ h
  | ub => exact h
  | diverges => exact h
  | ok p =>
    obtain ⟨ts, r⟩ := p
    have h1 := shrinkEach_inv ht c.orderEach ts { s with saved := r } h
    simp only
    cases hm : shrinkEach c c.orderEach ts { s with saved := r } with
    | mk o s1 =>
      rw [hm] at h1
      cases o <;> exact h1

end

theorem paired_test {c : Cfg σ A} (hq : c.Quiet) (h1 : c.startup.isSome) (h2 : c.cleanup.isSome) (N : Fin n)
    (vals : Tup A) (next : Shr (A N)) (s : St σ A) (h : Paired s.trace) :
    Paired (test c vals N next s).2.trace := by
  have hsu : suEv c .shrink = [.startup .shrink ⟨[], .ok ()⟩] := by simp [suEv, h1]
  have hcu : cuEv c .shrink = [.cleanup .shrink ⟨[], .ok ()⟩] := by simp [cuEv, h2]
  unfold test Eng.catchStd Eng.tryCatch
  simp only [Eng.bind_apply, runStartup_quiet hq.1, callFunc_apply]
  generalize hev : c.func (suEv c .shrink ++ s.trace) (Function.update (Tup.get vals) N next.value) = ev
  cases ho : ev.out with
  | ok b =>
    simp only [runCleanup_quiet hq.2, Eng.pure_apply, hsu, hcu, List.singleton_append]
    exact .returned _ _ _ _ _ b _ ho h
  | throws e =>
    have : Paired (.call .shrink (Function.update (Tup.get vals) N next.value) ev :: (suEv c .shrink ++ s.trace)) := by
      rw [hsu]; exact .threw _ _ _ _ _ (by simp [ho]) h
    simp only
    split <;> exact this
  | ub => simp only [hsu]; exact .threw _ _ _ _ _ (by simp [ho]) h
  | diverges => simp only [hsu]; exact .threw _ _ _ _ _ (by simp [ho]) h

theorem paired_attempt {c : Cfg σ A} (hq : c.Quiet) (h1 : c.startup.isSome) (h2 : c.cleanup.isSome)
    (hg : ∀ s, Gen.drawTuple c.gens c.orderRun s ≠ .ub ∧ Gen.drawTuple c.gens c.orderRun s ≠ .diverges)
    (s : St σ A) (h : Paired s.trace) : Paired (attempt c s).2.trace := by
  have hsu : suEv c .run = [.startup .run ⟨[], .ok ()⟩] := by simp [suEv, h1]
  have hcu : cuEv c .run = [.cleanup .run ⟨[], .ok ()⟩] := by simp [cuEv, h2]
  rw [attempt_quiet hq]
  cases hd : Gen.drawTuple c.gens c.orderRun s.rand with
  | ub => exact absurd hd (hg _).1
  | diverges => exact absurd hd (hg _).2
  | throws e => simp only [hsu]; exact .genRun _ _ _ h
  | ok p =>
    obtain ⟨ts, r⟩ := p
    simp only
    generalize hev : c.func (suEv c .run ++ s.trace) (Tup.get ts) = ev
    cases ho : ev.out with
    | ub => simp only [hsu]; exact .threw _ _ _ _ _ (by simp [ho]) h
    | diverges => simp only [hsu]; exact .threw _ _ _ _ _ (by simp [ho]) h
    | throws e => simp only [hsu]; exact .threw _ _ _ _ _ (by simp [ho]) h
    | ok b =>
      have hp : Paired (cuEv c .run ++ .call .run (Tup.get ts) ev :: (suEv c .run ++ s.trace)) := by
        rw [hsu, hcu]; exact .returned _ _ _ _ _ b _ ho h
      simp only
      split
      · exact hp
      · exact shrinkBind_inv (P := fun _ tr => Paired tr)
          (fun s h => shrink_inv (fun N vals next s h => paired_test hq h1 h2 N vals next s h)
            (fun e tr h => .genShrink e tr h) s h) _ hp Step.stop

/-! ### Shrinking ends -/

/-- The statement ends. -/
def NoDiv (m : Eng σ A α) : Prop := ∀ s, (m s).1 ≠ .diverges

theorem NoDiv.bind {m : Eng σ A α} {f : α → Eng σ A β} (hm : NoDiv m) (hf : ∀ a, NoDiv (f a)) :
    NoDiv (m >>= f) := by
  intro s
  have := hm s
  rw [Eng.bind_apply]
  cases h : m s with
  | mk o s1 =>
    rw [h] at this
    cases o with
    | ok a => exact hf a s1
    | throws e => simp
    | ub => simp
    | diverges => exact absurd rfl this

theorem NoDiv.pure (a : α) : NoDiv (pure a : Eng σ A α) := fun s => by rw [Eng.pure_apply]; simp

theorem NoDiv.catchStd {m k : Eng σ A α} (hm : NoDiv m) (hk : NoDiv k) : NoDiv (Eng.catchStd m k) := by
  intro s
  have := hm s
  unfold Eng.catchStd Eng.tryCatch
  cases h : m s with
  | mk o s1 =>
    rw [h] at this
    cases o with
    | ok a => simp
    | throws e =>
      simp only
      split
      · exact hk s1
      · simp [Eng.throw]
    | ub => simp
    | diverges => exact absurd rfl this

section
variable {c : Cfg σ A} (hc : Terminating c)
include hc

theorem noDiv_test (vals : Tup A) (N : Fin n) (next : Shr (A N)) : NoDiv (test c vals N next) := by
  refine NoDiv.catchStd (NoDiv.bind ?_ fun _ => NoDiv.bind ?_ fun _ => NoDiv.bind ?_ fun _ => NoDiv.pure _)
    (NoDiv.pure _)
  · intro s
    unfold runStartup
    cases hk : c.startup with
    | none => simp
    | some k => exact hc.startup k hk _
  · intro s
    rw [callFunc_apply]
    exact hc.func _ _
  · intro s
    unfold runCleanup
    cases hk : c.cleanup with
    | none => simp
    | some k => exact hc.cleanup k hk _

mutual
theorem noDiv_shrinkN (N : Fin n) : ∀ (t : Shr (A N)) (vals : Tup A) (s : St σ A),
    (shrinkN c vals N t s).1 ≠ .diverges
  | .node v ss, vals, s => by
    rw [shrinkN]
    exact noDiv_shrinkNIter N ss vals s.fails { s with fails := [] }
theorem noDiv_shrinkNIter (N : Fin n) : ∀ (ss : List (Shr (A N))) (vals : Tup A) (outer : List String) (s : St σ A),
    (shrinkNIter c vals N outer ss s).1 ≠ .diverges
  | [], vals, outer, s => by rw [shrinkNIter]; simp
  | next :: rest, vals, outer, s => by
    have h1 := noDiv_test hc vals N next s
    rw [shrinkNIter]
    beta_reduce
    cases hm : test c vals N next s with
    | mk o s1 =>
      rw [hm] at h1
      cases o with
      | throws e => simp
      | ub => simp
      | diverges => exact absurd rfl h1
      | ok b =>
        simp only
        split
        · exact noDiv_shrinkN N next _ _
        · exact noDiv_shrinkNIter N rest vals outer s1
end

theorem noDiv_shrinkEach : ∀ (order : List (Fin n)) (vals : Tup A), NoDiv (shrinkEach c order vals)
  | [], _ => NoDiv.pure _
  | M :: rest, vals => by
    rw [shrinkEach]
    exact NoDiv.bind (fun s => by rw [Eng.mk_apply]; exact noDiv_shrinkN hc M _ vals s)
      fun v => noDiv_shrinkEach rest v

theorem noDiv_shrink : NoDiv (shrink c) := by
  unfold shrink
  refine NoDiv.bind (fun s => by simp [Eng.reads]) fun i => NoDiv.bind ?_ fun ts =>
    NoDiv.bind (noDiv_shrinkEach hc _ _) fun _ => NoDiv.pure _
  intro s
  unfold drawSaved
  have := hc.gens s.saved
  cases hd : Gen.drawTuple c.gens c.orderShrink s.saved with
  | ok p => simp
  | throws e => simp
  | ub => simp
  | diverges => exact absurd hd this

end

/-! ### Arguments are drawn one after the other -/

/-- The k-th run call used the arguments drawn from the k-th state of the engine. -/
def Fresh (c : Cfg σ A) (seed : σ) (r : σ) (tr : Trace A) : Prop :=
  r = c.next^[(calls .run tr).length] seed ∧
    ∀ k x, (calls .run tr)[k]? = some x →
      ∃ ts r', Gen.drawTuple c.gens c.orderRun (c.next^[k] seed) = .ok (ts, r') ∧ x.1 = Tup.get ts

theorem fresh_shrink {c : Cfg σ A} (hn : c.orderEach.Nodup) (seed : σ) (s : St σ A)
    (h : Fresh c seed s.rand s.trace) : Fresh c seed (shrink c s).2.rand (shrink c s).2.trace := by
  have key : (shrink c s).2.rand = s.rand ∧ calls .run (shrink c s).2.trace = calls .run s.trace := by
    rw [shrink_apply]
    cases hd : Gen.drawTuple c.gens c.orderShrink s.saved with
    | throws e => exact ⟨rfl, by simp [calls_cons, Event.call?]⟩
    | ub => exact ⟨rfl, rfl⟩
    | diverges => exact ⟨rfl, rfl⟩
    | ok p =>
      obtain ⟨ts, r⟩ := p
      have hb := shrinkEach_bounded c c.orderEach hn ts { s with saved := r }
      simp only
      cases hm : shrinkEach c c.orderEach ts { s with saved := r } with
      | mk o s1 =>
        rw [hm] at hb
        cases o <;> exact ⟨hb.rand, hb.runs⟩
  unfold Fresh
  rw [key.1, key.2]
  exact h

theorem fresh_attempt {c : Cfg σ A} (hq : c.Quiet) (hn : c.orderEach.Nodup) (hg : c.GensTotal) (seed : σ)
    (s : St σ A) (h : Fresh c seed s.rand s.trace) :
    Fresh c seed (attempt c s).2.rand (attempt c s).2.trace := by
  rw [attempt_quiet hq]
  obtain ⟨⟨ts, r⟩, hd⟩ := hg s.rand
  rw [hd]
  simp only
  generalize hev : c.func (suEv c .run ++ s.trace) (Tup.get ts) = ev
  have hstep : ∀ cu : Trace A, (∀ ph, calls ph cu = []) →
      Fresh c seed r (cu ++ .call .run (Tup.get ts) ev :: (suEv c .run ++ s.trace)) := by
    intro cu hcu
    unfold Fresh
    rw [calls_run_step c cu hcu]
    constructor
    · rw [List.length_append, List.length_singleton, Function.iterate_succ_apply', ← h.1]
      unfold Cfg.next
      rw [hd]
    · intro k x hx
      rcases Nat.lt_or_ge k (calls .run s.trace).length with hk | hk
      · rw [List.getElem?_append_left hk] at hx
        exact h.2 k x hx
      · rw [List.getElem?_append_right hk] at hx
        have hk0 : k - (calls .run s.trace).length = 0 := by
          have := (List.getElem?_eq_some_iff.mp hx).1
          simp at this; omega
        rw [hk0] at hx
        simp at hx
        have hk' : k = (calls .run s.trace).length := by omega
        subst hx
        rw [hk', ← h.1]
        exact ⟨ts, r, hd, rfl⟩
  cases ho : ev.out with
  | ub => exact hstep [] (fun _ => rfl)
  | diverges => exact hstep [] (fun _ => rfl)
  | throws e => exact hstep [] (fun _ => rfl)
  | ok b =>
    simp only
    split
    · exact hstep (cuEv c .run) (fun _ => calls_cuEv _ _ _)
    · exact shrinkBind_inv (P := Fresh c seed) (fun s h => fresh_shrink hn seed s h) _
        (hstep (cuEv c .run) (fun _ => calls_cuEv _ _ _)) Step.stop

end Engine
end Verif
