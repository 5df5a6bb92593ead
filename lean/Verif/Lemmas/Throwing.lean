import Verif.Spec.Throwing
import Verif.Lemmas.PropertyLoop
/-
Helper lemmas about shrinking when functions given to generators throw.
-/
namespace Verif
namespace Throwing
open Engine PairTuple
variable {n : Nat} {A : Fin n → Type} {σ α β : Type}

/-- Forgets the exceptions in the result of a statement. -/
def out (r : Outcome (LTup A) × St σ A) : Outcome (Tup A) × St σ A :=
  (match r.1 with
    | .ok ts => .ok (stripT ts)
    | .throws e => .throws e
    | .ub => .ub
    | .diverges => .diverges, r.2)

theorem strip_node (v : α × Outcome Unit) (ss : List (Lazy α)) :
    strip (.node v ss) = .node v.1 (ss.map strip) := by
  show Shr.map Prod.fst _ = _
  rw [Shr.map_node]
  rfl

theorem stripT_update (vals : LTup A) (N : Fin n) (t : Lazy (A N)) :
    stripT (Function.update vals N t) = Function.update (stripT vals) N (strip t) := by
  funext i
  by_cases h : i = N
  · subst h; simp [stripT]
  · simp [stripT, h]

theorem values_node (v : α) (ss : List (Shr α)) : Shr.values (.node v ss) = v :: Shr.valuesList ss := by
  simp [Shr.values]

theorem valuesList_cons (t : Shr α) (ts : List (Shr α)) :
    Shr.valuesList (t :: ts) = t.values ++ Shr.valuesList ts := by simp [Shr.valuesList]

/-- The value of a tree is one of its values. -/
theorem value_mem (t : Shr α) : t.value ∈ t.values := by cases t; simp [values_node, Shr.value]

theorem ahead_stop {done : Outcome Unit} {rest : List (Lazy α)} (h : ahead done rest ≠ .ok ()) :
    ahead done rest = done := by
  cases rest with
  | nil => rfl
  | cons a l => exact absurd rfl h

theorem opens_stop {t : Lazy α} (h : opens t ≠ .ok ()) : Stops t (opens t) :=
  ⟨t.value, value_mem t, (ahead_stop h).symm⟩

theorem SameStop.ne_ok {o : Outcome α} {o' : Outcome β} (h : SameStop o o') : ∀ a, o' ≠ .ok a := by
  rintro a rfl
  rcases h with ⟨e, _, h⟩ | ⟨_, h⟩ | ⟨_, h⟩ <;> cases h

theorem SameStop.threw {γ : Type} {o : Outcome α} {e : Exn} (h : SameStop o (.throws e : Outcome β)) :
    SameStop o (.throws e : Outcome γ) := by
  rcases h with ⟨e, h, h'⟩ | ⟨_, h⟩ | ⟨_, h⟩
  · cases h'; exact Or.inl ⟨e, h, rfl⟩
  · cases h
  · cases h

theorem SameStop.isUb {γ : Type} {o : Outcome α} (h : SameStop o (.ub : Outcome β)) :
    SameStop o (.ub : Outcome γ) := by
  rcases h with ⟨e, h, h'⟩ | ⟨h, _⟩ | ⟨_, h⟩
  · cases h'
  · exact Or.inr (Or.inl ⟨h, rfl⟩)
  · cases h

theorem SameStop.isDiv {γ : Type} {o : Outcome α} (h : SameStop o (.diverges : Outcome β)) :
    SameStop o (.diverges : Outcome γ) := by
  rcases h with ⟨e, h, h'⟩ | ⟨_, h⟩ | ⟨h, _⟩
  · cases h'
  · cases h
  · exact Or.inr (Or.inr ⟨h, rfl⟩)

/-- The result of shrinking is that of the shrinks that can be produced, or the evaluation of shrinks ended with an
exception. `P` are the ways of ending that are possible. -/
def AgreesOr (P : Outcome Unit → Prop) (r : Outcome (LTup A) × St σ A) (r' : Outcome (Tup A) × St σ A) : Prop :=
  out r = r' ∨ ∃ o, P o ∧ SameStop o r.1

theorem shrinkN_agrees (c : LCfg σ A) (N : Fin n) (P : Outcome Unit → Prop) : ∀ (t : Lazy (A N)),
    (∀ o, Stops t o → P o) → ∀ (vals : LTup A) (s : St σ A),
      AgreesOr P (shrinkN c vals N t s) (Engine.shrinkN c.cfg (stripT vals) N (strip t) s) := by
  intro t
  refine Shr.rec (motive_1 := fun t => (∀ o, Stops t o → P o) → ∀ (vals : LTup A) (s : St σ A),
      AgreesOr P (shrinkN c vals N t s) (Engine.shrinkN c.cfg (stripT vals) N (strip t) s))
    (motive_2 := fun ss => (∀ v ∈ Shr.valuesList ss, P v.2) → ∀ (done : Outcome Unit) (vals : LTup A) (outer)
      (s : St σ A), P done → AgreesOr P (shrinkNIter c vals N outer done ss s)
        (Engine.shrinkNIter c.cfg (stripT vals) N outer (ss.map strip) s)) ?_ ?_ ?_ t
  · intro v ss ih hP vals s
    rw [strip_node, shrinkN, Engine.shrinkN]
    exact ih (fun w hw => hP _ ⟨w, by rw [values_node]; exact List.mem_cons_of_mem _ hw, rfl⟩) v.2 vals _ _
      (hP _ ⟨v, by rw [values_node]; exact List.mem_cons_self, rfl⟩)
  · intro _ done vals outer s _
    rw [shrinkNIter, List.map_nil, Engine.shrinkNIter]
    exact Or.inl rfl
  · intro next rest ih1 ih2 hP done vals outer s hd
    have hP1 : ∀ o, Stops next o → P o := by
      rintro o ⟨v, hv, rfl⟩
      exact hP v (by rw [valuesList_cons]; exact List.mem_append_left _ hv)
    have hP2 : ∀ v ∈ Shr.valuesList rest, P v.2 := fun v hv =>
      hP v (by rw [valuesList_cons]; exact List.mem_append_right _ hv)
    rw [shrinkNIter, List.map_cons, Engine.shrinkNIter]
    beta_reduce
    cases ha : ahead done rest with
    | throws e =>
      refine Or.inr ⟨done, hd, Or.inl ⟨e, ?_, rfl⟩⟩
      rw [← ha, ahead_stop (by rw [ha]; simp)]
    | ub =>
      refine Or.inr ⟨done, hd, Or.inr (Or.inl ⟨?_, rfl⟩)⟩
      rw [← ha, ahead_stop (by rw [ha]; simp)]
    | diverges =>
      refine Or.inr ⟨done, hd, Or.inr (Or.inr ⟨?_, rfl⟩)⟩
      rw [← ha, ahead_stop (by rw [ha]; simp)]
    | ok u =>
      simp only
      cases ht : test c.cfg (stripT vals) N (strip next) s with
      | mk o s1 =>
        cases o with
        | throws e => exact Or.inl rfl
        | ub => exact Or.inl rfl
        | diverges => exact Or.inl rfl
        | ok result =>
          simp only
          split
          · cases ho : opens next with
            | throws e =>
              refine Or.inr ⟨opens next, hP1 _ (opens_stop (by rw [ho]; simp)), Or.inl ⟨e, ho, rfl⟩⟩
            | ub =>
              refine Or.inr ⟨opens next, hP1 _ (opens_stop (by rw [ho]; simp)), Or.inr (Or.inl ⟨ho, rfl⟩)⟩
            | diverges =>
              refine Or.inr ⟨opens next, hP1 _ (opens_stop (by rw [ho]; simp)), Or.inr (Or.inr ⟨ho, rfl⟩)⟩
            | ok u =>
              simp only
              rw [← stripT_update]
              exact ih1 hP1 _ _
          · exact ih2 hP2 done vals outer s1 hd

/-- Every component of the second tuple is a node of the first one. -/
def Below (vals vals' : LTup A) : Prop := ∀ i, ∀ v ∈ (vals' i).values, v ∈ (vals i).values

theorem shrinkN_below (c : LCfg σ A) (N : Fin n) : ∀ (t : Lazy (A N)) (vals : LTup A) (s : St σ A) (vals' : LTup A)
    (s' : St σ A), shrinkN c vals N t s = (.ok vals', s') →
    (∀ v ∈ t.values, v ∈ (vals N).values) → Below vals vals' := by
  intro t
  refine Shr.rec (motive_1 := fun t => ∀ (vals : LTup A) (s : St σ A) (vals' : LTup A)
      (s' : St σ A), shrinkN c vals N t s = (.ok vals', s') → (∀ v ∈ t.values, v ∈ (vals N).values) →
      Below vals vals')
    (motive_2 := fun ss => ∀ (done : Outcome Unit) (vals : LTup A) (outer) (s : St σ A) (vals' : LTup A)
      (s' : St σ A), shrinkNIter c vals N outer done ss s = (.ok vals', s') →
      (∀ v ∈ Shr.valuesList ss, v ∈ (vals N).values) → Below vals vals') ?_ ?_ ?_ t
  · intro v ss ih vals s vals' s' h hv
    rw [shrinkN] at h
    exact ih _ vals _ _ vals' s' h fun w hw => hv w (by rw [values_node]; exact List.mem_cons_of_mem _ hw)
  · intro done vals outer s vals' s' h _
    rw [shrinkNIter] at h
    cases h
    exact fun _ _ h => h
  · intro next rest ih1 ih2 done vals outer s vals' s' h hv
    rw [shrinkNIter] at h
    beta_reduce at h
    have h1 : ∀ v ∈ next.values, v ∈ (vals N).values := fun v hw =>
      hv v (by rw [valuesList_cons]; exact List.mem_append_left _ hw)
    have h2 : ∀ v ∈ Shr.valuesList rest, v ∈ (vals N).values := fun v hw =>
      hv v (by rw [valuesList_cons]; exact List.mem_append_right _ hw)
    cases ha : ahead done rest with
    | throws e => rw [ha] at h; simp at h
    | ub => rw [ha] at h; simp at h
    | diverges => rw [ha] at h; simp at h
    | ok u =>
      rw [ha] at h
      simp only at h
      cases ht : test c.cfg (stripT vals) N (strip next) s with
      | mk o s1 =>
        rw [ht] at h
        cases o with
        | throws e => simp at h
        | ub => simp at h
        | diverges => simp at h
        | ok result =>
          simp only at h
          split at h
          · cases ho : opens next with
            | throws e => rw [ho] at h; simp at h
            | ub => rw [ho] at h; simp at h
            | diverges => rw [ho] at h; simp at h
            | ok u =>
              rw [ho] at h
              simp only at h
              have := ih1 _ _ _ _ h (by intro v hv'; simpa using hv')
              intro i v hv'
              have := this i v hv'
              by_cases hi : i = N
              · subst hi
                simp only [Function.update_self] at this
                exact h1 v this
              · simpa [hi] using this
          · exact ih2 done vals outer s1 vals' s' h h2

theorem shrinkEach_agrees (c : LCfg σ A) (P : Outcome Unit → Prop) : ∀ (order : List (Fin n)) (vals : LTup A),
    (∀ i o, Stops (vals i) o → P o) → ∀ (s : St σ A),
      AgreesOr P (shrinkEach c order vals s) (Engine.shrinkEach c.cfg order (stripT vals) s)
  | [], vals, _, s => Or.inl rfl
  | N :: rest, vals, hP, s => by
    rw [shrinkEach, Engine.shrinkEach, Eng.bind_apply, Eng.bind_apply, Eng.mk_apply, Eng.mk_apply]
    have h1 := shrinkN_agrees c N P (vals N) (hP N) vals s
    have h2 := shrinkN_below c N (vals N) vals s
    rcases h1 with h1 | ⟨o, ho, h1⟩
    · rw [show stripT vals N = strip (vals N) from rfl, ← h1]
      cases hm : shrinkN c vals N (vals N) s with
      | mk o s1 =>
        rw [hm] at h2
        cases o with
        | throws e => exact Or.inl rfl
        | ub => exact Or.inl rfl
        | diverges => exact Or.inl rfl
        | ok v1 =>
          simp only [out]
          refine shrinkEach_agrees c P rest v1 ?_ s1
          rintro i o ⟨v, hv, rfl⟩
          exact hP i _ ⟨v, h2 v1 s1 rfl (fun _ h => h) i v hv, rfl⟩
    · refine Or.inr ⟨o, ho, ?_⟩
      cases hm : shrinkN c vals N (vals N) s with
      | mk o1 s1 =>
        rw [hm] at h1
        cases o1 with
        | throws e => exact h1
        | ub => exact h1
        | diverges => exact h1
        | ok v1 => exact absurd rfl (h1.ne_ok v1)

/-! ### Drawing -/

theorem drawInto_strip (gens : (i : Fin n) → Gen σ (A i × Outcome Unit)) : ∀ (order : List (Fin n))
    (acc : (i : Fin n) → Option (Lazy (A i))) (s : σ),
    Gen.drawInto (fun i => stripGen (gens i)) order (fun i => (acc i).map strip) s =
      match Gen.drawInto gens order acc s with
      | .ok (acc', s') => .ok (fun i => (acc' i).map strip, s')
      | .throws e => .throws e
      | .ub => .ub
      | .diverges => .diverges
  | [], acc, s => rfl
  | i :: is, acc, s => by
    simp only [Gen.drawInto, stripGen]
    cases hg : gens i s with
    | throws e => rfl
    | ub => rfl
    | diverges => rfl
    | ok p =>
      obtain ⟨t, s'⟩ := p
      simp only [Outcome.ok_bind]
      rw [← drawInto_strip gens is]
      congr 1
      funext j
      by_cases h : i = j
      · subst h; simp
      · simp [h]

theorem drawTuple_strip (gens : (i : Fin n) → Gen σ (A i × Outcome Unit)) (order : List (Fin n)) (s : σ) :
    Gen.drawTuple (fun i => stripGen (gens i)) order s =
      match Gen.drawTuple gens order s with
      | .ok (ts, s') => .ok (stripT ts, s')
      | .throws e => .throws e
      | .ub => .ub
      | .diverges => .diverges := by
  have h := drawInto_strip gens order (fun _ => none) s
  unfold Gen.drawTuple
  rw [show (fun i : Fin n => (none : Option (Shr (A i)))) = fun i => ((none : Option (Lazy (A i)))).map strip from rfl, h]
  cases Gen.drawInto gens order (fun _ => none) s with
  | throws e => rfl
  | ub => rfl
  | diverges => rfl
  | ok p =>
    obtain ⟨acc, s'⟩ := p
    simp only [Outcome.ok_bind]
    by_cases hs : ∀ i, (acc i).isSome
    · rw [dif_pos (by simpa using hs), dif_pos hs]
      simp only
      congr 2
      funext i
      simp [stripT, Option.get_map]
    · rw [dif_neg (by simpa using hs), dif_neg hs]

/-! ### Shrinking and the loops -/

theorem getShrinks_cases (ts : LTup A) : ∀ order, getShrinks ts order = .ok () ∨
    ∃ i ∈ order, opens (ts i) ≠ .ok () ∧ getShrinks ts order = opens (ts i)
  | [] => Or.inl rfl
  | i :: is => by
    unfold getShrinks
    cases ho : opens (ts i) with
    | throws e => exact Or.inr ⟨i, by simp, by rw [ho]; simp, by rw [ho]; rfl⟩
    | ub => exact Or.inr ⟨i, by simp, by rw [ho]; simp, by rw [ho]; rfl⟩
    | diverges => exact Or.inr ⟨i, by simp, by rw [ho]; simp, by rw [ho]; rfl⟩
    | ok u =>
      rcases getShrinks_cases ts is with h | ⟨j, hj, h1, h2⟩
      · exact Or.inl h
      · exact Or.inr ⟨j, List.mem_cons_of_mem _ hj, h1, h2⟩

theorem shrink_apply (c : LCfg σ A) (s : St σ A) : shrink c s =
    match Gen.drawTuple c.gens c.set.orderShrink s.saved with
    | .ok (start, r) =>
      (match getShrinks start c.orderGet with
        | .ok () => (match shrinkEach c c.set.orderEach start { s with saved := r } with
          | (.ok v, s') => (.ok (.falsified (s.i + 1) (stripT start) (stripT v)), s')
          | (.throws e, s') => (.throws e, s')
          | (.ub, s') => (.ub, s')
          | (.diverges, s') => (.diverges, s'))
        | .throws e => (.throws e, { s with saved := r })
        | .ub => (.ub, { s with saved := r })
        | .diverges => (.diverges, { s with saved := r }))
    | .throws e => (.throws e, { s with saved := c.set.thrown s.saved, trace := .genThrew .shrink e :: s.trace })
    | .ub => (.ub, s)
    | .diverges => (.diverges, s) := by
  unfold shrink
  simp only [Eng.bind_apply, Eng.reads, drawSaved]
  cases hd : Gen.drawTuple c.gens c.set.orderShrink s.saved with
  | ok p =>
    obtain ⟨ts, r⟩ := p
    simp only [Eng.lift]
    cases getShrinks ts c.orderGet with
    | ok u =>
      simp only
      cases shrinkEach c c.set.orderEach ts { s with saved := r } with
      | mk o s1 => cases o <;> rfl
    | throws e => rfl
    | ub => rfl
    | diverges => rfl
  | throws e => rfl
  | ub => rfl
  | diverges => rfl

theorem shrinkEach_foreign (c : Cfg σ A) : ∀ (order : List (Fin n)) (vals : Tup A) (s : St σ A) (e : Exn),
    (Engine.shrinkEach c order vals s).1 = .throws e → e.isStd = false
  | [], vals, s, e, h => by
    rw [Engine.shrinkEach, Eng.pure_apply] at h; cases h
  | N :: rest, vals, s, e, h => by
    rw [Engine.shrinkEach, Eng.bind_apply, Eng.mk_apply] at h
    have hb := (shrinkN_bounded c vals N (vals N) s).foreign
    cases hm : Engine.shrinkN c vals N (vals N) s with
    | mk o s1 =>
      rw [hm] at h hb
      cases o with
      | throws e' => cases h; exact hb _ rfl
      | ub => cases h
      | diverges => cases h
      | ok v => exact shrinkEach_foreign c rest v s1 e h

theorem SameStop.out {o : Outcome α} {o' : Outcome β} (h : SameStop o o') : ∀ a, o ≠ .ok a := by
  rintro a rfl
  rcases h with ⟨e, h, _⟩ | ⟨h, _⟩ | ⟨h, _⟩ <;> cases h

/-- Shrinking does what it does when no function throws, or ends with a thrown exception; in the latter case shrinking
without exceptions ends with a report or a foreign exception. -/
theorem shrink_agrees (c : LCfg σ A) (P : Outcome Unit → Prop)
    (hP : ∀ ts, c.Draws ts → ∀ i o, Stops (ts i) o → P o) (s : St σ A) :
    shrink c s = Engine.shrink c.cfg s ∨
      ((∃ o, P o ∧ SameStop o (shrink c s).1) ∧
        (∀ R, (Engine.shrink c.cfg s).1 = .ok R → R.verdict = false) ∧
        (∀ e, (Engine.shrink c.cfg s).1 = .throws e → e.isStd = false)) := by
  rw [shrink_apply, Engine.shrink_apply]
  have hs : Gen.drawTuple c.cfg.gens c.cfg.orderShrink s.saved = _ := drawTuple_strip c.gens c.set.orderShrink s.saved
  rw [hs]
  cases hd : Gen.drawTuple c.gens c.set.orderShrink s.saved with
  | throws e => exact Or.inl rfl
  | ub => exact Or.inl rfl
  | diverges => exact Or.inl rfl
  | ok p =>
    obtain ⟨ts, r⟩ := p
    have hP' := hP ts ⟨_, _, hd⟩
    simp only
    have hfor := shrinkEach_foreign c.cfg c.cfg.orderEach (stripT ts) { s with saved := r }
    have hrest : (∀ R, (match Engine.shrinkEach c.cfg c.cfg.orderEach (stripT ts) { s with saved := r } with
        | (.ok v, s') => (Outcome.ok (Report.falsified (s.i + 1) (stripT ts) v), s')
        | (.throws e, s') => (.throws e, s')
        | (.ub, s') => (.ub, s')
        | (.diverges, s') => (.diverges, s')).1 = .ok R → R.verdict = false) ∧
        (∀ e, (match Engine.shrinkEach c.cfg c.cfg.orderEach (stripT ts) { s with saved := r } with
        | (.ok v, s') => (Outcome.ok (Report.falsified (s.i + 1) (stripT ts) v), s')
        | (.throws e, s') => (.throws e, s')
        | (.ub, s') => (.ub, s')
        | (.diverges, s') => (.diverges, s')).1 = .throws e → e.isStd = false) := by
      cases hm : Engine.shrinkEach c.cfg c.cfg.orderEach (stripT ts) { s with saved := r } with
      | mk o s1 =>
        rw [hm] at hfor
        cases o with
        | ok v => exact ⟨fun R h => by cases h; rfl, fun e h => (by cases h)⟩
        | throws e => exact ⟨fun R h => (by cases h), fun e' h => by cases h; exact hfor _ rfl⟩
        | ub => exact ⟨fun R h => (by cases h), fun e h => (by cases h)⟩
        | diverges => exact ⟨fun R h => (by cases h), fun e h => (by cases h)⟩
    rcases getShrinks_cases ts c.orderGet with hg | ⟨i, _, h1, h2⟩
    · rw [hg]
      simp only
      rcases shrinkEach_agrees c P c.set.orderEach ts hP' { s with saved := r } with h | ⟨o, ho, h⟩
      · left
        show _ = (match Engine.shrinkEach c.cfg c.set.orderEach (stripT ts) { s with saved := r } with
          | (.ok v, s') => (Outcome.ok (Report.falsified (s.i + 1) (stripT ts) v), s')
          | (.throws e, s') => (.throws e, s')
          | (.ub, s') => (.ub, s')
          | (.diverges, s') => (.diverges, s'))
        rw [← h]
        cases shrinkEach c c.set.orderEach ts { s with saved := r } with
        | mk o s1 => cases o <;> rfl
      · right
        refine ⟨⟨o, ho, ?_⟩, hrest⟩
        cases hm : shrinkEach c c.set.orderEach ts { s with saved := r } with
        | mk o1 s1 =>
          rw [hm] at h
          cases o1 with
          | throws e => exact h.threw
          | ub => exact h.isUb
          | diverges => exact h.isDiv
          | ok v1 => exact absurd rfl (h.ne_ok v1)
    · right
      refine ⟨⟨opens (ts i), hP' i _ (opens_stop h1), ?_⟩, hrest⟩
      rw [h2]
      cases ho : opens (ts i) with
      | ok u => exact absurd ho h1
      | throws e => exact Or.inl ⟨e, rfl, rfl⟩
      | ub => exact Or.inr (Or.inl ⟨rfl, rfl⟩)
      | diverges => exact Or.inr (Or.inr ⟨rfl, rfl⟩)

/-- The result is the same, or the first one shows an exception and the second one a failure. -/
def StepAgrees {γ : Type} (bad : γ → Prop) (Q : Outcome Unit → Prop) (r r' : Outcome γ × St σ A) : Prop :=
  r = r' ∨ ((∃ o, Q o ∧ SameStop o r.1) ∧ (∀ R, r'.1 = .ok R → bad R) ∧ (∀ e, r'.1 = .throws e → e.isStd = false))

/-- The attempt ended with a report of a failure. -/
def StopsBad (v : Step A) : Prop := ∃ R, v = .stop R ∧ R.verdict = false

/-- The loop ended with a report of a failure. -/
def SomeBad (v : Option (Report A)) : Prop := ∃ R, v = some R ∧ R.verdict = false

theorem attempt_agrees (c : LCfg σ A) (P : Outcome Unit → Prop)
    (hP : ∀ ts, c.Draws ts → ∀ i o, Stops (ts i) o → P o) (s : St σ A) :
    StepAgrees StopsBad P (attempt c s) (Engine.attempt c.cfg s) := by
  have hsh : ∀ s1 : St σ A, StepAgrees StopsBad P ((shrink c >>= fun r => pure (.stop r)) s1)
      ((Engine.shrink c.cfg >>= fun r => pure (.stop r)) s1) := by
    intro s1
    rw [Eng.bind_apply, Eng.bind_apply]
    rcases shrink_agrees c P hP s1 with h | ⟨⟨o, ho, h⟩, h1, h2⟩
    · rw [h]; exact Or.inl rfl
    · right
      refine ⟨⟨o, ho, ?_⟩, ?_, ?_⟩
      · cases hm : shrink c s1 with
        | mk o1 s2 =>
          rw [hm] at h
          cases o1 with
          | throws e => exact h.threw
          | ub => exact h.isUb
          | diverges => exact h.isDiv
          | ok v1 => exact absurd rfl (h.ne_ok v1)
      · intro R hR
        cases hm : Engine.shrink c.cfg s1 with
        | mk o1 s2 =>
          rw [hm] at hR h1
          cases o1 with
          | ok v => cases hR; exact ⟨v, rfl, h1 v rfl⟩
          | _ => cases hR
      · intro e he
        cases hm : Engine.shrink c.cfg s1 with
        | mk o1 s2 =>
          rw [hm] at he h2
          cases o1 with
          | throws e' => cases he; exact h2 _ rfl
          | _ => cases he
  have hb : ∀ {γ : Type} (m : Eng σ A γ) (f f' : γ → Eng σ A (Step A)) (s : St σ A),
      (∀ a s, StepAgrees StopsBad P (f a s) (f' a s)) → StepAgrees StopsBad P ((m >>= f) s) ((m >>= f') s) := by
    intro γ m f f' s hf
    rw [Eng.bind_apply, Eng.bind_apply]
    cases m s with
    | mk o s1 =>
      cases o with
      | ok a => exact hf a s1
      | _ => exact Or.inl rfl
  unfold attempt Engine.attempt
  refine hb _ _ _ _ fun _ s => hb _ _ _ _ fun _ s => hb _ _ _ _ fun b s => hb _ _ _ _ fun _ s =>
    hb _ _ _ _ fun fl s => ?_
  split
  · exact hsh s
  · split
    · exact hsh s
    · exact Or.inl rfl

theorem guarded_agrees (c : LCfg σ A) (P : Outcome Unit → Prop)
    (hP : ∀ ts, c.Draws ts → ∀ i o, Stops (ts i) o → P o) (hd : ¬ P (.throws .discard)) (hs : ¬ P (.throws .success))
    (s : St σ A) : StepAgrees StopsBad P (guarded c s) (Engine.guarded c.cfg s) := by
  unfold guarded Engine.guarded Eng.tryCatch
  rcases attempt_agrees c P hP s with h | ⟨⟨o, ho, h⟩, h1, h2⟩
  · rw [h]; exact Or.inl rfl
  · right
    refine ⟨⟨o, ho, ?_⟩, ?_, ?_⟩
    · cases hm : attempt c s with
      | mk o1 s2 =>
        rw [hm] at h
        cases o1 with
        | throws e =>
          simp only
          rw [if_neg, if_neg]
          · exact h
          · rintro rfl
            rcases h with ⟨e, h, h'⟩ | ⟨_, h⟩ | ⟨_, h⟩
            · cases h'; rw [h] at ho; exact hd ho
            · cases h
            · cases h
          · rintro rfl
            rcases h with ⟨e, h, h'⟩ | ⟨_, h⟩ | ⟨_, h⟩
            · cases h'; rw [h] at ho; exact hs ho
            · cases h
            · cases h
        | ub => exact h.isUb
        | diverges => exact h.isDiv
        | ok v1 => exact absurd rfl (h.ne_ok v1)
    · intro R hR
      cases hm : Engine.attempt c.cfg s with
      | mk o1 s2 =>
        rw [hm] at hR h1 h2
        cases o1 with
        | ok v => cases hR; exact h1 _ rfl
        | throws e =>
          have := h2 e rfl
          simp only at hR
          rw [if_neg (by rintro rfl; cases this), if_neg (by rintro rfl; cases this)] at hR
          cases hR
        | _ => cases hR
    · intro e he
      cases hm : Engine.attempt c.cfg s with
      | mk o1 s2 =>
        rw [hm] at he h2
        cases o1 with
        | throws e' =>
          have := h2 e' rfl
          simp only at he
          rw [if_neg (by rintro rfl; cases this), if_neg (by rintro rfl; cases this)] at he
          cases he
          exact this
        | _ => cases he

theorem doWhile_agrees (c : LCfg σ A) (P : Outcome Unit → Prop)
    (hP : ∀ ts, c.Draws ts → ∀ i o, Stops (ts i) o → P o) (hd : ¬ P (.throws .discard)) (hs : ¬ P (.throws .success)) :
    ∀ (fuel : Nat) (s : St σ A), StepAgrees SomeBad P (doWhile c fuel s) (Engine.doWhile c.cfg fuel s)
  | 0, s => Or.inl rfl
  | fuel + 1, s => by
    unfold doWhile Engine.doWhile
    rw [Eng.bind_apply, Eng.bind_apply]
    rcases guarded_agrees c P hP hd hs s with h | ⟨⟨o, ho, h⟩, h1, h2⟩
    · rw [h]
      cases Engine.guarded c.cfg s with
      | mk o1 s1 =>
        cases o1 with
        | ok v =>
          cases v with
          | pass => exact Or.inl rfl
          | again => exact doWhile_agrees c P hP hd hs fuel s1
          | stop R => exact Or.inl rfl
        | _ => exact Or.inl rfl
    · right
      refine ⟨⟨o, ho, ?_⟩, ?_, ?_⟩
      · cases hm : guarded c s with
        | mk o1 s2 =>
          rw [hm] at h
          cases o1 with
          | throws e => exact h.threw
          | ub => exact h.isUb
          | diverges => exact h.isDiv
          | ok v1 => exact absurd rfl (h.ne_ok v1)
      · intro R hR
        cases hm : Engine.guarded c.cfg s with
        | mk o1 s2 =>
          rw [hm] at hR h1
          cases o1 with
          | ok v =>
            obtain ⟨R', rfl, hv⟩ := h1 _ rfl
            cases hR
            exact ⟨R', rfl, hv⟩
          | _ => cases hR
      · intro e he
        cases hm : Engine.guarded c.cfg s with
        | mk o1 s2 =>
          rw [hm] at he h1 h2
          cases o1 with
          | ok v =>
            obtain ⟨R', rfl, hv⟩ := h1 _ rfl
            cases he
          | throws e' => cases he; exact h2 _ rfl
          | _ => cases he

theorem forLoop_agrees (c : LCfg σ A) (P : Outcome Unit → Prop)
    (hP : ∀ ts, c.Draws ts → ∀ i o, Stops (ts i) o → P o) (hd : ¬ P (.throws .discard)) (hs : ¬ P (.throws .success))
    (fuel : Nat) : ∀ (left : Nat) (s : St σ A),
      StepAgrees (fun R => R.verdict = false) P (forLoop c fuel left s) (Engine.forLoop c.cfg fuel left s)
  | 0, s => Or.inl rfl
  | left + 1, s => by
    unfold forLoop Engine.forLoop
    rw [Eng.bind_apply, Eng.bind_apply]
    simp only [Eng.reads]
    by_cases hif : c.set.maxDurationMs ≠ 0 ∧ c.set.maxDurationMs < c.set.clock s.trace
    · rw [if_pos hif, if_pos (show c.cfg.maxDurationMs ≠ 0 ∧ c.cfg.maxDurationMs < c.cfg.clock s.trace from hif)]
      exact Or.inl rfl
    · rw [if_neg hif, if_neg (show ¬ (c.cfg.maxDurationMs ≠ 0 ∧ c.cfg.maxDurationMs < c.cfg.clock s.trace) from hif)]
      rw [Eng.bind_apply, Eng.bind_apply]
      rcases doWhile_agrees c P hP hd hs fuel s with h | ⟨⟨o, ho, h⟩, h1, h2⟩
      · rw [h]
        cases Engine.doWhile c.cfg fuel s with
        | mk o1 s1 =>
          cases o1 with
          | ok v =>
            cases v with
            | none => exact forLoop_agrees c P hP hd hs fuel left _
            | some R => exact Or.inl rfl
          | _ => exact Or.inl rfl
      · right
        refine ⟨⟨o, ho, ?_⟩, ?_, ?_⟩
        · cases hm : doWhile c fuel s with
          | mk o1 s2 =>
            rw [hm] at h
            cases o1 with
            | throws e => exact h.threw
            | ub => exact h.isUb
            | diverges => exact h.isDiv
            | ok v1 => exact absurd rfl (h.ne_ok v1)
        · intro R hR
          cases hm : Engine.doWhile c.cfg fuel s with
          | mk o1 s2 =>
            rw [hm] at hR h1
            cases o1 with
            | ok v =>
              obtain ⟨R', rfl, hv⟩ := h1 _ rfl
              cases hR
              exact hv
            | _ => cases hR
        · intro e he
          cases hm : Engine.doWhile c.cfg fuel s with
          | mk o1 s2 =>
            rw [hm] at he h1 h2
            cases o1 with
            | ok v =>
              obtain ⟨R', rfl, hv⟩ := h1 _ rfl
              cases he
            | throws e' => cases he; exact h2 _ rfl
            | _ => cases he

/-- A report made by shrinking says `false`. -/
theorem shrink_verdict (c : LCfg σ A) (s : St σ A) (R : Report A) (h : (shrink c s).1 = .ok R) : R.verdict = false := by
  rw [shrink_apply] at h
  cases hd : Gen.drawTuple c.gens c.set.orderShrink s.saved with
  | ok p =>
    rw [hd] at h
    simp only at h
    cases hg : getShrinks p.1 c.orderGet with
    | ok u =>
      rw [hg] at h
      simp only at h
      cases hm : shrinkEach c c.set.orderEach p.1 { s with saved := p.2 } with
      | mk o s1 =>
        rw [hm] at h
        cases o with
        | ok v => cases h; rfl
        | _ => cases h
    | _ => rw [hg] at h; cases h
  | _ => rw [hd] at h; cases h

/-- The whole test does what it does when no function throws, or an exception was thrown while shrinks were evaluated
and there was a failure. -/
theorem forAll_agrees (c : LCfg σ A) (P : Outcome Unit → Prop)
    (hP : ∀ ts, c.Draws ts → ∀ i o, Stops (ts i) o → P o) (hd : ¬ P (.throws .discard)) (hs : ¬ P (.throws .success))
    (fuel : Nat) (seed : σ) (tr : Trace A) :
    forAll c fuel seed tr = Engine.forAll c.cfg fuel seed tr ∨
      ((∃ o, P o ∧ o ≠ .ok ()) ∧ (∀ R, (forAll c fuel seed tr).1 = .ok R → R.verdict = false) ∧
        (∀ R, (Engine.forAll c.cfg fuel seed tr).1 = .ok R → R.verdict = false)) := by
  unfold forAll Engine.forAll runForAll Engine.runForAll Eng.withContext Eng.catchStd Eng.tryCatch
  simp only
  generalize ({ rand := seed, saved := seed, i := 0, fails := [], trace := tr } : St σ A) = s
  rcases forLoop_agrees c P hP hd hs fuel c.set.numRuns s with h | ⟨⟨o, ho, h⟩, h1, h2⟩
  · rw [show c.cfg.numRuns = c.set.numRuns from rfl, h]
    cases Engine.forLoop c.cfg fuel c.set.numRuns s with
    | mk o1 s1 =>
      cases o1 with
      | throws e =>
        simp only
        by_cases he : e.isStd = true
        · rw [if_pos he, if_pos he]
          rcases shrink_agrees c P hP s1 with h | ⟨⟨o, ho, h⟩, h1, h2⟩
          · rw [h]; exact Or.inl rfl
          · right
            exact ⟨⟨o, ho, h.out ()⟩, fun R hR => shrink_verdict c _ R hR, h1⟩
        · rw [if_neg he, if_neg he]; exact Or.inl rfl
      | _ => exact Or.inl rfl
  · right
    refine ⟨⟨o, ho, h.out ()⟩, ?_, ?_⟩
    · intro R hR
      cases hm : forLoop c fuel c.set.numRuns s with
      | mk o1 s2 =>
        rw [hm] at h hR
        cases o1 with
        | throws e =>
          simp only at hR
          split at hR
          · exact shrink_verdict c _ R hR
          · cases hR
        | ok v1 => exact absurd rfl (h.ne_ok v1)
        | _ => cases hR
    · intro R hR
      rw [show c.cfg.numRuns = c.set.numRuns from rfl] at hR
      cases hm : Engine.forLoop c.cfg fuel c.set.numRuns s with
      | mk o1 s2 =>
        rw [hm] at h1 h2 hR
        cases o1 with
        | throws e =>
          simp only at hR
          rw [if_neg (by rw [h2 e rfl]; simp)] at hR
          cases hR
        | ok v1 => cases hR; exact h1 _ rfl
        | _ => cases hR

/-! ### Shrinks that cannot be explored -/

theorem attempt_quiet {c : LCfg σ A} (hq : c.cfg.Quiet) (s : St σ A) :
    attempt c s =
      match Gen.drawTuple c.cfg.gens c.cfg.orderRun s.rand with
      | .throws e => (.throws e,
          ⟨c.set.thrown s.rand, s.rand, s.i, s.fails, .genThrew .run e :: (suEv c.cfg .run ++ s.trace)⟩)
      | .ub => (.ub, { s with saved := s.rand, trace := suEv c.cfg .run ++ s.trace })
      | .diverges => (.diverges, { s with saved := s.rand, trace := suEv c.cfg .run ++ s.trace })
      | .ok (ts, r) =>
        let ev := c.set.func (suEv c.cfg .run ++ s.trace) (Tup.get ts)
        let s1 : St σ A := ⟨r, s.rand, s.i, s.fails ++ ev.fails,
          .call .run (Tup.get ts) ev :: (suEv c.cfg .run ++ s.trace)⟩
        let s2 : St σ A := ⟨r, s.rand, s.i, [], cuEv c.cfg .run ++ s1.trace⟩
        match ev.out with
        | .throws e => (.throws (if e = .assertFailed then .propertyFailed else e), s1)
        | .ub => (.ub, s1)
        | .diverges => (.diverges, s1)
        | .ok b =>
          if s.fails ++ ev.fails = [] ∧ b = true then (.ok .pass, s2)
          else (shrink c >>= fun r => pure (.stop r)) s2 := by
  unfold attempt invokeWithGenTuple assertToProperty
  simp only [Eng.bind_apply, Eng.modify, runStartup_quiet hq.1, drawRun_apply]
  cases hd : Gen.drawTuple c.cfg.gens c.cfg.orderRun s.rand with
  | throws e => rfl
  | ub => rfl
  | diverges => rfl
  | ok p =>
    obtain ⟨ts, r⟩ := p
    simp only [Eng.tryCatch, callFunc_apply]
    rw [show c.cfg.func = c.set.func from rfl]
    cases ho : (c.set.func (suEv c.cfg .run ++ s.trace) (Tup.get ts)).out with
    | throws e => by_cases he : e = .assertFailed <;> simp [he, Eng.throw]
    | ub => rfl
    | diverges => rfl
    | ok b =>
      simp only [runCleanup_quiet hq.2, flushFailures]
      generalize s.fails ++ (c.set.func (suEv c.cfg .run ++ s.trace) (Tup.get ts)).fails = F
      cases F with
      | nil => cases b <;> simp [Eng.pure_apply, Eng.bind_apply]
      | cons x xs => simp [Eng.bind_apply]

/-- A call that returns false, when the first exploration of shrinks throws. -/
theorem attempt_throws {c : LCfg σ A} (hq : c.cfg.Quiet) (hord : c.set.orderShrink = c.set.orderRun) {ts : LTup A}
    {r : σ} {e : Exn} (s : St σ A) (hd : Gen.drawTuple c.gens c.set.orderRun s.rand = .ok (ts, r))
    (hf : ∀ tr, c.set.func tr (Tup.get (stripT ts)) = ⟨[], .ok false⟩)
    (hg : getShrinks ts c.orderGet = .throws e) :
    ∃ s', attempt c s = (.throws e, s') ∧ s'.rand = r ∧ s'.saved = r ∧ s'.i = s.i ∧ s'.fails = [] ∧
      calls .run s'.trace = calls .run s.trace ++ [(Tup.get (stripT ts), ⟨[], .ok false⟩)] ∧
      calls .shrink s'.trace = calls .shrink s.trace := by
  have hd' : Gen.drawTuple c.cfg.gens c.cfg.orderRun s.rand = .ok (stripT ts, r) := by
    have h : Gen.drawTuple c.cfg.gens c.cfg.orderRun s.rand = _ := drawTuple_strip c.gens c.set.orderRun s.rand
    rw [h, hd]
  rw [attempt_quiet hq, hd']
  simp only [hf]
  rw [if_neg (by simp), Eng.bind_apply, shrink_apply]
  simp only [hord, hd, hg]
  refine ⟨_, rfl, rfl, rfl, rfl, rfl, ?_, ?_⟩
  · exact calls_run_step c.cfg _ (fun ph => calls_cuEv c.cfg .run ph) _ _ _
  · exact calls_shrink_step c.cfg _ (fun ph => calls_cuEv c.cfg .run ph) _ _ _

/-- The loop ends with the exception of the first attempt. -/
theorem forLoop_throws {c : LCfg σ A} (ht : c.set.maxDurationMs = 0) (hn : 0 < c.set.numRuns) {e : Exn}
    (he : e ≠ .success ∧ e ≠ .discard) {fuel : Nat} {s s1 : St σ A} (h : attempt c s = (.throws e, s1)) :
    forLoop c (fuel + 1) c.set.numRuns s = (.throws e, s1) := by
  obtain ⟨k, hk⟩ := Nat.exists_eq_succ_of_ne_zero (Nat.pos_iff_ne_zero.mp hn)
  rw [hk]
  unfold forLoop
  rw [Eng.bind_apply]
  simp only [Eng.reads]
  rw [if_neg (by rw [ht]; simp), Eng.bind_apply]
  unfold doWhile
  rw [Eng.bind_apply]
  unfold guarded Eng.tryCatch
  rw [h]
  simp only [if_neg he.1, if_neg he.2, Eng.throw]

/-- Shrinking never succeeds if the first exploration of shrinks always throws. -/
theorem shrink_not_ok (c : LCfg σ A) (h : ∀ ts, c.Draws ts → ∃ e, getShrinks ts c.orderGet = .throws e) (s : St σ A)
    (R : Report A) : (shrink c s).1 ≠ .ok R := by
  rw [shrink_apply]
  cases hd : Gen.drawTuple c.gens c.set.orderShrink s.saved with
  | ok p =>
    obtain ⟨e, he⟩ := h p.1 ⟨_, _, hd⟩
    simp only [he]
    simp
  | _ => simp

theorem attempt_not_stop (c : LCfg σ A) (h : ∀ ts, c.Draws ts → ∃ e, getShrinks ts c.orderGet = .throws e) (s : St σ A)
    (R : Report A) : (attempt c s).1 ≠ .ok (.stop R) := by
  have hsh : ∀ s1 : St σ A, ((shrink c >>= fun r => pure (.stop r)) s1 : Outcome (Step A) × St σ A).1 ≠ .ok (.stop R) := by
    intro s1
    rw [Eng.bind_apply]
    have := shrink_not_ok c h s1
    cases hm : shrink c s1 with
    | mk o s2 =>
      rw [hm] at this
      cases o with
      | ok v => exact absurd rfl (this v)
      | _ => simp
  have hb : ∀ {γ : Type} (m : Eng σ A γ) (f : γ → Eng σ A (Step A)) (s : St σ A),
      (∀ a s, (f a s).1 ≠ .ok (.stop R)) → ((m >>= f) s).1 ≠ .ok (.stop R) := by
    intro γ m f s hf
    rw [Eng.bind_apply]
    cases m s with
    | mk o s1 =>
      cases o with
      | ok a => exact hf a s1
      | _ => simp
  unfold attempt
  refine hb _ _ _ fun _ s => hb _ _ _ fun _ s => hb _ _ _ fun b s => hb _ _ _ fun _ s => hb _ _ _ fun fl s => ?_
  split
  · exact hsh s
  · split
    · exact hsh s
    · rw [Eng.pure_apply]; simp

theorem doWhile_not_some (c : LCfg σ A) (h : ∀ ts, c.Draws ts → ∃ e, getShrinks ts c.orderGet = .throws e) :
    ∀ (fuel : Nat) (s : St σ A) (R : Report A), (doWhile c fuel s).1 ≠ .ok (some R)
  | 0, s, R => by simp [doWhile, Eng.lift]
  | fuel + 1, s, R => by
    unfold doWhile
    rw [Eng.bind_apply]
    unfold guarded Eng.tryCatch
    have ha := attempt_not_stop c h s
    cases hm : attempt c s with
    | mk o s1 =>
      rw [hm] at ha
      cases o with
      | ok v =>
        cases v with
        | pass => simp [Eng.pure_apply]
        | again => exact doWhile_not_some c h fuel s1 R
        | stop R' => exact absurd rfl (ha R')
      | throws e =>
        simp only
        by_cases h1 : e = .success
        · rw [if_pos h1, Eng.pure_apply]; simp [Eng.pure_apply]
        · rw [if_neg h1]
          by_cases h2 : e = .discard
          · rw [if_pos h2, Eng.pure_apply]
            exact doWhile_not_some c h fuel s1 R
          · rw [if_neg h2]; simp [Eng.throw]
      | _ => simp

theorem forLoop_not_false (c : LCfg σ A) (h : ∀ ts, c.Draws ts → ∃ e, getShrinks ts c.orderGet = .throws e) (fuel : Nat) :
    ∀ (left : Nat) (s : St σ A) (R : Report A), (forLoop c fuel left s).1 = .ok R → R.verdict = true
  | 0, s, R, hR => by rw [forLoop, Eng.pure_apply] at hR; cases hR; rfl
  | left + 1, s, R, hR => by
    unfold forLoop at hR
    rw [Eng.bind_apply] at hR
    simp only [Eng.reads] at hR
    by_cases hif : c.set.maxDurationMs ≠ 0 ∧ c.set.maxDurationMs < c.set.clock s.trace
    · rw [if_pos hif] at hR; cases hR; rfl
    · rw [if_neg hif, Eng.bind_apply] at hR
      have hd := doWhile_not_some c h fuel s
      cases hm : doWhile c fuel s with
      | mk o s1 =>
        rw [hm] at hd hR
        cases o with
        | ok v =>
          cases v with
          | some R' => exact absurd rfl (hd R')
          | none => exact forLoop_not_false c h fuel left _ R hR
        | _ => cases hR

theorem shrinkEach_leaves (c : LCfg σ A) : ∀ (order : List (Fin n)) (vals : LTup A) (s : St σ A),
    (∀ i, (vals i).shrinks = []) → shrinkEach c order vals s = (.ok vals, s)
  | [], vals, s, _ => rfl
  | N :: rest, vals, s, h => by
    rw [shrinkEach, Eng.bind_apply, Eng.mk_apply]
    have : shrinkN c vals N (vals N) s = (.ok vals, s) := by
      cases hv : vals N with
      | node v ss =>
        have := h N
        rw [hv] at this
        simp only [Shr.shrinks] at this
        subst this
        simp [shrinkN, shrinkNIter]
    rw [this]
    exact shrinkEach_leaves c rest vals s h

theorem getShrinks_leaves (ts : LTup A) (h : ∀ i, ts i = .node ((ts i).value.1, .ok ()) []) :
    ∀ order, getShrinks ts order = .ok ()
  | [] => rfl
  | i :: is => by
    unfold getShrinks
    have : opens (ts i) = .ok () := by rw [h i]; rfl
    rw [this]
    exact getShrinks_leaves ts h is

/-! ### Mapping -/

/-- The tree with streams that do not throw. -/
def calm (t : Shr α) : Lazy α := t.map (fun v => (v, .ok ()))

theorem calm_node (v : α) (ss : List (Shr α)) : calm (.node v ss) = .node (v, .ok ()) (ss.map calm) := by
  show Shr.map _ _ = _
  rw [Shr.map_node]
  rfl

theorem mapE_calm (f : α → Outcome β) (g : α → β) : ∀ (t : Shr α), (∀ v ∈ t.values, f v = .ok (g v)) →
    mapE f (calm t) = .ok (calm (t.map g)) := by
  intro t
  refine Shr.rec (motive_1 := fun t => (∀ v ∈ t.values, f v = .ok (g v)) → mapE f (calm t) = .ok (calm (t.map g)))
    (motive_2 := fun ss => (∀ v ∈ Shr.valuesList ss, f v = .ok (g v)) →
      mapEList f (.ok ()) (ss.map calm) = (ss.map (fun t => calm (t.map g)), .ok ())) ?_ ?_ ?_ t
  · intro v ss ih h
    rw [calm_node, mapE, h v (by rw [values_node]; exact List.mem_cons_self)]
    simp only
    rw [ih fun w hw => h w (by rw [values_node]; exact List.mem_cons_of_mem _ hw), Shr.map_node, calm_node, List.map_map]
    rfl
  · intro _
    rfl
  · intro t ts ih1 ih2 h
    rw [List.map_cons, mapEList, ih1 fun v hv => h v (by rw [valuesList_cons]; exact List.mem_append_left _ hv),
      ih2 fun v hv => h v (by rw [valuesList_cons]; exact List.mem_append_right _ hv)]
    rfl

end Throwing
end Verif
