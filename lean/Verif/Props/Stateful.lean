import Verif.Model.Stateful
import Verif.Props.Property
import Verif.Props.ListLike
/-
C68, C69, C93 and C94: stateful testing.
-/
namespace Verif
namespace Stateful
open Engine Random
variable {σ O M : Type}

/-! ### C68 -/

/-- The actions, applied one after the other in the given order starting in state `s`, all return, recording the failed
expectations `fs` and ending in state `s'`. -/
inductive Runs : List (Act O M) → O × M → List String → O × M → Prop
  | nil (s : O × M) : Runs [] s [] s
  | cons {a : Act O M} {as : List (Act O M)} {s s1 s2 : O × M} {fs gs : List String} :
      a s.1 s.2 = ⟨fs, .ok s1⟩ → Runs as s1 gs s2 → Runs (a :: as) s (fs ++ gs) s2

theorem andThen_ok {α β : Type} {x : Ev α} {f : α → Ev β} {fs : List String} {b : β} :
    andThen x f = ⟨fs, .ok b⟩ ↔ ∃ gs hs a, x = ⟨gs, .ok a⟩ ∧ f a = ⟨hs, .ok b⟩ ∧ fs = gs ++ hs := by
  obtain ⟨xf, xo⟩ := x
  unfold andThen
  cases xo with
  | ok a =>
    simp only [Ev.mk.injEq]
    constructor
    · rintro ⟨h1, h2⟩
      exact ⟨xf, (f a).fails, a, ⟨rfl, rfl⟩, by rw [← h2], h1.symm⟩
    · rintro ⟨gs, hs, a', ⟨rfl, h⟩, h2, rfl⟩
      cases h
      rw [h2]
      exact ⟨rfl, rfl⟩
  | throws e => simp
  | ub => simp
  | diverges => simp

theorem andThen_throws {α β : Type} {x : Ev α} {f : α → Ev β} {fs : List String} {e : Exn} :
    andThen x f = ⟨fs, .throws e⟩ ↔
      x = ⟨fs, .throws e⟩ ∨ ∃ gs hs a, x = ⟨gs, .ok a⟩ ∧ f a = ⟨hs, .throws e⟩ ∧ fs = gs ++ hs := by
  obtain ⟨xf, xo⟩ := x
  unfold andThen
  cases xo with
  | ok a =>
    simp only [Ev.mk.injEq]
    constructor
    · rintro ⟨h1, h2⟩
      exact Or.inr ⟨xf, (f a).fails, a, ⟨rfl, rfl⟩, by rw [← h2], h1.symm⟩
    · rintro (⟨_, h⟩ | ⟨gs, hs, a', ⟨rfl, h⟩, h2, rfl⟩)
      · cases h
      · cases h
        rw [h2]
        exact ⟨rfl, rfl⟩
  | throws e => simp
  | ub => simp
  | diverges => simp

theorem runActions_ok (as : List (Act O M)) (s : O × M) (fs : List String) (s' : O × M) :
    runActions as s = ⟨fs, .ok s'⟩ ↔ Runs as s fs s' := by
  induction as generalizing s fs with
  | nil =>
    simp only [runActions, Ev.mk.injEq]
    constructor
    · rintro ⟨rfl, h⟩; cases h; exact .nil _
    · rintro ⟨⟩; exact ⟨rfl, rfl⟩
  | cons a as ih =>
    rw [runActions, andThen_ok]
    constructor
    · rintro ⟨gs, hs, s1, h1, h2, rfl⟩
      exact .cons h1 ((ih _ _).mp h2)
    · intro h
      cases h with
      | cons h1 h2 => exact ⟨_, _, _, h1, (ih _ _).mpr h2, rfl⟩

theorem runActions_throws (as : List (Act O M)) (s : O × M) (fs : List String) (e : Exn) :
    runActions as s = ⟨fs, .throws e⟩ ↔
      ∃ pre a post gs hs s', as = pre ++ a :: post ∧ Runs pre s gs s' ∧ a s'.1 s'.2 = ⟨hs, .throws e⟩ ∧
        fs = gs ++ hs := by
  induction as generalizing s fs with
  | nil => simp [runActions]
  | cons a as ih =>
    rw [runActions, andThen_throws]
    constructor
    · rintro (h | ⟨gs, hs, s1, h1, h2, rfl⟩)
      · exact ⟨[], a, as, [], fs, s, rfl, .nil _, h, rfl⟩
      · obtain ⟨pre, b, post, g1, g2, s2, rfl, h4, h5, rfl⟩ := (ih s1 hs).mp h2
        exact ⟨a :: pre, b, post, gs ++ g1, g2, s2, rfl, .cons h1 h4, h5, by simp⟩
    · rintro ⟨pre, b, post, gs, hs, s', h1, h2, h3, rfl⟩
      cases pre with
      | nil =>
        cases h2
        simp at h1
        obtain ⟨rfl, rfl⟩ := h1
        exact Or.inl (by simpa using h3)
      | cons c pre =>
        simp at h1
        obtain ⟨rfl, rfl⟩ := h1
        cases h2 with
        | cons h4 h5 => exact Or.inr ⟨_, _, _, h4, (ih _ _).mpr ⟨pre, b, post, _, _, _, rfl, h5, h3, rfl⟩, by simp⟩

/-- A stateful property holds for an object and a list of actions iff the model is made from the object, the actions
are applied one after the other in list order, and then the post check runs, and all return and no expectation fails
on the way. -/
theorem C68_holds_iff (factory : O → Ev (O × M)) (check : O → M → Ev (O × M)) (obj : O) (acts : List (Act O M)) :
    func factory (some check) obj acts = ⟨[], .ok true⟩ ↔
      ∃ s s1 s2, factory obj = ⟨[], .ok s⟩ ∧ Runs acts s [] s1 ∧ check s1.1 s1.2 = ⟨[], .ok s2⟩ := by
  unfold func
  simp only [andThen_ok]
  constructor
  · rintro ⟨gs, hs, s, h1, ⟨g1, g2, s1, h2, ⟨g3, g4, s2, h3, h4, rfl⟩, rfl⟩, h5⟩
    cases h4
    simp at h5
    obtain ⟨rfl, rfl, rfl⟩ := h5
    exact ⟨s, s1, s2, h1, (runActions_ok _ _ _ _).mp h2, h3⟩
  · rintro ⟨s, s1, s2, h1, h2, h3⟩
    exact ⟨[], [], s, h1, ⟨[], [], s1, (runActions_ok _ _ _ _).mpr h2, ⟨[], [], s2, h3, rfl, rfl⟩, rfl⟩, rfl⟩

/-- It never returns false. It throws exactly what the model factory, or an action applied after all actions before it
in the list, or the post check applied after all actions throws. -/
theorem C68_throws_iff (factory : O → Ev (O × M)) (check : O → M → Ev (O × M)) (obj : O) (acts : List (Act O M)) :
    (func factory (some check) obj acts).out ≠ .ok false ∧
    ∀ e, (func factory (some check) obj acts).out = .throws e ↔
      (factory obj).out = .throws e ∨
      ∃ gs s, factory obj = ⟨gs, .ok s⟩ ∧
        ((∃ pre a post hs s', acts = pre ++ a :: post ∧ Runs pre s hs s' ∧ (a s'.1 s'.2).out = .throws e) ∨
         (∃ hs s', Runs acts s hs s' ∧ (check s'.1 s'.2).out = .throws e)) := by
  constructor
  · intro h
    have h' : func factory (some check) obj acts = ⟨(func factory (some check) obj acts).fails, .ok false⟩ := by
      rw [← h]
    revert h'
    generalize (func factory (some check) obj acts).fails = fs
    unfold func
    simp only [andThen_ok]
    rintro ⟨_, _, _, _, ⟨_, _, _, _, ⟨_, _, _, _, h, _⟩, _⟩, _⟩
    cases h
  · intro e
    have h0 : (func factory (some check) obj acts).out = .throws e ↔
        ∃ fs, func factory (some check) obj acts = ⟨fs, .throws e⟩ :=
      ⟨fun h => ⟨_, by rw [← h]⟩, fun ⟨fs, h⟩ => by rw [h]⟩
    rw [h0]
    unfold func
    simp only [andThen_throws]
    constructor
    · rintro ⟨fs, h | ⟨gs, hs, s, h1, h2 | ⟨g1, g2, s1, h2, h3 | ⟨_, _, _, _, h3, _⟩, _⟩, _⟩⟩
      · exact Or.inl (by rw [h])
      · obtain ⟨pre, a, post, g1, g2, s', h3, h4, h5, _⟩ := (runActions_throws _ _ _ _).mp h2
        exact Or.inr ⟨gs, s, h1, Or.inl ⟨pre, a, post, g1, s', h3, h4, by rw [h5]⟩⟩
      · exact Or.inr ⟨gs, s, h1, Or.inr ⟨g1, s1, (runActions_ok _ _ _ _).mp h2, by rw [h3]⟩⟩
      · cases h3
    · rintro (h | ⟨gs, s, h1, ⟨pre, a, post, hs, s', h2, h3, h4⟩ | ⟨hs, s', h2, h3⟩⟩)
      · exact ⟨(factory obj).fails, Or.inl (by rw [← h])⟩
      · refine ⟨_, Or.inr ⟨gs, _, s, h1, Or.inl ((runActions_throws _ _ _ _).mpr
          ⟨pre, a, post, hs, (a s'.1 s'.2).fails, s', h2, h3, by rw [← h4], rfl⟩), rfl⟩⟩
      · exact ⟨_, Or.inr ⟨gs, _, s, h1, Or.inr ⟨hs, _, s', (runActions_ok _ _ _ _).mpr h2,
          Or.inl (show check s'.1 s'.2 = ⟨(check s'.1 s'.2).fails, .throws e⟩ by rw [← h3]), rfl⟩, rfl⟩⟩

/-- append the digit -/
def digit (d : Nat) : Act Nat Unit := fun o m => ⟨[], .ok (10 * o + d, m)⟩
/-- throws if the object is 12 -/
def not12 : Act Nat Unit := fun o m => if o = 12 then ⟨[], .throws .assertFailed⟩ else ⟨[], .ok (o, m)⟩

example : runActions [digit 1, digit 2, digit 3] (0, ()) = ⟨[], .ok (123, ())⟩ := by rfl
example : Runs [digit 1, digit 2, digit 3] (0, ()) [] (123, ()) := (runActions_ok _ _ _ _).mp rfl
example : (func (fun o => ⟨[], .ok (o, ())⟩) none 0 [digit 1, digit 2, not12, digit 3]).out = .throws .assertFailed :=
  rfl

/-- The class style: an action whose precondition returns false in the current state is skipped, the others are
applied in list order; `run` has to return true. -/
inductive ClassRuns : List (ClassAct O M) → O × M → O × M → Prop
  | nil (s : O × M) : ClassRuns [] s s
  | skip {a : ClassAct O M} {as : List (ClassAct O M)} {s s2 : O × M} {fs : List String} :
      a.precondition s.1 s.2 = ⟨fs, .ok false⟩ → ClassRuns as s s2 → ClassRuns (a :: as) s s2
  | run {a : ClassAct O M} {as : List (ClassAct O M)} {s s1 s2 : O × M} {fs gs : List String} :
      a.precondition s.1 s.2 = ⟨fs, .ok true⟩ → a.run s.1 s.2 = ⟨gs, .ok (true, s1)⟩ → ClassRuns as s1 s2 →
      ClassRuns (a :: as) s s2

/-- A class style property returns (then true) iff all actions, applied in order except for the skipped ones, return
true; if an action that is applied returns false, the property throws AssertFailed. -/
theorem C68_class_style (factory : O → Ev (O × M)) (obj : O) (acts : List (ClassAct O M)) :
    ((∃ b, (classFunc factory obj acts).out = .ok b) ↔
      ∃ fs s s', factory obj = ⟨fs, .ok s⟩ ∧ ClassRuns acts s s') ∧
    (classFunc factory obj acts).out ≠ .ok false ∧
    (∀ fs s s' pre a post gs hs s1, factory obj = ⟨fs, .ok s⟩ → acts = pre ++ a :: post → ClassRuns pre s s' →
      a.precondition s'.1 s'.2 = ⟨gs, .ok true⟩ → a.run s'.1 s'.2 = ⟨hs, .ok (false, s1)⟩ →
      (classFunc factory obj acts).out = .throws .assertFailed) := by
  have key : ∀ (as : List (ClassAct O M)) (s s' : O × M),
      (∃ fs, runClassActions as s = ⟨fs, .ok s'⟩) ↔ ClassRuns as s s' := by
    intro as
    induction as with
    | nil =>
      intro s s'
      constructor
      · rintro ⟨fs, h⟩
        simp only [runClassActions, Ev.mk.injEq] at h
        cases h.2
        exact .nil _
      · rintro ⟨⟩; exact ⟨[], rfl⟩
    | cons a as ih =>
      intro s s'
      constructor
      · rintro ⟨fs, h⟩
        rw [runClassActions, andThen_ok] at h
        obtain ⟨gs, hs, b, h1, h2, _⟩ := h
        cases b with
        | false => exact .skip h1 ((ih s s').mp ⟨hs, h2⟩)
        | true =>
          rw [if_pos rfl, andThen_ok] at h2
          obtain ⟨g1, g2, ⟨r, s1⟩, h3, h4, _⟩ := h2
          cases r with
          | false => simp at h4
          | true => exact .run h1 h3 ((ih s1 s').mp ⟨g2, h4⟩)
      · intro h
        cases h with
        | skip h1 h2 =>
          obtain ⟨hs, h3⟩ := (ih s s').mpr h2
          rw [runClassActions]
          exact ⟨_, andThen_ok.mpr ⟨_, hs, false, h1, h3, rfl⟩⟩
        | run h1 h2 h3 =>
          obtain ⟨hs, h4⟩ := (ih _ s').mpr h3
          rw [runClassActions]
          exact ⟨_, andThen_ok.mpr ⟨_, _, true, h1, andThen_ok.mpr ⟨_, hs, _, h2, h4, rfl⟩, rfl⟩⟩
  have ok : ∀ b, (classFunc factory obj acts).out = .ok b → b = true ∧
      ∃ fs s s', factory obj = ⟨fs, .ok s⟩ ∧ ClassRuns acts s s' := by
    intro b h
    have h' : classFunc factory obj acts = ⟨(classFunc factory obj acts).fails, .ok b⟩ := by rw [← h]
    revert h'
    generalize (classFunc factory obj acts).fails = fs
    unfold classFunc
    simp only [andThen_ok]
    rintro ⟨gs, _, s, h1, ⟨g1, _, s1, h2, h3, _⟩, _⟩
    simp at h3
    exact ⟨h3.2, gs, s, s1, h1, (key _ _ _).mp ⟨_, h2⟩⟩
  refine ⟨⟨fun ⟨b, h⟩ => (ok b h).2, ?_⟩, fun h => (by simpa using (ok _ h).1), ?_⟩
  · rintro ⟨fs, s, s', h1, h2⟩
    obtain ⟨gs, h3⟩ := (key _ _ _).mpr h2
    refine ⟨true, ?_⟩
    unfold classFunc
    rw [h1]
    simp [andThen, h3]
  · intro fs s s' pre a post gs hs s1 h1 h2 h3 h4 h5
    subst h2
    have : ∀ s, ClassRuns pre s s' → (runClassActions (pre ++ a :: post) s).out = .throws .assertFailed := by
      intro s h
      clear h1 h3 ok
      induction h with
      | nil s =>
        rw [List.nil_append, runClassActions, h4]
        simp [andThen, h5]
      | skip h6 _ ih =>
        rw [List.cons_append, runClassActions, h6]
        simp [andThen, ih h4 h5]
      | run h6 h7 _ ih =>
        rw [List.cons_append, runClassActions, h6]
        simp only [andThen, if_true, h7]
        exact ih h4 h5
    unfold classFunc
    rw [h1]
    have h6 := this s h3
    simp [andThen, h6]

/-- counts up to 3 only -/
def upTo3 : ClassAct Nat Unit := ⟨fun o _ => ⟨[], .ok (decide (o < 3))⟩, fun o m => ⟨[], .ok (true, o + 1, m)⟩⟩
/-- returns false -/
def bad : ClassAct Nat Unit := ⟨fun _ _ => ⟨[], .ok true⟩, fun o m => ⟨[], .ok (false, o, m)⟩⟩

example : runClassActions [upTo3, upTo3, upTo3, upTo3] (1, ()) = ⟨[], .ok (3, ())⟩ := rfl
example : (classFunc (fun o => ⟨[], .ok (o, ())⟩) 1 [upTo3, upTo3, upTo3, bad]).out = .throws .assertFailed := rfl

/-- An action that only says how to run has no precondition: it is always executed. A list of such actions passes exactly if
they all return true, one applied after the other. -/
theorem C68_without_precondition (factory : O → Ev (O × M)) (obj : O) (runs : List (O → M → Ev (Bool × O × M))) :
    (∃ b, (classFunc factory obj (runs.map fun r => { ClassAct.default with run := r })).out = .ok b) ↔
      ∃ fs s, factory obj = ⟨fs, .ok s⟩ ∧
        ∃ states : List (O × M), states.length = runs.length ∧
          ∀ i, ∀ hi : i < runs.length, ∃ gs s', (s :: states)[i + 1]? = some s' ∧
            ∃ s0, (s :: states)[i]? = some s0 ∧ runs[i] s0.1 s0.2 = ⟨gs, .ok (true, s')⟩ := by
  rw [(C68_class_style factory obj _).1]
  have key : ∀ (runs : List (O → M → Ev (Bool × O × M))) (s : O × M),
      (∃ s', ClassRuns (runs.map fun r => { ClassAct.default with run := r }) s s') ↔
        ∃ states : List (O × M), states.length = runs.length ∧
          ∀ i, ∀ hi : i < runs.length, ∃ gs s', (s :: states)[i + 1]? = some s' ∧
            ∃ s0, (s :: states)[i]? = some s0 ∧ runs[i] s0.1 s0.2 = ⟨gs, .ok (true, s')⟩ := by
    intro runs
    induction runs with
    | nil => intro s; exact ⟨fun _ => ⟨[], rfl, fun i hi => absurd hi (by simp)⟩, fun _ => ⟨s, .nil s⟩⟩
    | cons r runs ih =>
      intro s
      constructor
      · rintro ⟨s', h⟩
        rw [List.map_cons] at h
        cases h with
        | skip h1 _ => simp [ClassAct.default] at h1
        | @run _ _ _ s1 _ _ gs _ h2 h3 =>
          obtain ⟨states, h4, h5⟩ := (ih s1).1 ⟨s', h3⟩
          refine ⟨s1 :: states, by simp [h4], fun i hi => ?_⟩
          cases i with
          | zero => exact ⟨gs, s1, rfl, s, rfl, h2⟩
          | succ i => simpa using h5 i (by simpa using hi)
      · rintro ⟨states, h1, h2⟩
        obtain ⟨gs, s1, h3, s0, h4, h5⟩ := h2 0 (by simp)
        cases h4
        cases states with
        | nil => simp at h1
        | cons s1' states =>
          simp at h3
          subst h3
          obtain ⟨s', h6⟩ := (ih s1').2 ⟨states, by simpa using h1, fun i hi => by
            obtain ⟨gs, s', k1, s0, k2, k3⟩ := h2 (i + 1) (by simpa using hi)
            exact ⟨gs, s', k1, s0, k2, k3⟩⟩
          exact ⟨s', .run (fs := []) rfl h5 h6⟩
  constructor
  · rintro ⟨fs, s, s', h1, h2⟩
    exact ⟨fs, s, h1, (key runs s).1 ⟨s', h2⟩⟩
  · rintro ⟨fs, s, h1, h2⟩
    obtain ⟨s', h3⟩ := (key runs s).2 h2
    exact ⟨fs, s, s', h1, h3⟩

example : (classFunc (fun o => ⟨[], .ok (o, ())⟩) 5
    ([fun o m => ⟨[], .ok (true, o + 1, m)⟩, fun o m => ⟨[], .ok (decide (o = 6), 2 * o, m)⟩].map
      fun r => { ClassAct.default with run := r })).out = .ok true := by decide

/-- An action that does not say how to run cannot be tested: if an execution comes to it, the run fails with a
`runtime_error`. -/
theorem C68_without_run (factory : O → Ev (O × M)) (obj : O) (acts : List (ClassAct O M)) (pre post : List (ClassAct O M))
    (ha : acts = pre ++ ClassAct.default :: post) (fs : List String) (s s' : O × M) (hf : factory obj = ⟨fs, .ok s⟩)
    (hr : ClassRuns pre s s') : (classFunc factory obj acts).out = .throws .runtimeError := by
  subst ha
  have key : ∀ s, ClassRuns pre s s' → (runClassActions (pre ++ ClassAct.default :: post) s).out = .throws .runtimeError := by
    intro s h
    clear hf hr
    induction h with
    | nil s => simp [runClassActions, ClassAct.default, andThen]
    | skip h1 _ ih => simp only [List.cons_append, runClassActions, h1, andThen]; simpa using ih
    | run h1 h2 _ ih => simp only [List.cons_append, runClassActions, h1, h2, andThen]; simpa using ih
  simp only [classFunc, hf, andThen, key s hr]

example : (classFunc (fun o => ⟨[], .ok (o, ())⟩) 2 [upTo3, upTo3, ClassAct.default, upTo3]).out =
    .throws .runtimeError := by decide

/-- The arguments of a reported failure of a property of an object and a list made by the list generator. -/
theorem shrinks_to_sublist {X : Type} {c : Cfg σ (Two O (List X))} (R : Rng σ) (gx : Gen σ X)
    (hg : c.gens 1 = ListLike.arbiVector R gx 0 200) (hc : Setting c) (fuel : Nat) (seed : σ) (a : Nat)
    (start shrunk : PairTuple.Tup (Two O (List X))) (tr : Trace (Two O (List X)))
    (h : forAll c fuel seed [] = (.ok (.falsified a start shrunk), tr)) :
    ∃ (xs zs : List (Shr X)), (∃ s₁ s₂, gx.Draws s₁ xs s₂) ∧ xs.length ≤ 200 ∧ (start 1).value = xs.map Shr.value ∧
      zs.Sublist xs ∧ List.Forall₂ Reach zs (shrunk 1).value ∧ Desc (start 0) (shrunk 0) := by
  have hdesc := (C48_observed hc fuel seed a start shrunk tr h).2
  have hr := forAll_result hc fuel seed
  rw [h] at hr
  obtain ⟨i, hi, hst⟩ := hr.stop a start shrunk rfl
  obtain ⟨pre, x, s', t', _, _, hR, _, _, _, ⟨s0, r0, hd⟩, _⟩ := hst.ex
  cases hR
  obtain ⟨s1, s2, hm⟩ := Gen.drawTuple_ok _ _ _ _ _ hd 1
  rw [hg] at hm
  obtain ⟨xs, s3, _, h1, _, h3, h4, h5, _⟩ := C27_vector R gx 0 200 (by omega) (by omega) s1 s2 _ hm
  obtain ⟨_, _, zs, h6, h7⟩ := h5 (shrunk 1).value ⟨_, hdesc 1, rfl⟩
  exact ⟨xs, zs, ⟨_, _, h1⟩, h3, h4, h6, h7, hdesc 0⟩

/-- When the failure of a stateful property is shrunk, the reported list of actions arises from the generated one by
deleting actions and shrinking the others, the reported object arises from the generated one by shrinking, and the
reported object and actions do not pass. (`hq`: user code that discards or succeeds early has no failed expectation
before; without it the corner case of C48 applies.) -/
theorem C68_shrinks_to_sublist (p : Prop' σ O M) (env : Env σ O (List (Act O M))) (hc : Setting (p.config env))
    (hq : ∀ obj acts, (func (callFactory p.modelFactory) p.postCheck obj acts).out = .throws .success ∨
      (func (callFactory p.modelFactory) p.postCheck obj acts).out = .throws .discard →
      (func (callFactory p.modelFactory) p.postCheck obj acts).fails = [])
    (fuel : Nat) (a : Nat) (start shrunk : PairTuple.Tup (Two O (List (Act O M))))
    (tr : Trace (Two O (List (Act O M)))) (h : (p.go env fuel []).1 = (.ok (.falsified a start shrunk), tr)) :
    (∃ (xs zs : List (Shr (Act O M))), (∃ s₁ s₂, p.actionGen.Draws s₁ xs s₂) ∧ (start 1).value = xs.map Shr.value ∧
      zs.Sublist xs ∧ List.Forall₂ Reach zs (shrunk 1).value) ∧ Desc (start 0) (shrunk 0) ∧
    (func (callFactory p.modelFactory) p.postCheck (shrunk 0).value (shrunk 1).value).Rejects := by
  obtain ⟨xs, zs, h1, _, h3, h4, h5, h6⟩ := shrinks_to_sublist env.R p.actionGen rfl hc fuel _ a start shrunk tr h
  refine ⟨⟨xs, zs, h1, h3, h4, h5⟩, h6, ?_⟩
  exact (C48_shrunk_arguments_fail_partial (f := fun args =>
    func (callFactory p.modelFactory) p.postCheck (args 0) (args 1)) hc (fun _ _ => rfl)
    (fun args => hq (args 0) (args 1)) fuel _ a start shrunk tr h).1

/-- The same for the class style. -/
theorem C68_class_shrinks_to_sublist (env : Env σ O (List (ClassAct O M))) (initialGen : Gen σ O)
    (factory : O → Ev (O × M)) (actionGen : Gen σ (ClassAct O M)) (numRuns maxMs : Nat)
    (hc : Setting (classConfig env initialGen factory actionGen numRuns maxMs))
    (hq : ∀ obj acts, (classFunc factory obj acts).out = .throws .success ∨
      (classFunc factory obj acts).out = .throws .discard → (classFunc factory obj acts).fails = [])
    (fuel : Nat) (seed : σ) (a : Nat) (start shrunk : PairTuple.Tup (Two O (List (ClassAct O M))))
    (tr : Trace (Two O (List (ClassAct O M))))
    (h : forAll (classConfig env initialGen factory actionGen numRuns maxMs) fuel seed [] =
      (.ok (.falsified a start shrunk), tr)) :
    (∃ (xs zs : List (Shr (ClassAct O M))), (∃ s₁ s₂, actionGen.Draws s₁ xs s₂) ∧ (start 1).value = xs.map Shr.value ∧
      zs.Sublist xs ∧ List.Forall₂ Reach zs (shrunk 1).value) ∧ Desc (start 0) (shrunk 0) ∧
    (classFunc factory (shrunk 0).value (shrunk 1).value).Rejects := by
  obtain ⟨xs, zs, h1, _, h3, h4, h5, h6⟩ := shrinks_to_sublist env.R actionGen rfl hc fuel _ a start shrunk tr h
  refine ⟨⟨xs, zs, h1, h3, h4, h5⟩, h6, ?_⟩
  exact (C48_shrunk_arguments_fail_partial (f := fun args => classFunc factory (args 0) (args 1)) hc
    (fun _ _ => rfl) (fun args => hq (args 0) (args 1)) fuel _ a start shrunk tr h).1

/-! A sample: the object is a number; lists of `size` actions are drawn. -/

/-- The post check that was set is the one in force. If `go` returns true, then in every run whose user code returned, the
model was made from the generated object, the generated actions ran one after the other, and the check returned for the
object and model they left, all without a failed expectation. If `go` reports a failure, then one of these does not hold
of the reported object and actions. -/
theorem C68_post_check_in_force (p : Prop' σ O M) (factory : O → Ev (O × M)) (hp : p.modelFactory = some factory)
    (check : O → M → Ev (O × M)) (env : Env σ O (List (Act O M))) (hc : Setting ((p.setPostCheck check).config env))
    (fuel : Nat) (tr : Trace (Two O (List (Act O M)))) :
    (((p.setPostCheck check).go env fuel []).1 = (.ok .passed, tr) →
      ∀ x ∈ calls .run tr, (∃ b, x.2.out = .ok b) →
        ∃ s s1 s2, factory (x.1 0) = ⟨[], .ok s⟩ ∧ Runs (x.1 1) s [] s1 ∧ check s1.1 s1.2 = ⟨[], .ok s2⟩) ∧
    ((∀ obj acts e, (func factory (some check) obj acts).out = .throws e →
        (e = .success ∨ e = .discard) → (func factory (some check) obj acts).fails = []) →
      ∀ a start shrunk, ((p.setPostCheck check).go env fuel []).1 = (.ok (.falsified a start shrunk), tr) →
      ¬ ∃ s s1 s2, factory (shrunk 0).value = ⟨[], .ok s⟩ ∧ Runs (shrunk 1).value s [] s1 ∧
          check s1.1 s1.2 = ⟨[], .ok s2⟩) := by
  have hpp : (p.setPostCheck check).modelFactory = some factory := hp
  constructor
  · intro h x hx hb
    obtain ⟨b, hb⟩ := hb
    obtain ⟨_, h2⟩ := C43_true_means_every_run_passed hc fuel _ tr h
    have h3 : x.2 = func factory (some check) (x.1 0) (x.1 1) := by
      have := run_calls_pure hc (f := fun args => func (callFactory (p.setPostCheck check).modelFactory)
        (p.setPostCheck check).postCheck (args 0) (args 1)) (fun _ _ => rfl) fuel _ _ tr h x hx
      rw [this, hpp]; rfl
    have h4 : x.2 = ⟨[], .ok true⟩ := by
      rcases h2 x hx (by rw [hb]; simp) with h5 | ⟨h5, h6⟩
      · rw [hb] at h5; cases h5
      · cases hx2 : x.2 with
        | mk f o => rw [hx2] at h5 h6; simp only at h5 h6; rw [h5, h6]
    rw [h3] at h4
    exact (C68_holds_iff factory check (x.1 0) (x.1 1)).1 h4
  · intro hq a start shrunk h hbad
    have hf : func (callFactory (p.setPostCheck check).modelFactory) (p.setPostCheck check).postCheck =
        func factory (some check) := by rw [hpp]; rfl
    have := (C68_shrinks_to_sublist (p.setPostCheck check) env hc (by
      intro obj acts he
      rw [hf] at he ⊢
      rcases he with he | he
      · exact hq _ _ _ he (.inl rfl)
      · exact hq _ _ _ he (.inr rfl)) fuel a start shrunk tr h).2.2
    rw [hf, (C68_holds_iff factory check (shrunk 0).value (shrunk 1).value).2 hbad] at this
    simp [Ev.Rejects] at this

/-- an environment without time limit; the engine wishes for lists of the given size -/
def sampleEnv (size : Nat) : Env Unit Nat (List (Act Nat Unit)) where
  R := wish size
  seeded := fun _ => ()
  globalSeed := 0
  defaultNumRuns := 1000
  defaultMaxDurationMs := 0
  orderRun := [0, 1]
  orderShrink := [0, 1]
  orderEach := [0, 1]
  thrown := id
  clock := fun _ => 0

/-- Starts with 0, all actions append 1; the post check wants a number below 11. -/
def sample : Prop' Unit Nat Unit :=
  ((Prop'.new (fun s => .ok (Shr.leaf 0, s)) (fun o => ⟨[], .ok (o, ())⟩)
    (fun s => .ok (Shr.leaf (digit 1), s))).setPostCheck
      (fun o m => if o < 11 then ⟨[], .ok (o, m)⟩ else ⟨[], .throws .assertFailed⟩)).setNumRuns 2

/-- what a run of the sample shows: the verdict, the numbers of actions of the counterexample before and after
shrinking, the lengths of the lists in the calls -/
def seen {X : Type} (r : Outcome (Report (Two Nat (List X))) × Trace (Two Nat (List X))) :
    Outcome Bool × Option (Nat × Nat) × List Nat × List Nat :=
  (match r.1 with
    | .ok R => .ok R.verdict
    | .throws e => .throws e
    | .ub => .ub
    | .diverges => .diverges,
   match r.1 with
    | .ok (.falsified _ s t) => some (List.length (s 1).value, List.length (t 1).value)
    | _ => none,
   (calls .run r.2).map (fun x => List.length (x.1 1)), (calls .shrink r.2).map (fun x => List.length (x.1 1)))

example : seen ((sample.go (sampleEnv 1) 5 []).1) = (.ok true, none, [1, 1], []) := by decide +kernel

example : seen ((sample.go (sampleEnv 3) 5 []).1) = (.ok false, some (3, 2), [3], [0, 1, 2, 1]) := by decide +kernel

example : Setting (sample.config (sampleEnv 3)) where
  quiet := ⟨fun k h => by simp [Prop'.config, sample, Prop'.new, Prop'.setPostCheck, Prop'.setNumRuns] at h,
    fun k h => by simp [Prop'.config] at h⟩
  order := rfl
  nodup := by simp [Prop'.config, sampleEnv]
  gens := fun s => by
    obtain ⟨r, hr⟩ := Gen.drawTuple_total (sample.config (sampleEnv 3)).gens (sample.config (sampleEnv 3)).orderRun
      (by intro i; match i with | 0 => decide | 1 => decide)
      (by intro i s; match i with
          | 0 => exact ⟨_, rfl⟩
          | 1 => exact C27_vector_total (sampleEnv 3).R sample.actionGen 0 200 (by omega) (by omega)
                  (fun s => ⟨_, rfl⟩) s) s
    rw [hr]; simp

/-- `sample` is of that form, passes with lists of one action and fails with lists of three (see above); the check is what
fails. -/
example : sample = (sample.setPostCheck
      (fun o m => if o < 11 then ⟨[], .ok (o, m)⟩ else ⟨[], .throws .assertFailed⟩)) ∧
    sample.modelFactory = some (fun o => ⟨[], .ok (o, ())⟩) := ⟨rfl, rfl⟩

/-! ### C69 -/

/-- The only hook that ran is `h`, as startup hook: directly before every call of the property function `h` ran and
returned. (Newest event first.) -/
inductive OnlyBefore {A : Fin 2 → Type} (h : Trace A → Ev Unit) : Trace A → Prop
  | nil : OnlyBefore h []
  | before (ph : Phase) {tr : Trace A} : OnlyBefore h tr → OnlyBefore h (.startup ph (h tr) :: tr)
  | call (ph : Phase) (args : Args A) (e : Ev Bool) {tr : Trace A} : OnlyBefore h tr → (h tr).out = .ok () →
      OnlyBefore h (.call ph args e :: .startup ph (h tr) :: tr)
  | gen (ph : Phase) (e : Exn) {tr : Trace A} : OnlyBefore h tr → OnlyBefore h (.genThrew ph e :: tr)

theorem onlyBefore_test {A : Fin 2 → Type} {c : Cfg σ A} {h : Trace A → Ev Unit} (h1 : c.startup = some h)
    (h2 : c.cleanup = none) (N : Fin 2) (vals : PairTuple.Tup A) (next : Shr (A N)) (s : St σ A)
    (hs : OnlyBefore h s.trace) : OnlyBefore h (test c vals N next s).2.trace := by
  have hsu : runStartup c .shrink s = ((h s.trace).out,
      { s with fails := s.fails ++ (h s.trace).fails, trace := .startup .shrink (h s.trace) :: s.trace }) := by
    simp [runStartup, h1, record]
  have hcu : ∀ s, runCleanup c .shrink s = (.ok (), s) := by intro s; simp [runCleanup, h2]
  unfold test Eng.catchStd Eng.tryCatch
  simp only [Eng.bind_apply, hsu]
  cases ho : (h s.trace).out with
  | ok u =>
    simp only [callFunc_apply]
    generalize c.func _ _ = ev
    have key := OnlyBefore.call .shrink (Function.update (Tup.get vals) N next.value) ev hs ho
    cases hev : ev.out with
    | ok b => simpa only [hcu, Eng.pure_apply] using key
    | throws e => simp only; split <;> exact key
    | ub => exact key
    | diverges => exact key
  | throws e => simp only; split <;> exact .before _ hs
  | ub => exact .before _ hs
  | diverges => exact .before _ hs

theorem onlyBefore_shrink {A : Fin 2 → Type} {c : Cfg σ A} {h : Trace A → Ev Unit} (h1 : c.startup = some h)
    (h2 : c.cleanup = none) (s : St σ A) (hs : OnlyBefore h s.trace) : OnlyBefore h (shrink c s).2.trace :=
  shrink_inv (fun N vals next s => onlyBefore_test h1 h2 N vals next s) (fun e _ h => .gen _ e h) s hs

theorem onlyBefore_attempt {A : Fin 2 → Type} {c : Cfg σ A} {h : Trace A → Ev Unit} (h1 : c.startup = some h)
    (h2 : c.cleanup = none) (s : St σ A) (hs : OnlyBefore h s.trace) : OnlyBefore h (attempt c s).2.trace := by
  have hsu : ∀ s : St σ A, runStartup c .run s = ((h s.trace).out,
      { s with fails := s.fails ++ (h s.trace).fails, trace := .startup .run (h s.trace) :: s.trace }) := by
    intro s; simp [runStartup, h1, record]
  have hcu : ∀ s, runCleanup c .run s = (.ok (), s) := by intro s; simp [runCleanup, h2]
  unfold attempt invokeWithGenTuple assertToProperty
  simp only [Eng.bind_apply, Eng.modify, hsu, drawRun_apply]
  cases ho : (h s.trace).out with
  | ok u =>
    simp only
    cases hd : Gen.drawTuple c.gens c.orderRun s.rand with
    | throws e => exact .gen _ e (.before _ hs)
    | ub => exact .before _ hs
    | diverges => exact .before _ hs
    | ok p =>
      obtain ⟨ts, r⟩ := p
      simp only [Eng.tryCatch, callFunc_apply]
      generalize c.func _ _ = ev
      have key := OnlyBefore.call .run (Tup.get ts) ev hs ho
      cases hev : ev.out with
      | throws e => by_cases he : e = .assertFailed <;> simpa [he, Eng.throw] using key
      | ub => exact key
      | diverges => exact key
      | ok b =>
        simp only [hcu, flushFailures]
        split
        · exact shrinkBind_inv (P := fun _ tr => OnlyBefore h tr) (fun s hs => onlyBefore_shrink h1 h2 s hs) _ key
            Step.stop
        · split
          · exact shrinkBind_inv (P := fun _ tr => OnlyBefore h tr) (fun s hs => onlyBefore_shrink h1 h2 s hs) _ key
              Step.stop
          · exact key
  | throws e => exact .before _ hs
  | ub => exact .before _ hs
  | diverges => exact .before _ hs

theorem onlyBefore_go (p : Prop' σ O M) (env : Env σ O (List (Act O M))) (h : Trace (Two O (List (Act O M))) → Ev Unit)
    (h1 : (p.config env).startup = some h) (fuel : Nat) : OnlyBefore h (p.go env fuel []).1.2 := by
  obtain ⟨_, hr⟩ := forAll_inv (c := p.config env) (P := fun _ tr => OnlyBefore h tr)
    (fun s hs => onlyBefore_attempt h1 rfl s hs) (fun s hs => onlyBefore_shrink h1 rfl s hs) fuel (p.seedUsed env) [] .nil
  exact hr

/-- C69 is violated, always: a hook set by `setOnCleanup` runs directly before every call of the property function and
never after one, and no other hook runs, whether or not one was set by `setOnStartup`. -/
theorem C69_cleanup_runs_as_startup_violated (p : Prop' σ O M) (env : Env σ O (List (Act O M)))
    (h : Trace (Two O (List (Act O M))) → Ev Unit) (fuel : Nat) :
    OnlyBefore h ((p.setOnCleanup h).go env fuel []).1.2 :=
  onlyBefore_go _ env h rfl fuel

/-- Without cleanup hook, a hook set by `setOnStartup` runs before every call.

Partial: C69 also asks for the cleanup hook to run after each run, and for the startup hook to run when a cleanup hook
is set; both are false by `C69_cleanup_runs_as_startup_violated`. -/
theorem C69_startup_partial (p : Prop' σ O M) (env : Env σ O (List (Act O M))) (hp : p.onCleanup = none)
    (h : Trace (Two O (List (Act O M))) → Ev Unit) (fuel : Nat) :
    OnlyBefore h ((p.setOnStartup h).go env fuel []).1.2 := by
  refine onlyBefore_go _ env h ?_ fuel
  have : (p.setOnStartup h).onCleanup = none := hp
  simp only [Prop'.config, this]
  rfl

/-- A hook that throws something that is no std::exception. As startup hook it would end the test program; when a
cleanup hook is set, it is never called and the property passes. -/
example : (seen ((sample.setOnStartup (fun _ => ⟨[], .throws .foreign⟩)).go (sampleEnv 1) 5 []).1).1 = .throws .foreign ∧
    (seen (((sample.setOnStartup (fun _ => ⟨[], .throws .foreign⟩)).setOnCleanup (fun _ => ⟨[], .ok ()⟩)).go
      (sampleEnv 1) 5 []).1).1 = .ok true := by decide +kernel

/-- the events of two runs with a cleanup hook: startup (0) and call (1), no cleanup (2) -/
example : kinds ((sample.setOnCleanup (fun _ => ⟨[], .ok ()⟩)).go (sampleEnv 1) 5 []).1.2.reverse = [0, 1, 0, 1] := by
  decide +kernel

/-! ### C93 -/

/-- C93 is violated: `go` moves the generator of the initial object and the model factory out of the property, so when it
is called again every generation of an object throws `bad_function_call`; the exception leaves `go` in the first run. -/
theorem C93_second_go_throws_violated :
    seen ((sample.go (sampleEnv 1) 5 []).1) = (.ok true, none, [1, 1], []) ∧
    seen (((sample.go (sampleEnv 1) 5 []).2.go (sampleEnv 1) 5 []).1) = (.throws .stdOther, none, [], []) := by
  decide +kernel

/-- In the class style `go` can be called again: whatever happened before, it ends the same way and makes the same calls
(same seed, no time limit).

Partial: C93 asks this of the function style too, which is false by `C93_second_go_throws_violated`. -/
theorem C93_class_style_partial (env : Env σ O (List (ClassAct O M))) (initialGen : Gen σ O)
    (factory : O → Ev (O × M)) (actionGen : Gen σ (ClassAct O M)) (numRuns fuel : Nat) (seed : σ) :
    ∃ o new, ∀ tr, forAll (classConfig env initialGen factory actionGen numRuns 0) fuel seed tr = (o, new ++ tr) :=
  C46_same_seed_same_runs (f := fun args => classFunc factory (args 0) (args 1))
    ⟨fun _ _ => rfl, fun k h => by simp [classConfig] at h, fun k h => by simp [classConfig] at h⟩ rfl fuel seed

/-! ### C94 -/

/-- Settings other than the largest value of their type are in force: if the property passes, it made as many calls
that were not discarded as `setNumRuns` asked for, drawing from the seed given to `setSeed`.

Partial: C94 asks this for all values, see `C94_largest_values_ignored_violated`. -/
theorem C94_settings_partial (p : Prop' σ O M) (env : Env σ O (List (Act O M))) (seed n : Nat)
    (hs : seed < 2^64 - 1) (hn : n < 2^32 - 1) (fuel : Nat)
    (hc : Setting (((p.setSeed seed).setNumRuns n).config env)) (tr : Trace (Two O (List (Act O M))))
    (h : (((p.setSeed seed).setNumRuns n).go env fuel []).1 = (.ok .passed, tr)) :
    ((calls .run tr).filter (fun x => x.2.out ≠ .throws .discard)).length = n ∧
    ((p.setSeed seed).setNumRuns n).seedUsed env = env.seeded seed := by
  constructor
  · have := (C43_true_means_every_run_passed hc fuel _ tr h).1
    rw [this]
    exact if_pos (show n ≠ 2^32 - 1 by omega)
  · exact congrArg env.seeded (if_pos (show seed ≠ 2^64 - 1 by omega))

example : seen (((sample.setSeed 7).setNumRuns 3).go (sampleEnv 1) 5 []).1 = (.ok true, none, [1, 1, 1], []) := by
  decide +kernel

/-- C94. What is not set is as documented: a new stateful property makes the default number of runs, starting from the
global seed. -/
theorem C94_defaults (ig : Gen σ O) (factory : O → Ev (O × M)) (ag : Gen σ (Act O M)) (env : Env σ O (List (Act O M)))
    (fuel : Nat) (hc : Setting ((Prop'.new ig factory ag).config env)) (tr : Trace (Two O (List (Act O M))))
    (h : ((Prop'.new ig factory ag).go env fuel []).1 = (.ok .passed, tr)) :
    ((calls .run tr).filter (fun x => x.2.out ≠ .throws .discard)).length = env.defaultNumRuns ∧
    (Prop'.new ig factory ag).seedUsed env = env.seeded env.globalSeed := by
  constructor
  · have := (C43_true_means_every_run_passed hc fuel _ tr h).1
    rw [this]
    exact if_neg (t := 2^32 - 1) (show ¬ (2^32 - 1 ≠ 2^32 - 1) by simp)
  · exact congrArg env.seeded (if_neg (t := 2^64 - 1) (show ¬ (2^64 - 1 ≠ 2^64 - 1) by simp))

example : seen ((Prop'.new (fun s => .ok (Shr.leaf 0, s)) (fun o => ⟨[], .ok (o, ())⟩)
      (fun s => .ok (Shr.leaf (digit 1), s))).go { sampleEnv 1 with defaultNumRuns := 3 } 5 []).1 = (.ok true, none, [1, 1, 1], []) := by
  decide +kernel

/-- C94 is violated for the largest value: `setNumRuns(UINT32_MAX)` is the same as not calling it, so a passing property
makes the default number of calls (here 3) only; likewise `setSeed(UINT64_MAX)` leaves the global seed in force. -/
theorem C94_largest_values_ignored_violated :
    seen ((sample.setNumRuns (2^32 - 1)).go { sampleEnv 1 with defaultNumRuns := 3 } 5 []).1 =
      (.ok true, none, [1, 1, 1], []) ∧
    ∀ env : Env σ O (List (Act O M)), ∀ p : Prop' σ O M, (p.setSeed (2^64 - 1)).seedUsed env = env.seeded env.globalSeed := by
  refine ⟨by decide +kernel, fun env p => ?_⟩
  simp [Prop'.seedUsed, Prop'.setSeed, uint64Max]

end Stateful
end Verif
