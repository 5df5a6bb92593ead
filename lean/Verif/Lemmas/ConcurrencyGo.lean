import Verif.Spec.ConcurrencyGo
/-
Auxiliary facts about the loops of `goTest`.
-/
namespace Verif
namespace Concurrency
open Engine Stateful
variable {σ O L α : Type}

section Induct
variable (T : Test σ O L) (P : σ → O → List (GoEvent O L) → σ → O → Prop)
  (nil : ∀ s c, P s c [] s c)
  (app : ∀ s c es s1 c1 es' s2 c2, P s c es s1 c1 → P s1 c1 es' s2 c2 → P s c (es ++ es') s2 c2)
  (one : ∀ k s c, P s c (tryOnce T k s c).events (tryOnce T k s c).rand (tryOnce T k s c).cell)
include nil app one

theorem tryUntil_induct (fuel : Nat) : ∀ k s c,
    P s c (tryUntil T fuel k s c).events (tryUntil T fuel k s c).rand (tryUntil T fuel k s c).cell := by
  induction fuel with
  | zero => intro k s c; exact nil s c
  | succ fuel ih =>
    intro k s c
    have h1 := one k s c
    rw [tryUntil]
    split
    · split
      · exact h1
      · split_ifs
        · exact h1
        · exact app _ _ _ _ _ _ _ _ h1 (ih _ _ _)
        · exact h1
      · exact h1
      · exact h1
    · exact h1
    · exact h1

theorem runs_induct (fuel left : Nat) : ∀ k s c,
    P s c (runs T fuel left k s c).events (runs T fuel left k s c).rand (runs T fuel left k s c).cell := by
  induction left with
  | zero => intro k s c; exact nil s c
  | succ left ih =>
    intro k s c
    have h1 := tryUntil_induct T P nil app one fuel k s c
    rw [runs]
    split
    · exact nil s c
    · dsimp only
      split
      · split
        · exact app _ _ _ _ _ _ _ _ h1 (ih _ _ _)
        · exact h1
        · exact h1
        · exact h1
      · exact h1
      · exact h1

/-- What holds of attempts and is kept by putting them together holds of the whole test. -/
theorem goTest_induct (fuel left : Nat) (s : σ) (c : O) :
    P s c (goTest T fuel left s c).events (goTest T fuel left s c).rand (goTest T fuel left s c).cell := by
  have h := runs_induct T P nil app one fuel left 0 s c
  unfold goTest
  dsimp only
  split
  · split
    · split_ifs <;> exact h
    · exact h
  · exact h

end Induct

/-- The generation of one run alone. -/
def round (g : Draw σ O) (prepare : O → Draw σ L) (s : σ) : List (Generated O L) × σ :=
  match g s with
  | (.ok o, s1) => ([.obj (.ok o), .lists (prepare o s1).1], (prepare o s1).2)
  | (r, s1) => ([.obj r], s1)

/-- The generation of `n` runs after each other. -/
def rounds (g : Draw σ O) (prepare : O → Draw σ L) : Nat → σ → List (Generated O L) × σ
  | 0, s => ([], s)
  | n + 1, s =>
    let r := round g prepare s
    (r.1 ++ (rounds g prepare n r.2).1, (rounds g prepare n r.2).2)

theorem rounds_add (g : Draw σ O) (prepare : O → Draw σ L) (n m : Nat) : ∀ s,
    rounds g prepare (n + m) s = ((rounds g prepare n s).1 ++ (rounds g prepare m (rounds g prepare n s).2).1,
      (rounds g prepare m (rounds g prepare n s).2).2) := by
  induction n with
  | zero => intro s; simp [rounds]
  | succ n ih =>
    intro s
    rw [show n + 1 + m = (n + m) + 1 by omega, rounds, ih]
    simp [rounds]

theorem generated_append (es es' : List (GoEvent O L)) : generated (es ++ es') = generated es ++ generated es' := by
  simp [generated]

theorem generated_cleanUp (T : Test σ O L) (k : Nat) (s : σ) (c : O) :
    generated (cleanUp T k s c).events = [] ∧ (cleanUp T k s c).rand = s ∧ (cleanUp T k s c).cell = c := by
  unfold cleanUp
  split <;> exact ⟨rfl, rfl, rfl⟩

theorem afterStartup_round (T : Test σ O L) (g : Draw σ O) (hi : T.initial = .fresh g) (k : Nat) (s : σ) (c : O) :
    generated (afterStartup T k s c).events = (round g T.prepare s).1 ∧
      (afterStartup T k s c).rand = (round g T.prepare s).2 := by
  unfold afterStartup round
  rw [hi]
  dsimp only
  cases hg : g s with
  | mk ro s1 =>
    cases ro with
    | ok o =>
      dsimp only
      cases hp : T.prepare o s1 with
      | mk rl s2 =>
        cases rl with
        | ok l =>
          dsimp only
          obtain ⟨h1, h2, -⟩ := generated_cleanUp T k s2 c
          split
          · refine ⟨?_, h2⟩
            simp only [Ended.after, generated_append, h1, List.append_nil]
            rfl
          · exact ⟨rfl, rfl⟩
        | _ => exact ⟨rfl, rfl⟩
    | _ => exact ⟨rfl, rfl⟩

theorem tryOnce_rounds (T : Test σ O L) (g : Draw σ O) (hi : T.initial = .fresh g) (k : Nat) (s : σ) (c : O) :
    ∃ n, generated (tryOnce T k s c).events = (rounds g T.prepare n s).1 ∧
      (tryOnce T k s c).rand = (rounds g T.prepare n s).2 := by
  obtain ⟨h1, h2⟩ := afterStartup_round T g hi k s c
  unfold tryOnce
  split
  · exact ⟨1, by simp [rounds, h1], by simp [rounds, h2]⟩
  · split
    · refine ⟨1, ?_, by simpa [rounds, Ended.after] using h2⟩
      simp only [Ended.after, generated_append, h1, rounds, List.append_nil]
      rfl
    · exact ⟨0, rfl, rfl⟩

theorem goTest_rounds (T : Test σ O L) (g : Draw σ O) (hi : T.initial = .fresh g) (fuel numRuns : Nat) (s : σ) (c : O) :
    ∃ n, generated (goTest T fuel numRuns s c).events = (rounds g T.prepare n s).1 := by
  have := goTest_induct T (fun s _ es s' _ => ∃ n, generated es = (rounds g T.prepare n s).1 ∧
      s' = (rounds g T.prepare n s).2) (fun s _ => ⟨0, rfl, rfl⟩)
    (fun s c es s1 c1 es' s2 c2 ⟨n, h1, h2⟩ ⟨m, h3, h4⟩ => ⟨n + m, by
      rw [rounds_add, generated_append, h1, h3, h2], by rw [rounds_add, h4, h2]⟩)
    (tryOnce_rounds T g hi) fuel numRuns s c
  obtain ⟨n, h, -⟩ := this
  exact ⟨n, h⟩

theorem rounds_prefix (g : Draw σ O) (prepare : O → Draw σ L) (n m : Nat) (s : σ) (h : n ≤ m) :
    (rounds g prepare n s).1 <+: (rounds g prepare m s).1 := by
  obtain ⟨d, rfl⟩ := Nat.exists_eq_add_of_le h
  rw [rounds_add]
  exact List.prefix_append _ _

/-! ### Objects that are kept -/

/-- The object after the events. -/
def leftBy : O → List (GoEvent O L) → O
  | o, [] => o
  | _, .body _ left :: es => leftBy left es
  | o, _ :: es => leftBy o es

theorem follows_append (es es' : List (GoEvent O L)) : ∀ o, Follows o (es ++ es') ↔ Follows o es ∧ Follows (leftBy o es) es' := by
  induction es with
  | nil => intro o; simp [Follows, leftBy]
  | cons e es ih =>
    intro o
    cases e <;> simp [Follows, leftBy, ih, and_assoc]

theorem leftBy_append (es es' : List (GoEvent O L)) : ∀ o, leftBy o (es ++ es') = leftBy (leftBy o es) es' := by
  induction es with
  | nil => intro o; rfl
  | cons e es ih =>
    intro o
    cases e <;> simp [leftBy, ih]

theorem tryOnce_follows (T : Test σ O L) (hi : T.initial = .kept) (k : Nat) (s : σ) (c : O) :
    Follows c (tryOnce T k s c).events ∧ (tryOnce T k s c).cell = leftBy c (tryOnce T k s c).events := by
  have key : Follows c (afterStartup T k s c).events ∧
      (afterStartup T k s c).cell = leftBy c (afterStartup T k s c).events := by
    unfold afterStartup
    rw [hi]
    dsimp only
    cases hp : T.prepare c s with
    | mk rl s2 =>
      cases rl with
      | ok l =>
        dsimp only
        split
        · unfold cleanUp
          split <;> simp [Ended.after, Follows, leftBy]
        · simp [Follows, leftBy]
      | _ => simp [noValue, Follows, leftBy]
  unfold tryOnce
  split
  · exact key
  · split
    · simpa [Ended.after, Follows, leftBy] using key
    · simp [noValue, Follows, leftBy]

/-! ### Hooks -/

theorem tryOnce_shape (T : Test σ O L) (su cl : Nat → Ev Unit) (h1 : T.startup = some su) (h2 : T.cleanup = some cl)
    (k : Nat) (s : σ) (c : O) : OneAttempt (tryOnce T k s c).events := by
  unfold tryOnce
  rw [h1]
  dsimp only
  split
  · next hs =>
    unfold afterStartup
    dsimp only
    split
    · next o ho =>
      rw [ho]
      split
      · next l hl =>
        rw [hl]
        split
        · next f hb =>
          rw [hb]
          simp only [cleanUp, h2, Ended.after, List.cons_append, List.nil_append]
          exact .full _ _ _ _ _ _ hs
        · next hb => exact .body _ _ _ _ _ hs fun f hf => hb f (by rw [hf])
      · next hl => exact .lists _ _ _ hs fun l hl' => hl l hl'
    · next ho => exact .obj _ _ hs fun o ho' => ho o ho'
  · next hs => exact .startup _ hs

theorem tryOnce_cleanups (T : Test σ O L) (cl : Nat → Ev Unit) (h2 : T.cleanup = some cl)
    (k : Nat) (s : σ) (c : O) : (tryOnce T k s c).events.countP GoEvent.isCleanup =
      (tryOnce T k s c).events.countP GoEvent.isReturned := by
  have key : (afterStartup T k s c).events.countP GoEvent.isCleanup =
      (afterStartup T k s c).events.countP GoEvent.isReturned := by
    unfold afterStartup
    dsimp only
    split
    · split
      · split
        · next f hb => simp [hb, cleanUp, h2, Ended.after, GoEvent.isCleanup, GoEvent.isReturned, List.countP_cons]
        · next hb =>
          have : GoEvent.isReturned (L := L) (.body (T.body k ‹O› ‹L›).1 (T.body k ‹O› ‹L›).2) = false := by
            unfold GoEvent.isReturned
            split
            · next f left h => exact absurd (by injection h) (hb f)
            · rfl
          simp only [List.countP_cons, List.countP_nil, this]; rfl
      · simp [noValue, GoEvent.isCleanup, GoEvent.isReturned, List.countP_cons]
    · simp [noValue, GoEvent.isCleanup, GoEvent.isReturned, List.countP_cons]
  unfold tryOnce
  split
  · exact key
  · split
    · simpa [Ended.after, GoEvent.isCleanup, GoEvent.isReturned, List.countP_cons] using key
    · simp [noValue, GoEvent.isCleanup, GoEvent.isReturned, List.countP_cons]

/-- Startups and cleanups of one attempt. -/
theorem OneAttempt.counts {es : List (GoEvent O L)} (h : OneAttempt es) : es.countP GoEvent.isStartup = 1 ∧
    (es.countP GoEvent.isCleanup = 0 ∨ es.countP GoEvent.isCleanup = 1 ∧
      ∀ r left, .body r left ∈ es → GoEvent.isReturned (O := O) (L := L) (.body r left) = true) := by
  cases h
  · exact ⟨rfl, .inl rfl⟩
  · exact ⟨rfl, .inl rfl⟩
  · exact ⟨rfl, .inl rfl⟩
  · exact ⟨rfl, .inl rfl⟩
  · refine ⟨rfl, .inr ⟨rfl, fun r left h => ?_⟩⟩
    simp only [List.mem_cons, reduceCtorEq, GoEvent.body.injEq, List.not_mem_nil, or_false, false_or] at h
    rw [h.1]
    rfl

/-- The attempts that make up a test. -/
theorem goTest_attempts (T : Test σ O L) (su cl : Nat → Ev Unit) (h1 : T.startup = some su) (h2 : T.cleanup = some cl)
    (fuel numRuns : Nat) (s : σ) (c : O) : ∃ ass : List (List (GoEvent O L)),
      (goTest T fuel numRuns s c).events = ass.flatten ∧ ∀ as ∈ ass, OneAttempt as := by
  refine goTest_induct T (fun _ _ es _ _ => ∃ ass : List (List (GoEvent O L)), es = ass.flatten ∧ ∀ as ∈ ass, OneAttempt as)
    (fun _ _ => ⟨[], rfl, by simp⟩) ?_ ?_ fuel numRuns s c
  · rintro _ _ es _ _ es' _ _ ⟨a, rfl, ha⟩ ⟨b, rfl, hb⟩
    exact ⟨a ++ b, by simp, by simpa [or_imp, forall_and] using ⟨ha, hb⟩⟩
  · intro k s c
    exact ⟨[(tryOnce T k s c).events], by simp, by simpa using tryOnce_shape T su cl h1 h2 k s c⟩

/-! ### Where executions begin -/

/-- Executions begin with what has been generated right before. -/
def BodiesFrom (T : Test σ O L) (g : Draw σ O) (es : List (GoEvent O L)) : Prop :=
  ∀ pre r left post, es = pre ++ .body r left :: post → ∃ pre' k s o l,
    pre = pre' ++ [.obj (.ok o), .lists (.ok l)] ∧ (g s).1 = .ok o ∧ T.body k o l = (r, left)

theorem bodiesFrom_append (T : Test σ O L) (g : Draw σ O) (es es' : List (GoEvent O L)) (h : BodiesFrom T g es)
    (h' : BodiesFrom T g es') : BodiesFrom T g (es ++ es') := by
  intro pre r left post he
  rcases List.append_eq_append_iff.1 he with ⟨a, rfl, h2⟩ | ⟨b, h1, h2⟩
  · obtain ⟨p, k, s, o, l, rfl, hg, hb⟩ := h' _ _ _ _ h2
    exact ⟨es ++ p, k, s, o, l, by simp, hg, hb⟩
  · cases b with
    | nil =>
      simp only [List.nil_append] at h2
      obtain ⟨p, k, s, o, l, hp, hg, hb⟩ := h' [] r left post h2.symm
      exact absurd hp (by simp)
    | cons e b =>
      simp only [List.cons_append, List.cons.injEq] at h2
      obtain ⟨rfl, rfl⟩ := h2
      exact h _ _ _ _ h1

theorem afterStartup_bodies (T : Test σ O L) (g : Draw σ O) (hi : T.initial = .fresh g) (k : Nat) (s : σ) (c : O) :
    BodiesFrom T g (afterStartup T k s c).events := by
  have two : ∀ (o : O) (l : L) (rest : List (GoEvent O L)), (g s).1 = .ok o →
      (∀ e ∈ rest, e.isBody = false) →
      BodiesFrom T g (.obj (.ok o) :: .lists (.ok l) :: .body (T.body k o l).1 (T.body k o l).2 :: rest) := by
    intro o l rest ho hr pre r left post he
    match pre, he with
    | [], he => cases he
    | [_], he => cases he
    | [_, _], he =>
      simp only [List.cons_append, List.nil_append, List.cons.injEq, GoEvent.body.injEq] at he
      obtain ⟨rfl, rfl, ⟨h1, h2⟩, -⟩ := he
      exact ⟨[], k, s, o, l, rfl, ho, by rw [← h1, ← h2]⟩
    | _ :: _ :: _ :: pre, he =>
      simp only [List.cons_append, List.cons.injEq] at he
      have := hr (.body r left) (by rw [he.2.2.2]; simp)
      simp [GoEvent.isBody] at this
  have none : ∀ es : List (GoEvent O L), (∀ e ∈ es, e.isBody = false) → BodiesFrom T g es := by
    intro es h pre r left post he
    have := h (.body r left) (by rw [he]; simp)
    simp [GoEvent.isBody] at this
  unfold afterStartup
  rw [hi]
  dsimp only
  split
  · next o ho =>
    split
    · next l hl =>
      rw [ho, hl]
      split
      · unfold cleanUp
        split
        · exact two o l [] ho (by simp)
        · exact two o l _ ho (by simp [GoEvent.isBody])
      · exact two o l [] ho (by simp)
    · exact none _ (by simp [noValue, GoEvent.isBody])
  · exact none _ (by simp [noValue, GoEvent.isBody])

theorem tryOnce_bodies (T : Test σ O L) (g : Draw σ O) (hi : T.initial = .fresh g) (k : Nat) (s : σ) (c : O) :
    BodiesFrom T g (tryOnce T k s c).events := by
  have key := afterStartup_bodies T g hi k s c
  have one : ∀ e : Ev Unit, BodiesFrom T g [.startup e] := by
    intro e pre r left post he
    match pre, he with
    | [], he => cases he
    | _ :: pre, he => simp at he
  unfold tryOnce
  split
  · exact key
  · split
    · exact bodiesFrom_append T g _ _ (one _) key
    · exact one _

/-- The engine and the object that `just` holds before attempt `k`. -/
def before (T : Test σ O L) (seed : σ) (cell : O) : Nat → σ × O
  | 0 => (seed, cell)
  | k + 1 =>
    let x := tryOnce T k (before T seed cell k).1 (before T seed cell k).2
    (x.rand, x.cell)

theorem tryUntil_go (T : Test σ O L) (seed : σ) (cell : O) (attempts : Nat → Ev Unit)
    (h : ∀ k, (tryOnce T k (before T seed cell k).1 (before T seed cell k).2).res = .done (attempts k)) :
    ∀ fuel k, (tryUntil T fuel k (before T seed cell k).1 (before T seed cell k).2).res =
        .done ⟨[], doWhile attempts fuel k⟩ ∧
      ∀ k', doWhile attempts fuel k = .ok k' →
        (tryUntil T fuel k (before T seed cell k).1 (before T seed cell k).2).rand = (before T seed cell k').1 ∧
        (tryUntil T fuel k (before T seed cell k).1 (before T seed cell k).2).cell = (before T seed cell k').2 := by
  intro fuel
  induction fuel with
  | zero => exact fun k => ⟨rfl, fun k' e => by cases e⟩
  | succ n ih =>
    intro k
    have hk := h k
    have ihk := ih (k + 1)
    unfold tryUntil doWhile
    simp only [hk]
    rcases ha : (attempts k).out with u | e | _ | _
    · refine ⟨rfl, fun k' e => ?_⟩
      cases e
      exact ⟨rfl, rfl⟩
    · simp only
      by_cases h1 : e = .success
      · subst h1
        refine ⟨rfl, fun k' e => ?_⟩
        cases e
        exact ⟨rfl, rfl⟩
      · by_cases h2 : e = .discard
        · subst h2
          simp only [reduceCtorEq, if_false, if_true]
          exact ihk
        · simp only [if_neg h1, if_neg h2]
          exact ⟨by trivial, fun k' e => by cases e⟩
    · exact ⟨rfl, fun k' e => by cases e⟩
    · exact ⟨rfl, fun k' e => by cases e⟩

theorem runs_go (T : Test σ O L) (seed : σ) (cell : O) (attempts : Nat → Ev Unit)
    (h : ∀ k, (tryOnce T k (before T seed cell k).1 (before T seed cell k).2).res = .done (attempts k)) (fuel : Nat) :
    ∀ left k, (runs T fuel left k (before T seed cell k).1 (before T seed cell k).2).res =
      .done ⟨[], forLoop T.timeUp attempts fuel left k⟩ := by
  intro left
  induction left with
  | zero => exact fun k => rfl
  | succ n ih =>
    intro k
    obtain ⟨h1, h2⟩ := tryUntil_go T seed cell attempts h fuel k
    unfold runs forLoop
    split_ifs with ht
    · rfl
    · simp only [h1]
      rcases hd : doWhile attempts fuel k with k' | e | _ | _
      · obtain ⟨e1, e2⟩ := h2 k' hd
        simp only [e1, e2]
        exact ih k'
      all_goals rfl

end Concurrency
end Verif
