import Verif.Props.MapCommutes
import Verif.Props.TimeLimit
/-
C196: mapping the values in the generators or in the property function is the same test.
-/
namespace Verif
namespace Engine
open PairTuple Shr
variable {n : Nat} {A B : Fin n → Type} {σ : Type}

/-- Arguments mapped component by component. -/
def mapArgs (h : (i : Fin n) → A i → B i) (a : Args A) : Args B := fun i => h i (a i)

/-- An event with its arguments mapped. -/
def Event.mapped (h : (i : Fin n) → A i → B i) : Event A → Event B
  | .startup ph e => .startup ph e
  | .cleanup ph e => .cleanup ph e
  | .call ph a e => .call ph (mapArgs h a) e
  | .genThrew ph e => .genThrew ph e

/-- A history with all arguments mapped. -/
def Trace.mapped (h : (i : Fin n) → A i → B i) (tr : Trace A) : Trace B := tr.map (Event.mapped h)

/-- The state, with this history. -/
def St.mapped (h : (i : Fin n) → A i → B i) (s : St σ A) : St σ B :=
  { rand := s.rand, saved := s.saved, i := s.i, fails := s.fails, trace := Trace.mapped h s.trace }

/-- A report with the arguments mapped. -/
def Report.mapped (h : (i : Fin n) → A i → B i) : Report A → Report B
  | .passed => .passed
  | .timedOut k => .timedOut k
  | .falsified k start shrunk => .falsified k (mapTup h start) (mapTup h shrunk)

/-- The test of the same property function, hooks and settings with the generators `gens`, whose values the property function
maps before it uses them. -/
def Cfg.composed (c : Cfg σ B) (h : (i : Fin n) → A i → B i) (gens : (i : Fin n) → Gen σ (A i)) : Cfg σ A where
  gens := gens
  orderRun := c.orderRun
  orderShrink := c.orderShrink
  orderEach := c.orderEach
  thrown := c.thrown
  func := fun tr a => c.func (Trace.mapped h tr) (mapArgs h a)
  startup := c.startup.map fun f tr => f (Trace.mapped h tr)
  cleanup := c.cleanup.map fun f tr => f (Trace.mapped h tr)
  numRuns := c.numRuns
  maxDurationMs := c.maxDurationMs
  clock := fun tr => c.clock (Trace.mapped h tr)

/-- The test of the same property function, hooks and settings with the generators `gens` mapped. -/
def Cfg.onMapped (c : Cfg σ B) (h : (i : Fin n) → A i → B i) (gens : (i : Fin n) → Gen σ (A i)) : Cfg σ B :=
  { c with gens := fun i => Comb.transform (gens i) (h i) }

/-- The results of a statement mapped by `φ`. -/
def over {α β : Type} (φ : α → β) : Outcome α → Outcome β
  | .ok a => .ok (φ a)
  | .throws e => .throws e
  | .ub => .ub
  | .diverges => .diverges

/-- The second statement does what the first one does, with mapped arguments. -/
def SameMapped {α β : Type} (h : (i : Fin n) → A i → B i) (φ : α → β) (m : Eng σ A α) (m' : Eng σ B β) : Prop :=
  ∀ s, m' (s.mapped h) = (over φ (m s).1, (m s).2.mapped h)

section
variable {α β α' β' : Type} {h : (i : Fin n) → A i → B i} {c : Cfg σ B} {gens : (i : Fin n) → Gen σ (A i)}

theorem SameMapped.bind {φ : α → β} {ψ : α' → β'} {m : Eng σ A α} {m' : Eng σ B β} {f : α → Eng σ A α'} {f' : β → Eng σ B β'}
    (hm : SameMapped h φ m m') (hf : ∀ a, SameMapped h ψ (f a) (f' (φ a))) : SameMapped h ψ (m >>= f) (m' >>= f') := by
  intro s
  rw [Eng.bind_apply, Eng.bind_apply, hm s]
  rcases m s with ⟨a | e | _ | _, s1⟩
  · exact hf a s1
  · rfl
  · rfl
  · rfl

theorem SameMapped.tryCatch {φ : α → β} {m : Eng σ A α} {m' : Eng σ B β} {f : Exn → Eng σ A α} {f' : Exn → Eng σ B β}
    (hm : SameMapped h φ m m') (hf : ∀ e, SameMapped h φ (f e) (f' e)) : SameMapped h φ (Eng.tryCatch m f) (Eng.tryCatch m' f') := by
  intro s
  unfold Eng.tryCatch
  rw [hm s]
  rcases m s with ⟨a | e | _ | _, s1⟩
  · rfl
  · exact hf e s1
  · rfl
  · rfl

theorem SameMapped.throw (φ : α → β) (e : Exn) : SameMapped h φ (Eng.throw e : Eng σ A α) (Eng.throw e) := fun _ => rfl

theorem SameMapped.pure (φ : α → β) (a : α) : SameMapped h φ (pure a : Eng σ A α) (pure (φ a)) := fun _ => rfl

theorem SameMapped.catchStd {φ : α → β} {m f : Eng σ A α} {m' f' : Eng σ B β} (hm : SameMapped h φ m m') (hf : SameMapped h φ f f') :
    SameMapped h φ (Eng.catchStd m f) (Eng.catchStd m' f') :=
  hm.tryCatch fun e => by
    split
    · exact hf
    · exact .throw φ e

theorem SameMapped.withContext {φ : α → β} {m : Eng σ A α} {m' : Eng σ B β} (hm : SameMapped h φ m m') :
    SameMapped h φ (Eng.withContext m) (Eng.withContext m') := by
  intro s
  have := hm { s with fails := [] }
  unfold Eng.withContext
  rw [show ({ s.mapped h with fails := [] } : St σ B) = ({ s with fails := [] } : St σ A).mapped h from rfl, this]
  rfl

theorem mapped_startup (ph : Phase) : SameMapped h id (runStartup (c.composed h gens) ph) (runStartup (c.onMapped h gens) ph) := by
  intro s
  unfold runStartup
  simp only [Cfg.composed, Cfg.onMapped]
  cases c.startup with
  | none => rfl
  | some f =>
    simp only [Option.map_some, record, St.mapped]
    cases (f (Trace.mapped h s.trace)).out <;> rfl

theorem mapped_cleanup (ph : Phase) : SameMapped h id (runCleanup (c.composed h gens) ph) (runCleanup (c.onMapped h gens) ph) := by
  intro s
  unfold runCleanup
  simp only [Cfg.composed, Cfg.onMapped]
  cases c.cleanup with
  | none => rfl
  | some f =>
    simp only [Option.map_some, record, St.mapped]
    cases (f (Trace.mapped h s.trace)).out <;> rfl

theorem mapped_call (ph : Phase) (a : Args A) :
    SameMapped h id (callFunc (c.composed h gens) ph a) (callFunc (c.onMapped h gens) ph (mapArgs h a)) := by
  intro s
  unfold callFunc
  simp only [Cfg.composed, Cfg.onMapped, record, St.mapped]
  cases (c.func (Trace.mapped h s.trace) (mapArgs h a)).out <;> rfl

theorem mapped_drawRun : SameMapped h (mapTup h) (drawRun (c.composed h gens)) (drawRun (c.onMapped h gens)) := by
  intro s
  unfold drawRun
  simp only [Cfg.composed, Cfg.onMapped, St.mapped, Comb.drawTuple_of_map]
  cases Gen.drawTuple gens c.orderRun s.rand <;> rfl

theorem mapped_drawSaved : SameMapped h (mapTup h) (drawSaved (c.composed h gens)) (drawSaved (c.onMapped h gens)) := by
  intro s
  unfold drawSaved
  simp only [Cfg.composed, Cfg.onMapped, St.mapped, Comb.drawTuple_of_map]
  cases Gen.drawTuple gens c.orderShrink s.saved <;> rfl

theorem mapTup_update (vals : Tup A) (N : Fin n) (next : Shr (A N)) :
    mapTup h (Function.update vals N next) = Function.update (mapTup h vals) N (next.map (h N)) := by
  funext i
  by_cases e : i = N
  · subst e; simp [mapTup]
  · simp [mapTup, e]

theorem mapArgs_update (vals : Tup A) (N : Fin n) (v : A N) :
    mapArgs h (Function.update (Tup.get vals) N v) = Function.update (Tup.get (mapTup h vals)) N (h N v) := by
  funext i
  by_cases e : i = N
  · subst e; simp [mapArgs]
  · simp [mapArgs, mapTup, Tup.get, e]

theorem mapped_test (vals : Tup A) (N : Fin n) (next : Shr (A N)) :
    SameMapped h id (test (c.composed h gens) vals N next) (test (c.onMapped h gens) (mapTup h vals) N (next.map (h N))) := by
  unfold test
  rw [value_map, ← mapArgs_update]
  exact SameMapped.catchStd (.bind (mapped_startup _) fun _ => .bind (mapped_call _ _) fun b =>
    .bind (mapped_cleanup _) fun _ => .pure id b) (.pure id false)

mutual
theorem mapped_shrinkN (N : Fin n) : ∀ (t : Shr (A N)) (vals : Tup A),
    SameMapped h (mapTup h) (shrinkN (c.composed h gens) vals N t) (shrinkN (c.onMapped h gens) (mapTup h vals) N (t.map (h N)))
  | .node v ss, vals, s => by
    rw [map_node, shrinkN, shrinkN]
    exact mapped_shrinkNIter N ss vals s.fails { s with fails := [] }
theorem mapped_shrinkNIter (N : Fin n) : ∀ (ss : List (Shr (A N))) (vals : Tup A) (outer : List String),
    SameMapped h (mapTup h) (shrinkNIter (c.composed h gens) vals N outer ss)
      (shrinkNIter (c.onMapped h gens) (mapTup h vals) N outer (ss.map (Shr.map (h N))))
  | [], vals, outer, s => by rw [List.map_nil, shrinkNIter, shrinkNIter]; rfl
  | next :: rest, vals, outer, s => by
    rw [List.map_cons, shrinkNIter, shrinkNIter]
    beta_reduce
    rw [mapped_test vals N next s]
    rcases test (c.composed h gens) vals N next s with ⟨b | e | _ | _, s1⟩
    · simp only [over, id]
      have : (s1.mapped h).fails = s1.fails := rfl
      rw [this]
      split_ifs
      · rw [← mapTup_update]
        exact mapped_shrinkN N next _ { s1 with fails := outer }
      · exact mapped_shrinkNIter N rest vals outer s1
    · rfl
    · rfl
    · rfl
end

theorem mapped_shrinkEach : ∀ (order : List (Fin n)) (vals : Tup A),
    SameMapped h (mapTup h) (shrinkEach (c.composed h gens) order vals) (shrinkEach (c.onMapped h gens) order (mapTup h vals))
  | [], _ => .pure _ _
  | N :: rest, vals => .bind (mapped_shrinkN N _ vals) fun w => mapped_shrinkEach rest w

theorem mapped_shrink : SameMapped h (Report.mapped h) (shrink (c.composed h gens)) (shrink (c.onMapped h gens)) :=
  .bind (φ := id) (fun _ => rfl) fun _ => .bind mapped_drawSaved fun _ => .bind (mapped_shrinkEach _ _) fun _ => .pure (Report.mapped h) _

/-- The end of an attempt with the report mapped. -/
def Step.mapped (h : (i : Fin n) → A i → B i) : Step A → Step B
  | .pass => .pass
  | .again => .again
  | .stop r => .stop (r.mapped h)

theorem mapped_attempt : SameMapped h (Step.mapped h) (attempt (c.composed h gens)) (attempt (c.onMapped h gens)) := by
  refine .bind (φ := id) (fun _ => rfl) fun _ => .bind (mapped_startup _) fun _ => .bind (φ := id) ?_ fun _ =>
    .bind (mapped_cleanup _) fun _ => .bind (φ := id) (fun _ => rfl) fun fl => ?_
  · refine .bind mapped_drawRun fun ts => .tryCatch (φ := id) ?_ fun e => by
      split <;> exact .throw _ _
    rw [show Tup.get (mapTup h ts) = mapArgs h (Tup.get ts) from funext fun i => value_map _ _]
    exact mapped_call _ _
  · simp only [id]
    split
    · exact .bind mapped_shrink fun _ => .pure (Step.mapped h) _
    · split
      · exact .bind mapped_shrink fun _ => .pure (Step.mapped h) _
      · exact .pure (Step.mapped h) _

theorem mapped_guarded : SameMapped h (Step.mapped h) (guarded (c.composed h gens)) (guarded (c.onMapped h gens)) :=
  .tryCatch mapped_attempt fun e => by
    split
    · exact .pure (Step.mapped h) _
    · split
      · exact .pure (Step.mapped h) _
      · exact .throw _ _

theorem mapped_doWhile : ∀ fuel, SameMapped h (Option.map (Report.mapped h)) (doWhile (c.composed h gens) fuel)
    (doWhile (c.onMapped h gens) fuel)
  | 0 => fun _ => rfl
  | fuel + 1 => by
    refine .bind mapped_guarded fun v => ?_
    cases v with
    | pass => exact .pure (Option.map (Report.mapped h)) none
    | again => exact mapped_doWhile fuel
    | stop r => exact .pure (Option.map (Report.mapped h)) (some r)

theorem mapped_forLoop (fuel : Nat) : ∀ left, SameMapped h (Report.mapped h) (forLoop (c.composed h gens) fuel left)
    (forLoop (c.onMapped h gens) fuel left)
  | 0 => .pure (Report.mapped h) .passed
  | left + 1 => by
    refine .bind (φ := id) (fun _ => rfl) fun elapsed => ?_
    simp only [id]
    have e : (c.onMapped h gens).maxDurationMs = (c.composed h gens).maxDurationMs := rfl
    rw [e]
    split
    · exact fun s => rfl
    · refine .bind (mapped_doWhile fuel) fun v => ?_
      cases v with
      | some r => exact .pure (Report.mapped h) r
      | none => exact .bind (φ := id) (fun _ => rfl) fun _ => mapped_forLoop fuel left

end

/-- **C196.** Mapping the values in the generators or in the property function is the same test: it makes the same calls of the property
function and of the hooks with the mapped arguments, and reports the mapped arguments, in all cases (also if a generator, the
property function or a hook throws). -/
theorem C196_test (c : Cfg σ B) (h : (i : Fin n) → A i → B i) (gens : (i : Fin n) → Gen σ (A i)) (fuel : Nat) (seed : σ)
    (tr : Trace A) :
    forAll (c.onMapped h gens) fuel seed (Trace.mapped h tr) =
      (over (Report.mapped h) (forAll (c.composed h gens) fuel seed tr).1, Trace.mapped h (forAll (c.composed h gens) fuel seed tr).2) := by
  have := (SameMapped.withContext (SameMapped.catchStd (mapped_forLoop (c := c) (h := h) (gens := gens) fuel c.numRuns)
    (mapped_shrink (c := c) (gens := gens))))
    ⟨seed, seed, 0, [], tr⟩
  unfold forAll runForAll
  exact congrArg (fun r => (r.1, r.2.trace)) this

/-- **C196, what is seen.** From an empty history the calls of the property function are the calls with mapped arguments, and the verdicts
agree. -/
theorem C196_seen (c : Cfg σ B) (h : (i : Fin n) → A i → B i) (gens : (i : Fin n) → Gen σ (A i)) (fuel : Nat) (seed : σ) :
    (∀ ph, calls ph (forAll (c.onMapped h gens) fuel seed []).2 =
      (calls ph (forAll (c.composed h gens) fuel seed []).2).map fun p => (mapArgs h p.1, p.2)) ∧
    over Report.verdict (forAll (c.onMapped h gens) fuel seed []).1 = over Report.verdict (forAll (c.composed h gens) fuel seed []).1 := by
  have := C196_test c h gens fuel seed []
  rw [show Trace.mapped h [] = [] from rfl] at this
  rw [this]
  constructor
  · intro ph
    generalize (forAll (c.composed h gens) fuel seed []).2 = tr
    simp only [calls, Trace.mapped, ← List.map_reverse, List.filterMap_map, List.map_filterMap]
    congr 1
    funext e
    cases e with
    | call ph' a ev => simp only [Function.comp, Event.mapped, Event.call?]; split <;> rfl
    | _ => rfl
  · cases (forAll (c.composed h gens) fuel seed []).1 with
    | ok r => cases r <;> rfl
    | _ => rfl

/-- The numbers 6, 7, ... doubled, with shrinks; the test fails for numbers from 13 on: the second run fails with 14. -/
example : ((forAll ((demo (fun _ => .leaf 0) (fun k => returns (decide (k < 13))) 5).onMapped (fun _ k => 2 * k)
      fun _ s => .ok (.node (s + 6) [.node (s + 5) [.leaf 1], .leaf 0], s + 1)) 1 0 []).1 matches .ok (.falsified 2 ..)) = true := by
  decide +kernel

end Engine
end Verif
