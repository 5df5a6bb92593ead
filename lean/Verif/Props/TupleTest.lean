import Verif.Props.MapTest
import Verif.Props.DiscardFilter
/-
C198: a property of several arguments and a property of a tuple are the same test.
-/
namespace Verif
namespace Engine
open PairTuple Shr
variable {n : Nat} {A : Fin n → Type} {σ : Type}

/-- The arguments of a property of one tuple. -/
abbrev One (A : Fin n → Type) : Fin 1 → Type := fun _ => Args A

/-- An event of the test of a tuple. -/
def Event.tupled : Event A → Event (One A)
  | .startup ph e => .startup ph e
  | .cleanup ph e => .cleanup ph e
  | .call ph a e => .call ph (fun _ => a) e
  | .genThrew ph e => .genThrew ph e

/-- The history of the test of a tuple. -/
def Trace.tupled (tr : Trace A) : Trace (One A) := tr.map Event.tupled

/-- An event of the test of several arguments. -/
def Event.spread : Event (One A) → Event A
  | .startup ph e => .startup ph e
  | .cleanup ph e => .cleanup ph e
  | .call ph a e => .call ph (a 0) e
  | .genThrew ph e => .genThrew ph e

/-- The history of the test of several arguments. -/
def Trace.spread (tr : Trace (One A)) : Trace A := tr.map Event.spread

theorem spread_tupled (tr : Trace A) : Trace.spread (Trace.tupled tr) = tr := by
  simp only [Trace.spread, Trace.tupled, List.map_map]
  conv => rhs; rw [← List.map_id tr]
  refine List.map_congr_left fun e _ => ?_
  cases e <;> rfl

/-- The state with this history. -/
def St.tupled (s : St σ A) : St σ (One A) :=
  { rand := s.rand, saved := s.saved, i := s.i, fails := s.fails, trace := Trace.tupled s.trace }

/-- The test of a function of a tuple generated by `tuple` (`Arbi<tuple>`, `tupleOf`) that does with the components what the
function of several arguments does with its arguments. -/
def Cfg.tupled (c : Cfg σ A) : Cfg σ (One A) where
  gens := fun _ => tupleOf c.orderRun c.gens
  orderRun := [0]
  orderShrink := [0]
  orderEach := [0]
  thrown := c.thrown
  func := fun tr a => c.func (Trace.spread tr) (a 0)
  startup := c.startup.map fun f tr => f (Trace.spread tr)
  cleanup := c.cleanup.map fun f tr => f (Trace.spread tr)
  numRuns := c.numRuns
  maxDurationMs := c.maxDurationMs
  clock := fun tr => c.clock (Trace.spread tr)

/-- Two results: the same exception and so on, or related values. -/
inductive RelOut {α β : Type} (R : α → β → Prop) : Outcome α → Outcome β → Prop
  | ok {a b} (h : R a b) : RelOut R (.ok a) (.ok b)
  | throws (e : Exn) : RelOut R (.throws e) (.throws e)
  | ub : RelOut R .ub .ub
  | diverges : RelOut R .diverges .diverges

/-- The second statement does in the test of a tuple what the first one does. -/
def SameTupled {α β : Type} (R : α → β → Prop) (m : Eng σ A α) (m' : Eng σ (One A) β) : Prop :=
  ∀ s, RelOut R (m s).1 (m' s.tupled).1 ∧ (m' s.tupled).2 = (m s).2.tupled

section
variable {α β α' β' : Type} {c : Cfg σ A}

theorem SameTupled.bind {R : α → β → Prop} {S : α' → β' → Prop} {m : Eng σ A α} {m' : Eng σ (One A) β} {f : α → Eng σ A α'}
    {f' : β → Eng σ (One A) β'} (hm : SameTupled R m m') (hf : ∀ a b, R a b → SameTupled S (f a) (f' b)) :
    SameTupled S (m >>= f) (m' >>= f') := by
  intro s
  rw [Eng.bind_apply, Eng.bind_apply]
  have := hm s
  revert this
  rcases m s with ⟨o, s1⟩
  rcases m' s.tupled with ⟨o', s1'⟩
  rintro ⟨h, rfl⟩
  cases h with
  | ok h => exact hf _ _ h s1
  | throws e => exact ⟨.throws e, rfl⟩
  | ub => exact ⟨.ub, rfl⟩
  | diverges => exact ⟨.diverges, rfl⟩

theorem SameTupled.tryCatch {R : α → β → Prop} {m : Eng σ A α} {m' : Eng σ (One A) β} {f : Exn → Eng σ A α} {f' : Exn → Eng σ (One A) β}
    (hm : SameTupled R m m') (hf : ∀ e, SameTupled R (f e) (f' e)) : SameTupled R (Eng.tryCatch m f) (Eng.tryCatch m' f') := by
  intro s
  unfold Eng.tryCatch
  have := hm s
  revert this
  rcases m s with ⟨o, s1⟩
  rcases m' s.tupled with ⟨o', s1'⟩
  rintro ⟨h, rfl⟩
  cases h with
  | ok h => exact ⟨.ok h, rfl⟩
  | throws e => exact hf e s1
  | ub => exact ⟨.ub, rfl⟩
  | diverges => exact ⟨.diverges, rfl⟩

theorem SameTupled.throw (R : α → β → Prop) (e : Exn) : SameTupled R (Eng.throw e : Eng σ A α) (Eng.throw e) := fun _ => ⟨.throws e, rfl⟩

theorem SameTupled.pure {R : α → β → Prop} {a : α} {b : β} (h : R a b) : SameTupled R (pure a : Eng σ A α) (pure b) := fun _ => ⟨.ok h, rfl⟩

theorem SameTupled.catchStd {R : α → β → Prop} {m f : Eng σ A α} {m' f' : Eng σ (One A) β} (hm : SameTupled R m m') (hf : SameTupled R f f') :
    SameTupled R (Eng.catchStd m f) (Eng.catchStd m' f') :=
  hm.tryCatch fun e => by
    split
    · exact hf
    · exact .throw R e

theorem SameTupled.withContext {R : α → β → Prop} {m : Eng σ A α} {m' : Eng σ (One A) β} (hm : SameTupled R m m') :
    SameTupled R (Eng.withContext m) (Eng.withContext m') := by
  intro s
  have := hm { s with fails := [] }
  unfold Eng.withContext
  rw [show ({ s.tupled with fails := [] } : St σ (One A)) = ({ s with fails := [] } : St σ A).tupled from rfl]
  exact ⟨this.1, by simp only [this.2]; rfl⟩

theorem RelOut.refl (o : Outcome α) : RelOut Eq o o := by
  cases o
  · exact .ok rfl
  · exact .throws _
  · exact .ub
  · exact .diverges

theorem tupled_startup (ph : Phase) : SameTupled Eq (runStartup c ph) (runStartup c.tupled ph) := by
  intro s
  unfold runStartup
  simp only [Cfg.tupled]
  cases c.startup with
  | none => exact ⟨.ok rfl, rfl⟩
  | some f =>
    simp only [Option.map_some, record, St.tupled, spread_tupled]
    exact ⟨.refl _, rfl⟩

theorem tupled_cleanup (ph : Phase) : SameTupled Eq (runCleanup c ph) (runCleanup c.tupled ph) := by
  intro s
  unfold runCleanup
  simp only [Cfg.tupled]
  cases c.cleanup with
  | none => exact ⟨.ok rfl, rfl⟩
  | some f =>
    simp only [Option.map_some, record, St.tupled, spread_tupled]
    exact ⟨.refl _, rfl⟩

theorem tupled_call (ph : Phase) (a : Args A) : SameTupled Eq (callFunc c ph a) (callFunc c.tupled ph fun _ => a) := by
  intro s
  unfold callFunc
  simp only [Cfg.tupled, record, St.tupled, spread_tupled]
  exact ⟨.refl _, rfl⟩

/-- The generated tuple belongs to the generated arguments. -/
def Belongs (ts : Tup A) (t : Tup (One A)) : Prop := t 0 = shrinkTuple ts

theorem drawTuple_tupled (s : σ) : Gen.drawTuple c.tupled.gens c.tupled.orderRun s =
    (Gen.drawTuple c.gens c.orderRun s).bind fun r => .ok (fun _ => shrinkTuple r.1, r.2) := by
  rw [show c.tupled.gens = fun _ => tupleOf c.orderRun c.gens from rfl, show c.tupled.orderRun = [0] from rfl, drawTuple_single]
  unfold tupleOf
  cases Gen.drawTuple c.gens c.orderRun s <;> rfl

theorem tupled_drawRun : SameTupled Belongs (drawRun c) (drawRun c.tupled) := by
  intro s
  unfold drawRun
  simp only [show s.tupled.rand = s.rand from rfl, drawTuple_tupled]
  cases Gen.drawTuple c.gens c.orderRun s.rand with
  | ok r => exact ⟨.ok rfl, rfl⟩
  | throws e => exact ⟨.throws e, rfl⟩
  | ub => exact ⟨.ub, rfl⟩
  | diverges => exact ⟨.diverges, rfl⟩

theorem tupled_drawSaved (ho : c.orderShrink = c.orderRun) : SameTupled Belongs (drawSaved c) (drawSaved c.tupled) := by
  intro s
  unfold drawSaved
  simp only [show s.tupled.saved = s.saved from rfl, show c.tupled.orderShrink = c.tupled.orderRun from rfl, drawTuple_tupled, ho]
  cases Gen.drawTuple c.gens c.orderRun s.saved with
  | ok r => exact ⟨.ok rfl, rfl⟩
  | throws e => exact ⟨.throws e, rfl⟩
  | ub => exact ⟨.ub, rfl⟩
  | diverges => exact ⟨.diverges, rfl⟩

end

/-! ### Shrinking -/

/-- One call of the property while shrinking. -/
def tryAt (c : Cfg σ A) (a : Args A) : Eng σ A Bool :=
  Eng.catchStd (do
    runStartup c .shrink
    let result ← callFunc c .shrink a
    runCleanup c .shrink
    pure result) (pure false)

mutual
/-- The search of `shrinkN` in a tree whose nodes stand for arguments. -/
def hunt {τ : Type} (c : Cfg σ A) (val : τ → Args A) : Shr τ → St σ A → Outcome τ × St σ A
  | .node v shrinks => fun s => huntIter c val v s.fails shrinks { s with fails := [] }
/-- The same with the candidates that are left. -/
def huntIter {τ : Type} (c : Cfg σ A) (val : τ → Args A) (cur : τ) (outer : List String) : List (Shr τ) → St σ A → Outcome τ × St σ A
  | [] => fun s => (.ok cur, { s with fails := outer })
  | next :: rest => fun s =>
    match tryAt c (val next.value) s with
    | (.ok result, s') =>
      if !result || !s'.fails.isEmpty then
        hunt c val next { s' with fails := outer }
      else
        huntIter c val cur outer rest s'
    | (.throws e, s') => (.throws e, { s' with fails := outer })
    | (.ub, s') => (.ub, { s' with fails := outer })
    | (.diverges, s') => (.diverges, { s' with fails := outer })
end

/-- The search as a statement. -/
def huntE {τ : Type} (c : Cfg σ A) (val : τ → Args A) (t : Shr τ) : Eng σ A τ := hunt c val t

/-- Two statements with the same effect and related results. -/
def SameRel {α β : Type} (R : α → β → Prop) (m : Eng σ A α) (m' : Eng σ A β) : Prop :=
  ∀ s, RelOut R (m s).1 (m' s).1 ∧ (m' s).2 = (m s).2

section
variable {α β α' β' τ υ : Type} {c : Cfg σ A}

theorem SameRel.bind {R : α → β → Prop} {S : α' → β' → Prop} {m : Eng σ A α} {m' : Eng σ A β} {f : α → Eng σ A α'}
    {f' : β → Eng σ A β'} (hm : SameRel R m m') (hf : ∀ a b, R a b → SameRel S (f a) (f' b)) :
    SameRel S (m >>= f) (m' >>= f') := by
  intro s
  rw [Eng.bind_apply, Eng.bind_apply]
  have := hm s
  revert this
  rcases m s with ⟨o, s1⟩
  rcases m' s with ⟨o', s1'⟩
  rintro ⟨h, rfl⟩
  cases h with
  | ok h => exact hf _ _ h _
  | throws e => exact ⟨.throws e, rfl⟩
  | ub => exact ⟨.ub, rfl⟩
  | diverges => exact ⟨.diverges, rfl⟩

mutual
/-- Trees whose nodes are related. -/
theorem hunt_map (val : υ → Args A) (f : τ → υ) : ∀ (t : Shr τ) (s : St σ A),
    hunt c val (t.map f) s = (over f (hunt c (fun v => val (f v)) t s).1, (hunt c (fun v => val (f v)) t s).2)
  | .node v ss, s => by
    rw [map_node, hunt, hunt]
    exact huntIter_map val f v s.fails ss _
theorem huntIter_map (val : υ → Args A) (f : τ → υ) (cur : τ) (outer : List String) : ∀ (ss : List (Shr τ)) (s : St σ A),
    huntIter c val (f cur) outer (ss.map (Shr.map f)) s =
      (over f (huntIter c (fun v => val (f v)) cur outer ss s).1, (huntIter c (fun v => val (f v)) cur outer ss s).2)
  | [], s => by rw [List.map_nil, huntIter, huntIter]; rfl
  | next :: rest, s => by
    rw [List.map_cons, huntIter, huntIter]
    beta_reduce
    rw [value_map]
    rcases tryAt c (val (f next.value)) s with ⟨b | e | _ | _, s1⟩
    · simp only
      split_ifs
      · exact hunt_map val f next _
      · exact huntIter_map val f cur outer rest _
    · rfl
    · rfl
    · rfl
end

mutual
theorem hunt_concat (val : τ → Args A) (g : τ → List (Shr τ)) : ∀ (t : Shr τ) (s : St σ A),
    hunt c val (t.concat fun u => g u.value) s = (huntE c val t >>= fun v => huntE c val (.node v (g v))) s
  | .node v ss, s => by
    rw [concat, Eng.bind_apply, huntE, hunt, hunt]
    exact huntIter_concat val g v s.fails ss { s with fails := [] } rfl
theorem huntIter_concat (val : τ → Args A) (g : τ → List (Shr τ)) (cur : τ) (outer : List String) : ∀ (ss : List (Shr τ)) (s : St σ A)
    (_ : s.fails = []),
    huntIter c val cur outer (concatList (fun u => g u.value) ss ++ g cur) s =
      Eng.bind (huntIter c val cur outer ss) (fun v => huntE c val (.node v (g v))) s
  | [], s, h => by
    rw [concatList, List.nil_append]
    unfold Eng.bind
    simp only [huntIter, huntE, hunt]
    congr 1
    cases s; simp only at h; subst h; rfl
  | next :: rest, s, h => by
    rw [concatList, List.cons_append]
    unfold Eng.bind
    rw [huntIter, huntIter]
    beta_reduce
    rw [value_concat]
    rcases tryAt c (val next.value) s with ⟨b | e | _ | _, s1⟩
    · simp only
      split_ifs with hb
      · exact hunt_concat val g next _
      · refine huntIter_concat val g cur outer rest s1 ?_
        have hb' : b = true ∧ s1.fails = [] := by simpa using hb
        exact hb'.2
    · rfl
    · rfl
    · rfl
end

/-- The values agree, and the components from `k` on. -/
def AgreeFrom (k : Nat) (vals w : Tup A) : Prop := Tup.get vals = Tup.get w ∧ ∀ i : Fin n, k ≤ i.val → vals i = w i

section
variable (N : Fin n) (vals0 w0 : Tup A)

/-- The tuples while component `N` is shrunk. -/
def During (vals w : Tup A) : Prop := Tup.get vals = Tup.get w ∧ ∀ i, i ≠ N → vals i = vals0 i ∧ w i = w0 i

mutual
theorem during_shrinkN (hg : Tup.get vals0 = Tup.get w0) : ∀ (t : Shr (A N)) (vals : Tup A) (s : St σ A),
    (∀ i, i ≠ N → vals i = vals0 i) → (vals N).value = t.value →
    RelOut (During N vals0 w0) (shrinkN c vals N t s).1 (hunt c Tup.get (t.map fun v => Function.update w0 N (leaf v)) s).1 ∧
      (hunt c Tup.get (t.map fun v => Function.update w0 N (leaf v)) s).2 = (shrinkN c vals N t s).2
  | .node v ss, vals, s, h1, h2 => by
    rw [map_node, hunt, shrinkN]
    refine during_shrinkNIter hg s.fails ss vals _ _ ⟨?_, fun i hi => ⟨h1 i hi, by simp [hi]⟩⟩
    funext i
    by_cases e : i = N
    · subst e; simpa [Tup.get] using h2
    · have := congrFun hg i
      simp only [Tup.get] at this ⊢
      simp [e, h1 i e, this]
theorem during_shrinkNIter (hg : Tup.get vals0 = Tup.get w0) (outer : List String) : ∀ (ss : List (Shr (A N))) (vals cur : Tup A) (s : St σ A),
    During N vals0 w0 vals cur →
    RelOut (During N vals0 w0) (shrinkNIter c vals N outer ss s).1
      (huntIter c Tup.get cur outer (ss.map (Shr.map fun v => Function.update w0 N (leaf v))) s).1 ∧
      (huntIter c Tup.get cur outer (ss.map (Shr.map fun v => Function.update w0 N (leaf v))) s).2 = (shrinkNIter c vals N outer ss s).2
  | [], vals, cur, s, h => by
    rw [List.map_nil, huntIter, shrinkNIter]
    exact ⟨.ok h, rfl⟩
  | next :: rest, vals, cur, s, h => by
    rw [List.map_cons, huntIter, shrinkNIter]
    beta_reduce
    have e : Tup.get (Function.update w0 N (leaf next.value)) = Function.update (Tup.get vals) N next.value := by
      rw [get_update]
      funext i
      by_cases e : i = N
      · subst e; simp
      · have := congrFun hg i
        have h3 : vals i = vals0 i := (h.2 i e).1
        simp only [Tup.get] at this
        simp [Tup.get, e, h3, this]
    have et : test c vals N next = tryAt c (Function.update (Tup.get vals) N next.value) := rfl
    rw [value_map, e, et]
    rcases tryAt c (Function.update (Tup.get vals) N next.value) s with ⟨b | x | _ | _, s1⟩
    · simp only
      split_ifs
      · exact during_shrinkN hg next _ _ (fun i hi => by simp [hi, (h.2 i hi).1]) (by simp)
      · exact during_shrinkNIter hg outer rest vals cur s1 h
    · exact ⟨.throws x, rfl⟩
    · exact ⟨.ub, rfl⟩
    · exact ⟨.diverges, rfl⟩
end

end

/-- Shrinking an argument, and shrinking the component of the tuple. -/
theorem agree_component (N : Fin n) (vals w : Tup A) (h : AgreeFrom N.val vals w) :
    SameRel (AgreeFrom (N.val + 1)) (Eng.mk (shrinkN c vals N (vals N))) (huntE c Tup.get (.node w (genStream N (leaf w)))) := by
  intro s
  have e : genStream N (leaf w) = (vals N).shrinks.map (Shr.map fun v => Function.update w N (leaf v)) := by
    rw [h.2 N le_rfl]
    unfold genStream
    rw [flatMap_eq_map, shrinks_map]
    rfl
  have key := during_shrinkNIter (c := c) N vals w h.1 s.fails (vals N).shrinks vals w { s with fails := [] } ⟨h.1, fun _ _ => ⟨rfl, rfl⟩⟩
  rw [← e] at key
  have e2 : shrinkN c vals N (vals N) s = shrinkNIter c vals N s.fails (vals N).shrinks { s with fails := [] } := by
    rw [← eta (vals N), shrinkN]; rfl
  have e3 : huntE c Tup.get (.node w (genStream N (leaf w))) s = huntIter c Tup.get w s.fails (genStream N (leaf w)) { s with fails := [] } := by
    rw [huntE, hunt]
  unfold Eng.mk
  rw [e2, e3]
  refine ⟨?_, key.2⟩
  revert key
  generalize (shrinkNIter c vals N s.fails (vals N).shrinks { s with fails := [] }).1 = o
  generalize (huntIter c Tup.get w s.fails (genStream N (leaf w)) { s with fails := [] }).1 = o'
  rintro ⟨hr, _⟩
  cases hr with
  | ok hd =>
    refine .ok ⟨hd.1, fun i hi => ?_⟩
    have hne : i ≠ N := fun e => by subst e; omega
    rw [(hd.2 i hne).1, (hd.2 i hne).2]
    exact h.2 i (by omega)
  | throws e => exact .throws e
  | ub => exact .ub
  | diverges => exact .diverges

/-- Shrinking the arguments one after the other, and shrinking the tuple. -/
theorem agree_each : ∀ (k N : Nat), n - N = k → ∀ (m : Eng σ A (Tup A)) (aggr : Shr (Tup A)),
    SameRel (AgreeFrom N) m (huntE c Tup.get aggr) →
    SameRel (fun vals w => Tup.get vals = Tup.get w) (m >>= fun vals => shrinkEach c ((List.finRange n).drop N) vals)
      (huntE c Tup.get (concatHelper N aggr)) := by
  intro k
  induction k with
  | zero =>
    intro N hN m aggr hm s
    rw [List.drop_eq_nil_of_le (by simp; omega), concatHelper, dif_neg (by omega)]
    have := hm.bind (S := fun vals w => Tup.get vals = Tup.get w) (f := fun v => shrinkEach c [] v) (f' := fun v => pure v)
      (fun a b h s => ⟨.ok h.1, rfl⟩) s
    rw [Eng.bind_apply (m := huntE c Tup.get aggr)] at this
    convert this using 2 <;>
    · rcases huntE c Tup.get aggr s with ⟨_ | _ | _ | _, s1⟩ <;> rfl
  | succ k ih =>
    intro N hN m aggr hm
    have hlt : N < n := by omega
    rw [concatHelper, dif_pos hlt]
    have := ih (N + 1) (by omega) (m >>= fun vals => Eng.mk (shrinkN c vals ⟨N, hlt⟩ (vals ⟨N, hlt⟩))) (aggr.concat (genStream ⟨N, hlt⟩)) (by
      have e : huntE c Tup.get (aggr.concat (genStream ⟨N, hlt⟩)) =
          (huntE c Tup.get aggr >>= fun w => huntE c Tup.get (.node w (genStream ⟨N, hlt⟩ (leaf w)))) :=
        funext fun s => hunt_concat Tup.get (fun w => genStream ⟨N, hlt⟩ (leaf w)) aggr s
      rw [e]
      exact hm.bind fun vals w h => agree_component ⟨N, hlt⟩ vals w h)
    intro s
    have hs := this s
    rw [List.drop_eq_getElem_cons (by simpa using hlt), List.getElem_finRange]
    convert hs using 3 <;>
    · simp only [Eng.bind_apply]
      rcases m s with ⟨_ | _ | _ | _, s1⟩ <;> rfl

mutual
/-- The test of a tuple searches the tree of the tuple. -/
theorem tupled_shrinkN : ∀ (t : Shr (Args A)) (vals : Tup (One A)), (vals 0).value = t.value →
    SameTupled (fun v (w : Tup (One A)) => (w 0).value = v) (huntE c id t) (Eng.mk (shrinkN c.tupled vals 0 t))
  | .node v ss, vals, h, s => by
    unfold huntE Eng.mk
    rw [hunt, shrinkN]
    exact tupled_shrinkNIter s.fails ss v vals h { s with fails := [] }
theorem tupled_shrinkNIter (outer : List String) : ∀ (ss : List (Shr (Args A))) (cur : Args A) (vals : Tup (One A)), (vals 0).value = cur →
    SameTupled (fun v (w : Tup (One A)) => (w 0).value = v) (Eng.mk (huntIter c id cur outer ss)) (Eng.mk (shrinkNIter c.tupled vals 0 outer ss))
  | [], cur, vals, h, s => by
    unfold Eng.mk
    rw [huntIter, shrinkNIter]
    exact ⟨.ok h, rfl⟩
  | next :: rest, cur, vals, h, s => by
    unfold Eng.mk
    rw [huntIter, shrinkNIter]
    beta_reduce
    have ht : SameTupled Eq (tryAt c next.value) (test c.tupled vals 0 next) := by
      unfold tryAt test
      have e : Function.update (Tup.get vals) 0 next.value = fun _ => next.value := by
        funext i
        obtain rfl : i = 0 := Subsingleton.elim _ _
        simp
      rw [e]
      refine SameTupled.catchStd (.bind (tupled_startup _) fun _ _ _ => .bind (tupled_call _ _) fun b b' hb =>
        .bind (tupled_cleanup _) fun _ _ _ => .pure hb) (.pure rfl)
    have := ht s
    simp only [id]
    revert this
    rcases tryAt c next.value s with ⟨o, s1⟩
    rcases test c.tupled vals 0 next s.tupled with ⟨o', s1'⟩
    rintro ⟨ho, rfl⟩
    cases ho with
    | ok hb =>
      subst hb
      simp only [show s1.tupled.fails = s1.fails from rfl]
      split_ifs
      · exact tupled_shrinkN next _ (by simp) { s1 with fails := outer }
      · exact tupled_shrinkNIter outer rest cur vals h s1
    | throws e => exact ⟨.throws e, rfl⟩
    | ub => exact ⟨.ub, rfl⟩
    | diverges => exact ⟨.diverges, rfl⟩
end

theorem tupled_shrinkEach (ts : Tup A) (t : Tup (One A)) (h : Belongs ts t) :
    SameTupled (fun vals (w : Tup (One A)) => (w 0).value = Tup.get vals) (shrinkEach c (List.finRange n) ts) (shrinkEach c.tupled [0] t) := by
  have h1 := agree_each (c := c) n 0 rfl (pure ts) (leaf ts) (fun s => by
    simp only [huntE, leaf, hunt, huntIter]
    exact ⟨.ok ⟨rfl, fun _ _ => rfl⟩, rfl⟩)
  have e : shrinkEach c.tupled [0] t = Eng.mk (shrinkN c.tupled t 0 (t 0)) := by
    funext s
    rw [shrinkEach, Eng.bind_apply]
    rcases Eng.mk (shrinkN c.tupled t 0 (t 0)) s with ⟨_ | _ | _ | _, s1⟩ <;> rfl
  rw [e]
  intro s
  have h2 := tupled_shrinkN (c := c) (t 0) t rfl s
  have h3 := h1 s
  rw [List.drop_zero] at h3
  have e2 : (pure ts >>= fun vals => shrinkEach c (List.finRange n) vals) = shrinkEach c (List.finRange n) ts := rfl
  rw [e2] at h3
  have e3 : huntE c id (t 0) s = (over Tup.get (huntE c Tup.get (concatHelper 0 (leaf ts)) s).1, (huntE c Tup.get (concatHelper 0 (leaf ts)) s).2) := by
    rw [h, shrinkTuple, flatMap_eq_map]
    exact hunt_map id _ _ s
  rw [e3] at h2
  refine ⟨?_, h2.2.trans (by rw [h3.2])⟩
  have h4 := h2.1
  have h5 := h3.1
  revert h4 h5
  generalize (huntE c Tup.get (concatHelper 0 (leaf ts)) s).1 = o
  generalize (shrinkEach c (List.finRange n) ts s).1 = o1
  generalize (Eng.mk (shrinkN c.tupled t 0 (t 0)) s.tupled).1 = o2
  intro h4 h5
  cases h5 with
  | ok h5 =>
    cases h4 with
    | ok h4 => exact .ok (h4.trans h5.symm)
  | throws e => cases h4; exact .throws e
  | ub => cases h4; exact .ub
  | diverges => cases h4; exact .diverges

/-- The same report: the tuple printed has the printed arguments as components, before and after shrinking. -/
inductive SameReport : Report A → Report (One A) → Prop
  | passed : SameReport .passed .passed
  | timedOut (k : Nat) : SameReport (.timedOut k) (.timedOut k)
  | falsified (k : Nat) (start shrunk : Tup A) (start' shrunk' : Tup (One A)) (h1 : (start' 0).value = fun i => (start i).value)
      (h2 : (shrunk' 0).value = fun i => (shrunk i).value) : SameReport (.falsified k start shrunk) (.falsified k start' shrunk')

/-- The same end of an attempt. -/
inductive SameStep : Step A → Step (One A) → Prop
  | pass : SameStep .pass .pass
  | again : SameStep .again .again
  | stop {r : Report A} {r' : Report (One A)} (h : SameReport r r') : SameStep (.stop r) (.stop r')

theorem value_shrinkTuple (ts : Tup A) : (shrinkTuple ts).value = Tup.get ts := by
  have : ∀ (k N : Nat), n - N = k → ∀ t : Shr (Tup A), (concatHelper N t).value = t.value := by
    intro k
    induction k with
    | zero => intro N h t; rw [concatHelper, dif_neg (by omega)]
    | succ k ih => intro N h t; rw [concatHelper, dif_pos (by omega), ih _ (by omega), value_concat]
  rw [shrinkTuple, flatMap_eq_map, value_map, this n 0 rfl]
  rfl

theorem tupled_shrink (ho : c.orderShrink = c.orderRun) (he : c.orderEach = List.finRange n) :
    SameTupled SameReport (shrink c) (shrink c.tupled) := by
  unfold shrink
  rw [he]
  refine .bind (R := Eq) (fun _ => ⟨.ok rfl, rfl⟩) fun i i' hi => .bind (tupled_drawSaved ho) fun ts t h => ?_
  subst hi
  exact .bind (tupled_shrinkEach ts t h) fun vals w hw => .pure (.falsified _ _ _ _ _ (by rw [h, value_shrinkTuple]; rfl) hw)

theorem tupled_attempt (ho : c.orderShrink = c.orderRun) (he : c.orderEach = List.finRange n) :
    SameTupled SameStep (attempt c) (attempt c.tupled) := by
  refine .bind (R := Eq) (fun _ => ⟨.ok rfl, rfl⟩) fun _ _ _ => .bind (tupled_startup _) fun _ _ _ => .bind (R := Eq) ?_ fun b b' hb =>
    .bind (tupled_cleanup _) fun _ _ _ => .bind (R := Eq) (fun _ => ⟨.ok rfl, rfl⟩) fun fl fl' hfl => ?_
  · refine .bind tupled_drawRun fun ts t h => .tryCatch (R := Eq) ?_ fun e => by
      split <;> exact .throw _ _
    have e : Tup.get t = fun _ => Tup.get ts := by
      funext i
      obtain rfl : i = 0 := Subsingleton.elim _ _
      simp only [Tup.get]
      rw [h, value_shrinkTuple]
    rw [e]
    exact tupled_call _ _
  · subst hb hfl
    split
    · exact .bind (tupled_shrink ho he) fun _ _ h => .pure (.stop h)
    · split
      · exact .bind (tupled_shrink ho he) fun _ _ h => .pure (.stop h)
      · exact .pure .pass

theorem tupled_guarded (ho : c.orderShrink = c.orderRun) (he : c.orderEach = List.finRange n) :
    SameTupled SameStep (guarded c) (guarded c.tupled) :=
  .tryCatch (tupled_attempt ho he) fun e => by
    split
    · exact .pure .pass
    · split
      · exact .pure .again
      · exact .throw _ _

/-- The same end of the loop over attempts. -/
def SameEnding (r : Option (Report A)) (r' : Option (Report (One A))) : Prop :=
  (r = none ∧ r' = none) ∨ ∃ a b, r = some a ∧ r' = some b ∧ SameReport a b

theorem tupled_doWhile (ho : c.orderShrink = c.orderRun) (he : c.orderEach = List.finRange n) : ∀ fuel,
    SameTupled SameEnding (doWhile c fuel) (doWhile c.tupled fuel)
  | 0 => fun _ => ⟨.diverges, rfl⟩
  | fuel + 1 => by
    refine .bind (tupled_guarded ho he) fun v v' h => ?_
    cases h with
    | pass => exact .pure (.inl ⟨rfl, rfl⟩)
    | again => exact tupled_doWhile ho he fuel
    | stop h => exact .pure (.inr ⟨_, _, rfl, rfl, h⟩)

theorem tupled_forLoop (ho : c.orderShrink = c.orderRun) (he : c.orderEach = List.finRange n) (fuel : Nat) : ∀ left,
    SameTupled SameReport (forLoop c fuel left) (forLoop c.tupled fuel left)
  | 0 => .pure .passed
  | left + 1 => by
    refine .bind (R := Eq) (fun s => ⟨.ok ?_, rfl⟩) fun elapsed elapsed' h => ?_
    · simp only [Cfg.tupled, St.tupled, spread_tupled]
    subst h
    have e : c.tupled.maxDurationMs = c.maxDurationMs := rfl
    rw [e]
    split
    · exact fun s => ⟨.ok (.timedOut _), rfl⟩
    · refine .bind (tupled_doWhile ho he fuel) fun v v' h => ?_
      rcases h with ⟨rfl, rfl⟩ | ⟨a, b, rfl, rfl, h⟩
      · exact .bind (R := Eq) (fun _ => ⟨.ok rfl, rfl⟩) fun _ _ _ => tupled_forLoop ho he fuel left
      · exact .pure h

end

/-- **C198.** A test of a function of several arguments and the test of the function of a tuple of them are the same test from the same
seed, whatever the function and the hooks do: the function gets the same arguments in the same order, in the runs and in
shrinking, the hooks are called at the same places, and the reports show the same arguments, before and after shrinking.
Partial: if the compiler evaluates the calls of `shrinkN` (/repo/proptest/Property.hpp:410-411, arguments of a function) from left
to right, and draws the arguments when shrinking in the order of the run. See `C198_order_violated`. -/
theorem C198_test_partial (c : Cfg σ A) (ho : c.orderShrink = c.orderRun) (he : c.orderEach = List.finRange n) (fuel : Nat) (seed : σ)
    (tr : Trace A) :
    RelOut SameReport (forAll c fuel seed tr).1 (forAll c.tupled fuel seed (Trace.tupled tr)).1 ∧
    (forAll c.tupled fuel seed (Trace.tupled tr)).2 = Trace.tupled (forAll c fuel seed tr).2 := by
  have := (SameTupled.withContext (SameTupled.catchStd (tupled_forLoop ho he fuel c.numRuns) (tupled_shrink ho he))) ⟨seed, seed, 0, [], tr⟩
  unfold forAll runForAll
  exact ⟨this.1, congrArg St.trace this.2⟩

/-- **C198, what is seen.** From an empty history: the calls of the property function, in the runs and in shrinking, have the same
arguments and the same effects, and the verdicts agree. -/
theorem C198_seen_partial (c : Cfg σ A) (ho : c.orderShrink = c.orderRun) (he : c.orderEach = List.finRange n) (fuel : Nat) (seed : σ) :
    (∀ ph, calls ph (forAll c.tupled fuel seed []).2 = (calls ph (forAll c fuel seed []).2).map fun p => (fun _ => p.1, p.2)) ∧
    over Report.verdict (forAll c.tupled fuel seed []).1 = over Report.verdict (forAll c fuel seed []).1 := by
  obtain ⟨h1, h2⟩ := C198_test_partial c ho he fuel seed []
  rw [show Trace.tupled ([] : Trace A) = [] from rfl] at h1 h2
  constructor
  · intro ph
    rw [h2]
    generalize (forAll c fuel seed []).2 = tr
    simp only [calls, Trace.tupled, ← List.map_reverse, List.filterMap_map, List.map_filterMap]
    congr 1
    funext e
    cases e with
    | call ph' a ev => simp only [Function.comp, Event.tupled, Event.call?]; split <;> rfl
    | _ => rfl
  · revert h1
    generalize (forAll c fuel seed []).1 = o
    generalize (forAll c.tupled fuel seed []).1 = o'
    intro h1
    cases h1 with
    | ok h => cases h <;> rfl
    | throws e => rfl
    | ub => rfl
    | diverges => rfl

mutual
theorem greedy_concat (F : α → Bool) (g : α → List (Shr α)) : ∀ t : Shr α,
    (t.concat fun u => g u.value).greedy F = Shr.greedyList F (t.greedy F) (g (t.greedy F)) ∧
    (t.concat fun u => g u.value).greedyTried F = t.greedyTried F ++ Shr.greedyTriedList F (g (t.greedy F))
  | .node v ss => by
    rw [concat, Shr.greedy, Shr.greedy, Shr.greedyTried, Shr.greedyTried]
    exact greedyList_concat F g v ss
theorem greedyList_concat (F : α → Bool) (g : α → List (Shr α)) (cur : α) : ∀ ss : List (Shr α),
    Shr.greedyList F cur (concatList (fun u => g u.value) ss ++ g cur) = Shr.greedyList F (Shr.greedyList F cur ss) (g (Shr.greedyList F cur ss)) ∧
    Shr.greedyTriedList F (concatList (fun u => g u.value) ss ++ g cur) =
      Shr.greedyTriedList F ss ++ Shr.greedyTriedList F (g (Shr.greedyList F cur ss))
  | [] => by simp only [concatList, List.nil_append, Shr.greedyList, Shr.greedyTriedList, and_self]
  | c :: cs => by
    have h1 := greedy_concat F g c
    have h2 := greedyList_concat F g cur cs
    rw [concatList, List.cons_append]
    simp only [Shr.greedyList, Shr.greedyTriedList, value_concat]
    split_ifs
    · exact ⟨h1.1, by rw [h1.2, List.cons_append]⟩
    · exact ⟨h2.1, by rw [h2.2, List.cons_append]⟩
end

mutual
theorem greedyTried_map (f : α → β) (F : β → Bool) : ∀ t : Shr α, (t.map f).greedyTried F = (t.greedyTried fun v => F (f v)).map f
  | .node v ss => by
    rw [map_node, Shr.greedyTried, Shr.greedyTried]
    exact greedyTriedList_map f F ss
theorem greedyTriedList_map (f : α → β) (F : β → Bool) : ∀ ss : List (Shr α),
    Shr.greedyTriedList F (ss.map (Shr.map f)) = (Shr.greedyTriedList (fun v => F (f v)) ss).map f
  | [] => by simp only [List.map_nil, Shr.greedyTriedList]
  | c :: cs => by
    have h1 := greedyTried_map f F c
    have h2 := greedyTriedList_map f F cs
    simp only [List.map_cons, Shr.greedyTriedList, value_map]
    split_ifs
    · rw [h1]
    · rw [h2]
end

theorem get_update_leaf (w : Tup A) (N : Fin n) (v : A N) : Tup.get (Function.update w N (leaf v)) = Function.update (Tup.get w) N v := by
  rw [get_update, leaf, Shr.value]

/-- One component. -/
theorem greedyList_component (fails : Args A → Bool) (w : Tup A) (N : Fin n) : ∀ ss : List (Shr (A N)),
    Tup.get (Shr.greedyList (fun t => fails (Tup.get t)) w (ss.map (Shr.map fun v => Function.update w N (leaf v)))) =
      Function.update (Tup.get w) N (Shr.greedyList (fun v => fails (Function.update (Tup.get w) N v)) (w N).value ss) ∧
    ∀ i, i ≠ N → Shr.greedyList (fun t => fails (Tup.get t)) w (ss.map (Shr.map fun v => Function.update w N (leaf v))) i = w i
  | [] => by
    simp only [List.map_nil, Shr.greedyList]
    exact ⟨by simp [Tup.get], fun _ _ => trivial⟩
  | c :: cs => by
    have ih := greedyList_component fails w N cs
    simp only [List.map_cons, Shr.greedyList, value_map, get_update_leaf]
    split_ifs
    · rw [Shr.greedy_map]
      simp only [get_update_leaf]
      exact ⟨trivial, fun i hi => by simp [hi]⟩
    · exact ih

theorem greedyEach_helper (fails : Args A → Bool) : ∀ (k N : Nat), n - N = k → ∀ (aggr : Shr (Tup A)) (vals : Tup A),
    AgreeFrom N vals (aggr.greedy fun t => fails (Tup.get t)) →
    Tup.get ((concatHelper N aggr).greedy fun t => fails (Tup.get t)) =
      (fun i => (greedyEach fails ((List.finRange n).drop N) vals i).value) ∧
    ((concatHelper N aggr).greedyTried fun t => fails (Tup.get t)).map Tup.get =
      (aggr.greedyTried fun t => fails (Tup.get t)).map Tup.get ++ greedyEachTried fails ((List.finRange n).drop N) vals := by
  intro k
  induction k with
  | zero =>
    intro N hN aggr vals h
    rw [List.drop_eq_nil_of_le (by simp; omega), concatHelper, dif_neg (by omega)]
    simp only [greedyEach, greedyEachTried, List.append_nil, and_true]
    exact h.1.symm
  | succ k ih =>
    intro N hN aggr vals h
    have hlt : N < n := by omega
    rw [concatHelper, dif_pos hlt, List.drop_eq_getElem_cons (by simpa using hlt), List.getElem_finRange]
    simp only [greedyEach, greedyEachTried, Fin.cast_mk]
    set M : Fin n := ⟨N, hlt⟩
    set w := aggr.greedy fun t => fails (Tup.get t) with hw
    have eg : genStream M (leaf w) = (vals M).shrinks.map (Shr.map fun v => Function.update w M (leaf v)) := by
      rw [h.2 M le_rfl]
      unfold genStream
      rw [flatMap_eq_map, shrinks_map]
      rfl
    have ec : (aggr.concat (genStream M)) = aggr.concat fun u => genStream M (leaf u.value) := rfl
    have hc := greedy_concat (fun t => fails (Tup.get t)) (fun u => genStream M (leaf u)) aggr
    rw [← ec, ← hw, eg] at hc
    have hl := greedyList_component fails w M (vals M).shrinks
    have hg : (fun i => (vals i).value) = Tup.get w := h.1
    have hn : ((vals M).greedyNode fun v => fails (Function.update (Tup.get w) M v)).value =
        Shr.greedyList (fun v => fails (Function.update (Tup.get w) M v)) (w M).value (vals M).shrinks := by
      rw [← eta (vals M), Shr.greedyNode, greedyNodeList_value, h.2 M le_rfl]
      rfl
    have := ih (N + 1) (by omega) (aggr.concat (genStream M))
      (Function.update vals M ((vals M).greedyNode fun v => fails (Function.update (fun i => (vals i).value) M v))) (by
        rw [hc.1]
        refine ⟨?_, fun i hi => ?_⟩
        · rw [hl.1, get_update, hg, hn]
          exact congrArg (fun x => Function.update x M _) h.1
        · have hne : i ≠ M := fun e => by subst e; simp [M] at hi
          rw [hl.2 i hne, Function.update_of_ne hne]
          exact h.2 i (by omega))
    refine ⟨this.1, ?_⟩
    rw [this.2, hc.2, List.map_append, List.append_assoc]
    congr 2
    rw [greedyTriedList_map, List.map_map]
    simp only [get_update_leaf]
    rw [hg, ← eta (vals M), Shr.greedyTried]
    refine List.map_congr_left fun v _ => ?_
    simp only [Function.comp, get_update_leaf]

/-- **C198, what shrinking finds.** Greedy shrinking of a tuple ends where greedy shrinking of its components, one after the other from
left to right, ends, and tries the same tuples in the same order. -/
theorem C198_greedy (fails : Args A → Bool) (ts : Tup A) :
    (shrinkTuple ts).greedy fails = (fun i => (greedyEach fails (List.finRange n) ts i).value) ∧
    (shrinkTuple ts).greedyTried fails = greedyEachTried fails (List.finRange n) ts := by
  obtain ⟨h1, h2⟩ := greedyEach_helper fails n 0 rfl (leaf ts) ts ⟨rfl, fun _ _ => rfl⟩
  rw [shrinkTuple, flatMap_eq_map]
  constructor
  · rw [Shr.greedy_map]; exact h1
  · rw [greedyTried_map]; exact h2

/-- **C198, pairs.** Pairs shrink as tuples with two components. -/
theorem C198_pair {A : Fin 2 → Type} (t : Tup A) : shrinkPair (t 0) (t 1) = (shrinkTuple t).map fun v => (v 0, v 1) := by
  have h1 : ∀ x : Shr (Tup A), shrinkFirst (x.map fun t => (t 0, t 1)) = (genStream 0 x).map (map fun t => (t 0, t 1)) := fun x => by
    simp [shrinkFirst, genStream, flatMap_eq_map, map_map']
  have h2 : ∀ x : Shr (Tup A), shrinkSecond (x.map fun t => (t 0, t 1)) = (genStream 1 x).map (map fun t => (t 0, t 1)) := fun x => by
    simp [shrinkSecond, genStream, flatMap_eq_map, map_map']
  have e : (leaf (t 0, t 1) : Shr (Shr (A 0) × Shr (A 1))) = (leaf t).map fun t => (t 0, t 1) := by simp
  rw [shrinkPair, e, concat_of_map _ _ _ h1, concat_of_map _ _ _ h2, shrinkTuple, concatHelper, dif_pos (by omega), concatHelper,
    dif_pos (by omega), concatHelper, dif_neg (by omega)]
  simp [flatMap_eq_map, map_map']

/-- What a report of the test of a pair shows. -/
def shownPair {A : Fin 2 → Type} : Outcome (Report (One A)) × Trace (One A) → Option (Nat × A 0 × A 1)
  | (.ok (.falsified k _ shrunk), _) => some (k, (shrunk 0).value 0, (shrunk 0).value 1)
  | _ => none

/-- What a report of the test of two arguments shows. -/
def shownTwo {A : Fin 2 → Type} : Outcome (Report A) × Trace A → Option (Nat × A 0 × A 1)
  | (.ok (.falsified k _ shrunk), _) => some (k, (shrunk 0).value, (shrunk 1).value)
  | _ => none

/-- Two numbers, the first has to be smaller; from left to right: (1, 1) shrinks to (1, 0), as arguments and as a tuple. -/
example : shownTwo (forAll (demo2 fun a b => returns (decide (a < b))) 5 0 []) = some (1, 1, 0) ∧
    shownPair (forAll (demo2 fun a b => returns (decide (a < b))).tupled 5 0 []) = some (1, 1, 0) := by
  constructor <;> decide +kernel
example : (demo2 fun a b => returns (decide (a < b))).orderEach = List.finRange 2 := by decide

/-- C198 fails of the code if the compiler evaluates arguments from right to left, as some do: the test of two arguments reports (0, 0), the
test of the tuple (1, 0). -/
theorem C198_order_violated :
    shownTwo (forAll { demo2 (fun a b => returns (decide (a < b))) with orderEach := [1, 0] } 5 0 []) = some (1, 0, 0) ∧
    shownPair (forAll (Cfg.tupled { demo2 (fun a b => returns (decide (a < b))) with orderEach := [1, 0] }) 5 0 []) = some (1, 1, 0) := by
  constructor <;> decide +kernel

end Engine
end Verif
