import Verif.Model.PropertyObject
import Verif.Props.Property
/-
C200: the settings of a property object are in force, and belong to the object.
-/
namespace Verif
namespace Object
open Engine
variable {n : Nat} {A : Fin n → Type} {σ : Type}

/-- What a program says about a `Property` object: the function and the generators it was made with, and the setters called for it, for a copy
those called for the original before it was copied and those called for the copy. -/
structure Said (σ : Type) (A : Fin n → Type) where
  f : Trace A → Args A → Ev Bool
  gens : (i : Fin n) → Gen σ (A i)
  calls : List (Setter A)

/-- One more statement. -/
def Said.next (hs : List (Said σ A)) : Stmt σ A → List (Said σ A)
  | .make f gens => hs ++ [⟨f, gens, []⟩]
  | .copy i => hs ++ hs[i]?.toList
  | .set i s => hs.modify i fun h => { h with calls := h.calls ++ [s] }
  | .forAll _ _ _ => hs

/-- What a program says about the objects, in the order in which they are made. -/
def said (p : List (Stmt σ A)) : List (Said σ A) := p.foldl Said.next []

/-- The argument of a call of `setSeed`. -/
def Setter.seed? : Setter A → Option Nat
  | .seed s => some s
  | _ => none
/-- The argument of a call of `setNumRuns`. -/
def Setter.runs? : Setter A → Option Nat
  | .runs s => some s
  | _ => none
/-- The argument of a call of `setMaxDurationMs`. -/
def Setter.duration? : Setter A → Option Nat
  | .duration s => some s
  | _ => none
/-- The argument of a call of `setOnStartup`. -/
def Setter.startup? : Setter A → Option (Trace A → Ev Unit)
  | .startup s => some s
  | _ => none
/-- The argument of a call of `setOnCleanup`. -/
def Setter.cleanup? : Setter A → Option (Trace A → Ev Unit)
  | .cleanup s => some s
  | _ => none

/-- The argument of the last call of a setter. -/
def Said.last {X : Type} (h : Said σ A) (arg : Setter A → Option X) : Option X := (h.calls.filterMap arg).getLast?

/-- The test a user expects: what the last call of each setter said, otherwise the global seed, 1000 runs, no time limit and no hooks. -/
def Said.config (env : Env σ A) (h : Said σ A) (given : (i : Fin n) → Option (Gen σ (A i))) : Cfg σ A where
  gens := fun i => (given i).getD (h.gens i)
  orderRun := env.orderRun
  orderShrink := env.orderShrink
  orderEach := env.orderEach
  thrown := env.thrown
  func := h.f
  startup := h.last Setter.startup?
  cleanup := h.last Setter.cleanup?
  numRuns := (h.last Setter.runs?).getD 1000
  maxDurationMs := (h.last Setter.duration?).getD 0
  clock := env.clock

/-- The seed a user expects. -/
def Said.seed (env : Env σ A) (h : Said σ A) : Nat := (h.last Setter.seed?).getD env.globalSeed

/-- The object is as the program says. -/
structure Agrees (env : Env σ A) (funcs : List (Fn A)) (o : Obj σ A) (h : Said σ A) : Prop where
  seed : o.seed = h.seed env
  runs : o.numRuns = (h.last Setter.runs?).getD 1000
  duration : o.maxDurationMs = (h.last Setter.duration?).getD 0
  startup : o.onStartup = h.last Setter.startup?
  cleanup : o.onCleanup = h.last Setter.cleanup?
  gens : o.gens = h.gens
  func : ∃ past, funcs[o.func]? = some ⟨h.f, past⟩

variable {env : Env σ A}

theorem last_append {X : Type} (h : Said σ A) (s : Setter A) (arg : Setter A → Option X) :
    ({ h with calls := h.calls ++ [s] } : Said σ A).last arg = (arg s).or (h.last arg) := by
  unfold Said.last
  rw [List.filterMap_append]
  cases e : arg s with
  | none => simp [e]
  | some x => simp [e]

theorem Agrees.set {funcs : List (Fn A)} {o : Obj σ A} {h : Said σ A} (hs : Agrees env funcs o h) (s : Setter A) :
    Agrees env funcs (s.call o) { h with calls := h.calls ++ [s] } := by
  obtain ⟨h1, h2, h3, h4, h5, h6, h7⟩ := hs
  cases s <;> constructor <;>
    simp_all [last_append, Said.seed, Setter.call, Obj.setSeed, Obj.setNumRuns, Obj.setMaxDurationMs, Obj.setOnStartup, Obj.setOnCleanup,
      Setter.seed?, Setter.runs?, Setter.duration?, Setter.startup?, Setter.cleanup?]

theorem Agrees.mono {funcs funcs' : List (Fn A)} {o : Obj σ A} {h : Said σ A} (hs : Agrees env funcs o h)
    (hf : ∀ (k : Nat) (f : Trace A → Args A → Ev Bool) (past : Trace A), funcs[k]? = some ⟨f, past⟩ →
      ∃ past', funcs'[k]? = some ⟨f, past'⟩) : Agrees env funcs' o h :=
  { hs with func := hs.func.elim fun past hp => hf _ _ past hp }

/-- All objects are as the program says. -/
def AllAgree (env : Env σ A) (w : World σ A) (hs : List (Said σ A)) : Prop :=
  w.objs.length = hs.length ∧ ∀ (i : Nat) (o : Obj σ A) (h : Said σ A), w.objs[i]? = some o → hs[i]? = some h → Agrees env w.funcs o h

theorem AllAgree.next {w : World σ A} {hs : List (Said σ A)} (hw : AllAgree env w hs) (s : Stmt σ A) :
    AllAgree env (s.exec env w) (Said.next hs s) := by
  obtain ⟨hl, ha⟩ := hw
  cases s with
  | make f gens =>
    refine ⟨by simp [Stmt.exec, World.make, Said.next, hl], fun i o h ho hh => ?_⟩
    simp only [Stmt.exec, World.make, Said.next] at ho hh ⊢
    by_cases hi : i < w.objs.length
    · rw [List.getElem?_append_left hi] at ho
      rw [List.getElem?_append_left (by omega)] at hh
      refine (ha i o h ho hh).mono fun k f past hk => ⟨past, ?_⟩
      have : k < w.funcs.length := (List.getElem?_eq_some_iff.mp hk).1
      rw [List.getElem?_append_left this, hk]
    · rw [List.getElem?_append_right (by omega)] at ho
      rw [List.getElem?_append_right (by omega)] at hh
      have h0 : i - w.objs.length = 0 := by
        have := (List.getElem?_eq_some_iff.mp ho).1
        simpa using this
      rw [h0] at ho
      rw [show i - hs.length = 0 by omega] at hh
      simp only [List.getElem?_cons_zero, Option.some.injEq] at ho hh
      subst ho hh
      exact ⟨rfl, rfl, rfl, rfl, rfl, rfl, [], by simp⟩
  | copy j =>
    simp only [Stmt.exec, World.copy, Said.next]
    cases hj : w.objs[j]? with
    | none =>
      have : hs[j]? = none := by rw [List.getElem?_eq_none_iff] at hj ⊢; omega
      simp only [this, Option.toList_none, List.append_nil]
      exact ⟨hl, ha⟩
    | some oj =>
      obtain ⟨hjs, hj'⟩ : ∃ h, hs[j]? = some h := by
        have := (List.getElem?_eq_some_iff.mp hj).1
        exact ⟨_, List.getElem?_eq_getElem (by omega)⟩
      simp only [hj', Option.toList_some]
      refine ⟨by simp [hl], fun i o h ho hh => ?_⟩
      by_cases hi : i < w.objs.length
      · rw [List.getElem?_append_left hi] at ho
        rw [List.getElem?_append_left (by omega)] at hh
        exact ha i o h ho hh
      · simp only at ho
        rw [List.getElem?_append_right (by omega)] at ho
        rw [List.getElem?_append_right (by omega)] at hh
        have h0 : i - w.objs.length = 0 := by
          have := (List.getElem?_eq_some_iff.mp ho).1
          simpa using this
        rw [h0] at ho
        rw [show i - hs.length = 0 by omega] at hh
        simp only [List.getElem?_cons_zero, Option.some.injEq] at ho hh
        subst ho hh
        exact ha j oj hjs hj hj'
  | set j s =>
    refine ⟨by simp [Stmt.exec, Said.next, hl], fun i o h ho hh => ?_⟩
    simp only [Stmt.exec, Said.next, List.getElem?_modify] at ho hh ⊢
    obtain ⟨o', ho', rfl⟩ := Option.map_eq_some_iff.mp ho
    obtain ⟨h', hh', rfl⟩ := Option.map_eq_some_iff.mp hh
    by_cases e : j = i
    · simp only [e, if_true]
      exact (ha i o' h' ho' hh').set s
    · simp only [e, if_false]
      exact ha i o' h' ho' hh'
  | forAll j given fuel =>
    simp only [Stmt.exec, World.forAll, Said.next]
    cases hj : w.objs[j]? with
    | none => exact ⟨hl, ha⟩
    | some oj =>
      simp only
      cases hf : w.funcs[oj.func]? with
      | none => exact ⟨hl, ha⟩
      | some f =>
        refine ⟨hl, fun i o h ho hh => (ha i o h ho hh).mono fun k g past hk => ?_⟩
        simp only [List.getElem?_set]
        by_cases e : oj.func = k
        · subst e
          rw [hk] at hf
          cases hf
          have := (List.getElem?_eq_some_iff.mp hk).1
          exact ⟨_, by simp [this]; rfl⟩
        · exact ⟨past, by simp [e, hk]⟩

theorem allAgree (p : List (Stmt σ A)) : AllAgree env (exec env ⟨[], []⟩ p) (said p) := by
  have : ∀ (p : List (Stmt σ A)) (w : World σ A) (hs : List (Said σ A)), AllAgree env w hs →
      AllAgree env (exec env w p) (p.foldl Said.next hs) := by
    intro p
    induction p with
    | nil => intro w hs h; exact h
    | cons s p ih => intro w hs h; exact ih _ _ (h.next s)
  exact this p _ _ ⟨rfl, fun i o h ho => by simp at ho⟩

/-- **C200, in force.** Whatever a program does with its `Property` objects, a test of object number `i` is the test with the generators given
to `forAll`, otherwise those the object was made with, and with what the last call of each setter said, among the calls for this
object, before and after it was copied from another: calls for other objects, the order of calls of different setters and the tests
before do not matter. What the function object remembers of the tests before is `past`. -/
theorem C200_in_force (p : List (Stmt σ A)) (i : Nat) (h : Said σ A) (hh : (said p)[i]? = some h)
    (given : (i : Fin n) → Option (Gen σ (A i))) (fuel : Nat) :
    ∃ past, ((exec env ⟨[], []⟩ p).forAll env i given fuel).1 =
      some (Engine.forAll (h.config env given) fuel (env.seeded (h.seed env)) past).1 := by
  obtain ⟨hl, ha⟩ := allAgree (env := env) p
  obtain ⟨o, ho⟩ : ∃ o, (exec env ⟨[], []⟩ p).objs[i]? = some o := by
    have := (List.getElem?_eq_some_iff.mp hh).1
    exact ⟨_, List.getElem?_eq_getElem (by omega)⟩
  obtain ⟨h1, h2, h3, h4, h5, h6, past, h7⟩ := ha i o h ho hh
  refine ⟨past, ?_⟩
  simp only [World.forAll, ho, h7]
  rw [h1]
  have : o.config env h.f given = h.config env given := by
    unfold Obj.config Said.config
    rw [h2, h3, h4, h5, h6]
  rw [this]

/-- **C200, independent.** If the function and the hooks of the object have no memory and there is no time limit, the result is that of the same
test made alone: it does not depend on the other objects, copies or tests before.

Partial: copies share the function object; see `C200_copies_violated`. -/
theorem C200_independent_partial (p : List (Stmt σ A)) (i : Nat) (h : Said σ A) (hh : (said p)[i]? = some h)
    (given : (i : Fin n) → Option (Gen σ (A i))) (fuel : Nat) (f : Args A → Ev Bool) (hm : NoMemory (h.config env given) f)
    (h0 : (h.last Setter.duration?).getD 0 = 0) :
    ((exec env ⟨[], []⟩ p).forAll env i given fuel).1 =
      some (Engine.forAll (h.config env given) fuel (env.seeded (h.seed env)) []).1 := by
  obtain ⟨past, e⟩ := C200_in_force (env := env) p i h hh given fuel
  obtain ⟨o, new, ho⟩ := C46_same_seed_same_runs hm h0 fuel (env.seeded (h.seed env))
  rw [e, ho past, ho []]

/-- For each object, which of the `property(...)` calls of the program it goes back to: a copy goes back to the same one as its original. -/
def origins : List (Stmt σ A) → List Nat
  | p => (p.foldl (fun (w : List Nat × Nat) s => match s with
      | .make _ _ => (w.1 ++ [w.2], w.2 + 1)
      | .copy i => (w.1 ++ w.1[i]?.toList, w.2)
      | _ => w) ([], 0)).1

theorem origins_func (p : List (Stmt σ A)) : (exec env ⟨[], []⟩ p).objs.map Obj.func = origins p := by
  have : ∀ (p : List (Stmt σ A)) (w : World σ A), (exec env w p).objs.map Obj.func =
      (p.foldl (fun (w : List Nat × Nat) s => match s with
        | .make _ _ => (w.1 ++ [w.2], w.2 + 1)
        | .copy i => (w.1 ++ w.1[i]?.toList, w.2)
        | _ => w) (w.objs.map Obj.func, w.funcs.length)).1 := by
    intro p
    induction p with
    | nil => intro w; rfl
    | cons s p ih =>
      intro w
      refine (ih (s.exec env w)).trans ?_
      rw [List.foldl_cons]
      congr 2
      cases s with
      | make f gens => simp [Stmt.exec, World.make]
      | copy i =>
        simp only [Stmt.exec, World.copy, List.getElem?_map]
        cases h : w.objs[i]? <;> simp
      | set i s =>
        simp only [Stmt.exec, Prod.mk.injEq, and_true]
        refine List.ext_getElem? fun k => ?_
        simp only [List.getElem?_map, List.getElem?_modify]
        cases h : w.objs[k]? with
        | none => simp
        | some o => by_cases hk : i = k <;> cases s <;> simp [hk, Setter.call, Obj.setSeed, Obj.setNumRuns, Obj.setMaxDurationMs,
            Obj.setOnStartup, Obj.setOnCleanup]
      | forAll i given fuel =>
        simp only [Stmt.exec, World.forAll]
        cases h : w.objs[i]? with
        | none => rfl
        | some o =>
          simp only
          cases h' : w.funcs[o.func]? <;> simp
  exact this p ⟨[], []⟩

/-- C200, objects made separately: a test of an object changes nothing for the objects that are not copies of it or of the object it was
copied from, whatever the state of the functions is. -/
theorem C200_separate (p : List (Stmt σ A)) (i j : Nat) (hne : (origins p)[i]? ≠ (origins p)[j]?)
    (given given' : (i : Fin n) → Option (Gen σ (A i))) (fuel fuel' : Nat) :
    ((exec env ⟨[], []⟩ (p ++ [.forAll j given' fuel'])).forAll env i given fuel).1 =
      ((exec env ⟨[], []⟩ p).forAll env i given fuel).1 := by
  have ho := origins_func (env := env) p
  have he : exec env ⟨[], []⟩ (p ++ [.forAll j given' fuel']) = ((exec env ⟨[], []⟩ p).forAll env j given' fuel').2 := by
    simp [exec, Stmt.exec]
  rw [he]
  generalize exec env ⟨[], []⟩ p = w at ho ⊢
  rw [← ho, List.getElem?_map, List.getElem?_map] at hne
  unfold World.forAll
  cases hj : w.objs[j]? with
  | none => rfl
  | some q =>
    simp only
    cases hq : w.funcs[q.func]? with
    | none => rfl
    | some g =>
      simp only
      cases hi : w.objs[i]? with
      | none => rfl
      | some o =>
        rw [hi, hj] at hne
        have hn : q.func ≠ o.func := fun e => hne (by simp [e])
        simp only [List.getElem?_set_ne hn]
        cases w.funcs[o.func]? <;> rfl

/-- Numbers counted up from the seed. -/
def counting : Env Nat (fun _ : Fin 1 => Nat) := ⟨[0], [0], [0], id, fun _ => 0, id, 40⟩

/-- The state of the engine is drawn. -/
def current : (i : Fin 1) → Gen Nat ((fun _ : Fin 1 => Nat) i) := fun _ s => .ok (.leaf s, s + 1)

/-- The result of a test: the verdict. -/
def verdictOf (r : Option (Outcome (Report (fun _ : Fin 1 => Nat)))) : Option Bool :=
  match r with
  | some (.ok R) => some R.verdict
  | _ => none

/-- Less than 45. -/
def below45 : Trace (fun _ : Fin 1 => Nat) → Args (fun _ : Fin 1 => Nat) → Ev Bool := fun _ a => returns (decide (a 0 < 45))

/-- A property, 7 runs, a copy with the seed 10 (7 runs as well), then 4 runs for the original, tested in between: the copy passes, since
it draws 10, ..., 16; with its own seed 39 the original draws 39, ..., 42 and passes, with 7 runs it would fail. -/
def twoObjects : List (Stmt Nat (fun _ : Fin 1 => Nat)) :=
  [.make below45 current, .set 0 (.runs 7), .copy 0, .set 1 (.seed 10), .forAll 0 (fun _ => none) 20, .set 0 (.seed 39), .set 0 (.runs 4)]

example : ((said twoObjects)[0]?.map fun h => (h.seed counting, (h.last Setter.runs?).getD 1000)) = some (39, 4) ∧
    ((said twoObjects)[1]?.map fun h => (h.seed counting, (h.last Setter.runs?).getD 1000)) = some (10, 7) := by decide
example : verdictOf ((exec counting ⟨[], []⟩ twoObjects).forAll counting 0 (fun _ => none) 20).1 = some true ∧
    verdictOf ((exec counting ⟨[], []⟩ twoObjects).forAll counting 1 (fun _ => none) 20).1 = some true ∧
    verdictOf ((exec counting ⟨[], []⟩ (twoObjects ++ [.set 0 (.runs 7)])).forAll counting 0 (fun _ => none) 20).1 = some false := by
  refine ⟨?_, ?_, ?_⟩ <;> decide +kernel

/-- A function that fails when it is called for the fourth time, as a lambda with a counter. -/
def thrice : Trace (fun _ : Fin 1 => Nat) → Args (fun _ : Fin 1 => Nat) → Ev Bool :=
  fun tr _ => returns (decide ((calls .run tr).length < 3))

/-- Two properties made from this function are independent: each is called twice, and passes. -/
example : origins [.make thrice current, .set 0 (.runs 2), .make thrice current, .set 1 (.runs 2), .copy 0] = [0, 1, 0] ∧
    verdictOf ((exec counting ⟨[], []⟩ [.make thrice current, .set 0 (.runs 2), .make thrice current, .set 1 (.runs 2),
      .forAll 0 (fun _ => none) 20]).forAll counting 1 (fun _ => none) 20).1 = some true :=
  ⟨rfl, by decide +kernel⟩

/-- C200 fails of copies of a property whose function has a state: they share the function object. A property with two runs passes; a copy of
it passes if it is tested alone, and fails if the original is tested before. -/
theorem C200_copies_violated :
    verdictOf ((exec counting ⟨[], []⟩ [.make thrice current, .set 0 (.runs 2), .copy 0]).forAll counting 1 (fun _ => none) 20).1 = some true ∧
    verdictOf ((exec counting ⟨[], []⟩ [.make thrice current, .set 0 (.runs 2), .copy 0, .forAll 0 (fun _ => none) 20]).forAll counting 1
      (fun _ => none) 20).1 = some false := by
  constructor <;> decide +kernel

end Object
end Verif
