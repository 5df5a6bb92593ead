import Verif.Model.ConstructRefs
import Verif.Lemmas.PairTuple
import Verif.Props.Combinator
/-
C175: constructors given to `construct` may use their arguments as they like.
-/
namespace Verif
namespace ConstructRefs
variable {σ V O : Type} {n : Nat}

/-- What a constructor does with arguments that nobody else uses: the outcome depends on their values. -/
def Body.alone : Body V O n → (Fin n → V) → Outcome (O × List (Fin n))
  | .ret own kept, _ => .ok (own, kept)
  | .throw e, _ => .throws e
  | .read i k, a => (k (a i)).alone a
  | .write i v k, a => k.alone (Function.update a i v)

/-- The constructor changes none of its arguments. -/
inductive Body.Reads : Body V O n → Prop
  | ret (own : O) (kept : List (Fin n)) : Reads (.ret own kept)
  | throw (e : Exn) : Reads (.throw e)
  | read (i : Fin n) (k : V → Body V O n) (h : ∀ v, Reads (k v)) : Reads (.read i k)

/-- The object keeps a reference to argument `i`. -/
inductive Body.Keeps (i : Fin n) : Body V O n → Prop
  | ret (own : O) (kept : List (Fin n)) (h : i ∈ kept) : Keeps i (.ret own kept)
  | throw (e : Exn) : Keeps i (.throw e)
  | read (j : Fin n) (k : V → Body V O n) (h : ∀ v, Keeps i (k v)) : Keeps i (.read j k)
  | write (j : Fin n) (v : V) (k : Body V O n) (h : Keeps i k) : Keeps i (.write j v k)

/-- The object keeps no references. -/
inductive Body.Copies : Body V O n → Prop
  | ret (own : O) : Copies (.ret own [])
  | throw (e : Exn) : Copies (.throw e)
  | read (j : Fin n) (k : V → Body V O n) (h : ∀ v, Copies (k v)) : Copies (.read j k)
  | write (j : Fin n) (v : V) (k : Body V O n) (h : Copies k) : Copies (.write j v k)

/-- What `construct` should do, whatever other objects it has made before: the object the constructor makes of arguments of
its own, one from each generator. -/
def expected (ps : Fin n → Param σ V) (b : Body V O n) (order : List (Fin n)) (consts : Nat → V) (s : σ) :
    Outcome (Obj O n × σ) :=
  (Comb.construct b.alone (fun i => (ps i).src.gen consts) order s).bind fun r =>
    .ok (⟨r.1.value.1, r.1.value.2.map fun i => (ps i).loc i⟩, r.2)

theorem exec_own (b : Body V O n) (ps : Fin n → Param σ V) (h : ∀ i, (ps i).loc i = .arg i) (m : Mem V n) :
    (b.exec (fun i => (ps i).loc i) m).1 = ((b.alone m.args).bind fun r => .ok ⟨r.1, r.2.map fun i => (ps i).loc i⟩) ∧
      (b.exec (fun i => (ps i).loc i) m).2.consts = m.consts := by
  induction b generalizing m with
  | ret own kept => exact ⟨rfl, rfl⟩
  | throw e => exact ⟨rfl, rfl⟩
  | read i k ih =>
    have := ih (m.get ((ps i).loc i)) m
    rw [h i] at this
    simpa only [Body.exec, h i, Body.alone, Mem.get] using this
  | write i v k ih =>
    have := ih (m.set ((ps i).loc i) v)
    rw [h i] at this
    simpa only [Body.exec, h i, Body.alone, Mem.set] using this

theorem exec_reads (b : Body V O n) (hb : b.Reads) (ps : Fin n → Param σ V) (m : Mem V n)
    (hm : ∀ i, m.get ((ps i).loc i) = m.args i) :
    (b.exec (fun i => (ps i).loc i) m).1 = ((b.alone m.args).bind fun r => .ok ⟨r.1, r.2.map fun i => (ps i).loc i⟩) ∧
      (b.exec (fun i => (ps i).loc i) m).2.consts = m.consts := by
  induction hb with
  | ret own kept => exact ⟨rfl, rfl⟩
  | throw e => exact ⟨rfl, rfl⟩
  | read i k _ ih =>
    have := ih (m.args i)
    simpa only [Body.exec, Body.alone, hm i] using this

/-- What is in memory when the constructor starts: each parameter refers to an object with the value generated for it. -/
theorem start_get {ps : Fin n → Param σ V} {order : List (Fin n)} {consts : Nat → V} {s s' : σ} {ts : Fin n → Shr V}
    (h : Gen.drawTuple (fun i => (ps i).src.gen consts) order s = .ok (ts, s')) (i : Fin n) :
    (Mem.mk (fun i => (ts i).value) consts).get ((ps i).loc i) = (ts i).value := by
  have hm := Gen.drawTuple_ok _ _ _ _ _ h i
  unfold Param.loc
  split
  · rename_i k hs hr
    obtain ⟨a, b, hm⟩ := hm
    rw [hs] at hm
    injection hm with hm
    injection hm with hm _
    rw [← hm]
    rfl
  · rfl

theorem call_expected (ps : Fin n → Param σ V) (b : Body V O n) (order : List (Fin n)) (consts : Nat → V) (s : σ)
    (h : ∀ m : Mem V n, (∀ i, m.get ((ps i).loc i) = m.args i) →
      (b.exec (fun i => (ps i).loc i) m).1 =
          ((b.alone m.args).bind fun r => .ok ⟨r.1, r.2.map fun i => (ps i).loc i⟩) ∧
        (b.exec (fun i => (ps i).loc i) m).2.consts = m.consts) :
    call ps b order consts s = (expected ps b order consts s, consts) := by
  unfold call expected Comb.construct
  cases hd : Gen.drawTuple (fun i => (ps i).src.gen consts) order s with
  | ok r =>
    obtain ⟨ts, s'⟩ := r
    obtain ⟨h1, h2⟩ := h ⟨fun i => (ts i).value, consts⟩ (start_get hd)
    simp only [h1, h2, Outcome.ok_bind]
    cases b.alone fun i => (ts i).value <;> rfl
  | throws e => rfl
  | ub => rfl
  | diverges => rfl

theorem calls_expected {ps : Fin n → Param σ V} {b : Body V O n} {order : List (Fin n)} {consts : Nat → V}
    (h : ∀ s, call ps b order consts s = (expected ps b order consts s, consts)) (ss : List σ) :
    calls ps b order consts ss = (ss.map (expected ps b order consts), consts) := by
  induction ss with
  | nil => rfl
  | cons s ss ih => simp only [calls, h, ih, List.map_cons]

/-- **C175** Unless an argument is both a reference and generated by `just`, a constructor may change its arguments: each
object is the one the constructor makes of newly generated arguments that nobody else uses, whatever objects were made
before, and the values of `just` generators remain as they are.

Partial: false for references to what `just` generates, see `C175_moved_violated`. -/
theorem C175_changing_partial (ps : Fin n → Param σ V) (hp : ∀ i, (ps i).ref = true → ∃ g, (ps i).src = .fresh g)
    (b : Body V O n) (order : List (Fin n)) (consts : Nat → V) (ss : List σ) :
    calls ps b order consts ss = (ss.map (expected ps b order consts), consts) := by
  refine calls_expected (fun s => call_expected ps b order consts s fun m _ => exec_own b ps (fun i => ?_) m) ss
  unfold Param.loc
  split
  · rename_i k hs hr
    obtain ⟨g, hg⟩ := hp i hr
    rw [hg] at hs
    cases hs
  · rfl

/-- **C175** A constructor that only looks at its arguments makes the object it would make of arguments of its own, whatever the
generators are and whether the arguments are references or not. -/
theorem C175_reading (ps : Fin n → Param σ V) (b : Body V O n) (hb : b.Reads) (order : List (Fin n)) (consts : Nat → V)
    (ss : List σ) : calls ps b order consts ss = (ss.map (expected ps b order consts), consts) :=
  calls_expected (fun s => call_expected ps b order consts s fun m hm => exec_reads b hb ps m hm) ss

/-- Two arguments, a `vector<int>` or `vector<int>&`, and a number. -/
private def animal (src : Source (List Nat) (List Nat)) (ref : Bool) (i : Fin 2) : Param (List Nat) (List Nat) :=
  if i = 0 then ⟨src, ref⟩ else ⟨.fresh fun s => .ok (.leaf [s.headD 0], s.tail), false⟩

/-- A constructor that moves the vector into the object, leaving it empty, and throws for 9. -/
private def take : Body (List Nat) (List Nat) 2 :=
  .read 0 fun v => .write 0 [] <| .read 1 fun k => if k = [9] then .throw (.foreign) else .ret (k ++ v) []

private def shown (l : List (Outcome (Obj (List Nat) 2 × List Nat))) : List (Option (List Nat)) :=
  l.map fun o => match o with
    | .ok r => some r.1.own
    | _ => none

example : (∀ i, (animal (.fresh fun s => .ok (.leaf s, s)) true i).ref = true →
      ∃ g, (animal (.fresh fun s => .ok (.leaf s, s)) true i).src = .fresh g) ∧
    shown (calls (animal (.fresh fun s => .ok (.leaf s, s)) true) take [0, 1] (fun _ => [7]) [[3, 4], [9], [5]]).1 =
      [some [3, 3, 4], none, some [5, 5]] ∧
    shown (calls (animal (.same 0) false) take [0, 1] (fun _ => [7]) [[3, 4], [9], [5]]).1 =
      [some [3, 7], none, some [5, 7]] := by
  refine ⟨fun i h => ?_, by decide +kernel, by decide +kernel⟩
  by_cases hi : i = 0
  · exact ⟨_, by simp only [animal, if_pos hi]; rfl⟩
  · exact ⟨_, by simp only [animal, if_neg hi]; rfl⟩

example : (Body.read 0 fun v => .read 1 fun k => .ret (k ++ v) [0] : Body (List Nat) (List Nat) 2).Reads :=
  .read _ _ fun _ => .read _ _ fun _ => .ret _ _

/-- **C175** is false of the code for references to what `just` generates: if the constructor takes the value of such an argument
and leaves `e` behind, then the first object gets the value given to `just`, and all later ones get `e`. For all
values, and whatever the other arguments are. -/
theorem C175_moved_violated (ps : Fin n → Param σ V) (i : Fin n) (k : Nat) (hi : ps i = ⟨.same k, true⟩) (e : V)
    (order : List (Fin n)) (consts : Nat → V) (s : σ) (ss : List σ) (o : Obj V n) (s' : σ)
    (h : (call ps (.read i fun v => .write i e (.ret v [])) order consts s).1 = .ok (o, s')) :
    o.own = consts k ∧
    ∀ r ∈ (calls ps (.read i fun v => .write i e (.ret v [])) order consts (s :: ss)).1.tail,
      ∀ o' s'', r = .ok (o', s'') → o'.own = e := by
  have key : ∀ consts s o s', (call ps (.read i fun v => .write i e (.ret v [])) order consts s).1 = .ok (o, s') →
      o.own = consts k ∧ (call ps (.read i fun v => .write i e (.ret v [])) order consts s).2 k = e := by
    intro consts s o s' h
    unfold call at h ⊢
    cases hd : Gen.drawTuple (fun i => (ps i).src.gen consts) order s with
    | ok r =>
      rw [hd] at h
      have hl : (ps i).loc i = .const k := by simp [Param.loc, hi]
      simp only [Body.exec, hl, Mem.get, Outcome.bind, Outcome.ok.injEq, Prod.mk.injEq] at h
      obtain ⟨h, -⟩ := h
      rw [← h]
      exact ⟨rfl, by simp [Body.exec, hl, Mem.set]⟩
    | throws e => rw [hd] at h; cases h
    | ub => rw [hd] at h; cases h
    | diverges => rw [hd] at h; cases h
  have stay : ∀ consts s, consts k = e →
      (call ps (.read i fun v => .write i e (.ret v [])) order consts s).2 k = e := by
    intro consts s hc
    unfold call
    have hl : (ps i).loc i = .const k := by simp [Param.loc, hi]
    cases hd : Gen.drawTuple (fun i => (ps i).src.gen consts) order s with
    | ok r => simp [Body.exec, hl, Mem.set]
    | throws e => exact hc
    | ub => exact hc
    | diverges => exact hc
  refine ⟨(key consts s o s' h).1, ?_⟩
  have all : ∀ (ss : List σ) consts, consts k = e →
      ∀ r ∈ (calls ps (.read i fun v => .write i e (.ret v [])) order consts ss).1,
        ∀ o' s'', r = .ok (o', s'') → o'.own = e := by
    intro ss
    induction ss with
    | nil => intro consts _ r hr; cases hr
    | cons s ss ih =>
      intro consts hc r hr o' s'' ho
      rcases List.mem_cons.mp hr with rfl | hr
      · rw [(key consts s o' s'' ho).1, hc]
      · exact ih _ (stay consts s hc) r hr o' s'' ho
  exact all ss _ (key consts s o s' h).2

example : shown (calls (animal (.same 0) true) take [0, 1] (fun _ => [7]) [[3, 4], [9], [5]]).1 = [some [3, 7], none, some [5]] ∧
    shown (calls (animal (.same 0) true) (.read 0 fun v => .write 0 [8] (.ret v [])) [1, 0] (fun _ => [7]) [[3], [4], [5]]).1 =
      [some [7], some [8], some [8]] := by decide +kernel

/-- **C175** is false of the code for two references to what the same `just` generator generates: they refer to one object. A
constructor that changes its first argument to `e` finds `e` in its second one. -/
theorem C175_alias_violated (ps : Fin n → Param σ V) (i j : Fin n) (k : Nat) (hi : ps i = ⟨.same k, true⟩)
    (hj : ps j = ⟨.same k, true⟩) (e : V) (order : List (Fin n)) (consts : Nat → V) (s s' : σ) (o : Obj V n)
    (h : (call ps (.write i e (.read j fun v => .ret v [])) order consts s).1 = .ok (o, s')) : o.own = e := by
  unfold call at h
  cases hd : Gen.drawTuple (fun i => (ps i).src.gen consts) order s with
  | ok r =>
    rw [hd] at h
    have hl : (ps i).loc i = .const k := by simp [Param.loc, hi]
    have hl' : (ps j).loc j = .const k := by simp [Param.loc, hj]
    simp only [Body.exec, hl, hl', Mem.get, Mem.set, Function.update_self, Outcome.bind, Outcome.ok.injEq,
      Prod.mk.injEq] at h
    rw [← h.1]
  | throws e => rw [hd] at h; cases h
  | ub => rw [hd] at h; cases h
  | diverges => rw [hd] at h; cases h

example : shown (calls (fun _ => ⟨.same 0, true⟩) (.write 0 [1] (.read 1 fun v => .ret v [])) [0, 1] (fun _ => [7]) [[]]).1 =
      [some [1]] ∧
    shown (calls (fun _ => ⟨.same 0, false⟩) (.write 0 [1] (.read 1 fun v => .ret v [])) [0, 1] (fun _ => [7]) [[]]).1 =
      [some [7]] := by decide +kernel

theorem call_ok {ps : Fin n → Param σ V} {b : Body V O n} {order : List (Fin n)} {consts : Nat → V} {s s' : σ}
    {o : Obj O n} (h : (call ps b order consts s).1 = .ok (o, s')) :
    ∃ m, (b.exec (fun i => (ps i).loc i) m).1 = .ok o := by
  unfold call at h
  cases hd : Gen.drawTuple (fun i => (ps i).src.gen consts) order s with
  | ok r =>
    rw [hd] at h
    obtain ⟨o', h1, h2⟩ := Outcome.bind_eq_ok.mp h
    cases h2
    exact ⟨_, h1⟩
  | throws e => rw [hd] at h; cases h
  | ub => rw [hd] at h; cases h
  | diverges => rw [hd] at h; cases h

/-- **C175** An object that has copied what it needs of its arguments can be used at any time.

Partial: false if it keeps references, see `C175_kept_violated`. -/
theorem C175_copied_partial (ps : Fin n → Param σ V) (b : Body V O n) (hb : b.Copies) (order : List (Fin n))
    (consts : Nat → V) (s s' : σ) (o : Obj O n) (h : (call ps b order consts s).1 = .ok (o, s')) (later : Nat → V) :
    o.use later = .ok (o.own, []) := by
  obtain ⟨m, hm⟩ := call_ok h
  have : o.kept = [] := by
    clear later h
    induction hb generalizing m with
    | ret own => cases hm; rfl
    | throw e => cases hm
    | read j k _ ih => exact ih _ m hm
    | write j v k _ ih => exact ih _ hm
  unfold Obj.use
  rw [this]
  rfl

example : (Body.read 0 fun v => .write 0 [] <| .read 1 fun k => .ret (k ++ v) [] : Body (List Nat) (List Nat) 2).Copies ∧
    shown (calls (animal (.same 0) true) (.read 0 fun v => .write 0 [] <| .read 1 fun k => .ret (k ++ v) []) [0, 1]
      (fun _ => [7]) [[3]]).1 = [some [3, 7]] :=
  ⟨.read _ _ fun _ => .write _ _ _ (.read _ _ fun _ => .ret _), by decide +kernel⟩

/-- **C175** is false of the code for objects that keep a reference to an argument: unless that comes from a `just` generator, it
is destroyed before the generator returns, and using the object is undefined behaviour. For all constructors and all
generators. -/
theorem C175_kept_violated (ps : Fin n → Param σ V) (i : Fin n) (g : Gen σ V) (hi : (ps i).src = .fresh g) (b : Body V O n)
    (hb : b.Keeps i) (order : List (Fin n)) (consts : Nat → V) (s s' : σ) (o : Obj O n)
    (h : (call ps b order consts s).1 = .ok (o, s')) (later : Nat → V) : o.use later = .ub := by
  obtain ⟨m, hm⟩ := call_ok h
  have hl : (ps i).loc i = .arg i := by simp [Param.loc, hi]
  have hk : Loc.arg i ∈ o.kept := by
    clear later h
    induction hb generalizing m with
    | ret own kept hk => cases hm; exact List.mem_map.mpr ⟨i, hk, hl⟩
    | throw e => cases hm
    | read j k _ ih => exact ih _ m hm
    | write j v k _ ih => exact ih _ hm
  have : ∀ l : List (Loc n), Loc.arg i ∈ l → readAll later l = .ub := by
    intro l
    induction l with
    | nil => intro h; cases h
    | cons a l ih =>
      intro h
      cases a with
      | arg j => rfl
      | const k =>
        rcases List.mem_cons.mp h with h | h
        · cases h
        · simp only [readAll, ih h]; rfl
  unfold Obj.use
  rw [this _ hk]
  rfl

/-- A constructor `Animal(vector<int>& v, int) : v(v) {}` of a class with a member `vector<int>& v`. -/
private def keep : Body (List Nat) (List Nat) 2 := .read 1 fun k => .ret k [0]

example : keep.Keeps 0 ∧ (animal (.fresh fun s => .ok (.leaf s, s)) true 0).src = .fresh (fun s => .ok (.leaf s, s)) ∧
    shown [(call (animal (.fresh fun s => .ok (.leaf s, s)) true) keep [1, 0] (fun _ => []) [5, 6]).1] = [some [5]] :=
  ⟨.read _ _ fun _ => .ret _ _ (by decide), rfl, by decide +kernel⟩

/-- **C175** Argument `i` of the constructor comes from the i-th generator given to `construct` if there is one, otherwise from the
default generator of its type. More generators than arguments are not accepted. -/
theorem C175_generators {G : Type} (n : Nat) (arb : Nat → G) (gens : List G) :
    ((constructGens n arb gens).isSome ↔ gens.length ≤ n) ∧
    ∀ l, constructGens n arb gens = some l → l.length = n ∧
      ∀ i < n, l[i]? = some (if h : i < gens.length then gens[i] else arb i) := by
  cases gens with
  | nil =>
    refine ⟨by simp [constructGens], fun l h => ?_⟩
    cases h
    refine ⟨by simp [Make.createGenHelperListed], fun i hi => ?_⟩
    simp [Make.createGenHelperListed, hi]
  | cons g gs =>
    by_cases hle : (g :: gs).length ≤ n
    · unfold constructGens
      rw [if_neg (by simp), if_pos hle]
      refine ⟨by simpa using hle, fun l h => ?_⟩
      cases h
      refine ⟨by simp only [Make.createGenHelperListed, Make.addOffset, List.length_append, List.length_map,
        List.length_range]; omega, fun i hi => ?_⟩
      by_cases h : i < (g :: gs).length
      · rw [dif_pos h, List.getElem?_append_left h, List.getElem?_eq_getElem h]
      · rw [dif_neg h, List.getElem?_append_right (by omega)]
        simp only [Make.createGenHelperListed, Make.addOffset, List.getElem?_map]
        rw [List.getElem?_range (by omega)]
        simp only [Option.map_some, Option.some.injEq]
        congr 1
        omega
    · unfold constructGens
      rw [if_neg (by simp), if_neg hle]
      exact ⟨by simpa using hle, fun l h => by cases h⟩

example : constructGens 3 (fun i => 10 * i) [7] = some [7, 10, 20] ∧ constructGens 1 (fun i => 10 * i) [7, 8] = none :=
  ⟨rfl, rfl⟩

end ConstructRefs
end Verif
