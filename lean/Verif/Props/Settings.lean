import Verif.Lemmas.Settings
import Verif.Props.ListLike
/-
Claims C128 and C129.
-/
namespace Verif
namespace Settings
open Shr ListLike
variable {E σ α : Type}

/-! ### C128 setters configure the generator they are called on -/

/-- C128. The value of a chain of setter calls (here the new variable `y`) has all the settings, whichever setters
are chained. -/
theorem C128_expression_partial (st st' : Store E) (hr : Reached st) (y x : Nat) (ss : List (Setter E))
    (e : exec st (.bind y x ss) = some st') :
    ∃ o r, st.var x = some o ∧ st'.var y = some r ∧ Configured o ss r := by
  have hg := hr.good
  simp only [exec, Option.bind_eq_bind, Option.bind_eq_some_iff] at e
  obtain ⟨a, ha, e⟩ := e
  injection e with e; subst e
  obtain ⟨o, ho⟩ := hg.live x a ha
  obtain ⟨h1, -⟩ := chain_spec ss st.heap a (hg.lt ha)
  refine ⟨o, applyAll ss o, by simp [Store.var, ha, ho], ?_, configured_applyAll ss o⟩
  have hl := length_sweep _ _ h1
  simp only [Store.var, if_true, Option.bind_some]
  rw [List.getElem?_append_right (by omega), hl, Nat.sub_self, List.getElem?_cons_zero, chain_value hg ha ss ho]
  rfl

/-- C128. The variable a chain is called on has all the settings if `setElemGen` and `setKeyGen` come last. What is
missing is any other order, for which the claim is false, see `C128_lost_violated`. -/
theorem C128_variable_partial (st st' : Store E) (hr : Reached st) (x : Nat) (ss : List (Setter E))
    (hs : ∀ s ∈ ss.dropLast, ∀ f, s ≠ .gens f) (e : exec st (.set x ss) = some st') :
    ∃ o r, st.var x = some o ∧ st'.var x = some r ∧ Configured o ss r := by
  have hg := hr.good
  simp only [exec, Option.bind_eq_bind, Option.bind_eq_some_iff] at e
  obtain ⟨a, ha, e⟩ := e
  injection e with e; subst e
  obtain ⟨o, ho⟩ := hg.live x a ha
  refine ⟨o, applyAll ss o, by simp [Store.var, ha, ho], ?_, configured_applyAll ss o⟩
  simp only [Store.var, ha, Option.bind_some, sweep_chain hg ha ss ho]
  rw [upTo_of_dropLast fun s h => by
    cases s with
    | gens f => exact absurd rfl (hs _ h f)
    | _ => rfl]
  rfl

/-- C128. Vectors generated by a chain of setter calls have a size between the last bounds given. -/
theorem C128_vector_partial (R : Rng σ) (st st' : Store (Gen σ α)) (hr : Reached st) (y x : Nat)
    (ss : List (Setter (Gen σ α))) (e : exec st (.bind y x ss) = some st') :
    ∃ o r, st.var x = some o ∧ st'.var y = some r ∧
      (lastOr Setter.lower o.minSize ss ≤ lastOr Setter.upper o.maxSize ss →
        lastOr Setter.upper o.maxSize ss < 2^32 →
        ∀ s s' t, r.vector R s = .ok (t, s') →
          lastOr Setter.lower o.minSize ss ≤ t.value.length ∧ t.value.length ≤ lastOr Setter.upper o.maxSize ss) := by
  obtain ⟨o, r, h1, h2, h3⟩ := C128_expression_partial st st' hr y x ss e
  refine ⟨o, r, h1, h2, fun hb hm s s' t ht => ?_⟩
  unfold Obj.vector at ht
  rw [h3.lower, h3.upper] at ht
  obtain ⟨xs, s1, -, -, h4, h5, h6, -⟩ := C27_vector R r.elem _ _ hb hm s s' t ht
  rw [h6, List.length_map]
  exact ⟨h4, h5⟩

/-- C128 is false: what is chained behind `setElemGen` (or `setKeyGen`) is lost for the variable. After
`x.setElemGen(e).setSize(a, b);` the generator `x` has the new element generator but the old sizes: all vectors it
generates have a size between the old bounds. -/
theorem C128_lost_violated (R : Rng σ) (st st' : Store (Gen σ α)) (hr : Reached st) (x : Nat) (o : Obj (Gen σ α))
    (hx : st.var x = some o) (g : Gen σ α) (a b : Nat)
    (e : exec st (.set x [.gens (fun _ => g), .sizes a b]) = some st') :
    ∃ r, st'.var x = some r ∧ r = { o with elem := g } ∧
      (o.minSize ≤ o.maxSize → o.maxSize < 2^32 → ∀ s s' t, r.vector R s = .ok (t, s') →
        o.minSize ≤ t.value.length ∧ t.value.length ≤ o.maxSize) := by
  have hg := hr.good
  simp only [exec, Option.bind_eq_bind, Option.bind_eq_some_iff] at e
  obtain ⟨a', ha, e⟩ := e
  injection e with e; subst e
  obtain ⟨o', ho⟩ := hg.live x a' ha
  have : o' = o := by
    simp only [Store.var, ha, Option.bind_some, ho] at hx
    injection hx
  subst this
  refine ⟨{ o' with elem := g }, ?_, rfl, fun hb hm s s' t ht => ?_⟩
  · simp only [Store.var, ha, Option.bind_some, sweep_chain hg ha _ ho]
    rfl
  · obtain ⟨xs, s1, -, -, h4, h5, h6, -⟩ := C27_vector R g _ _ hb hm s s' t ht
    rw [h6, List.length_map]
    exact ⟨h4, h5⟩

/-- C128 is false also for `auto g = reference(x.setElemGen(e));`: the reference is to a temporary, which does not
exist any more when `g` is used, whatever is done in between. -/
theorem C128_reference_violated (st st1 st2 : Store E) (hr : Reached st) (g x : Nat) (ss : List (Setter E))
    (hs : ∃ f, .gens f ∈ ss) (e : exec st (.refer g x ss) = some st1) (cs : List (Cmd E))
    (hd : ∀ c ∈ cs, ¬ c.defines g) (e2 : execAll st1 cs = some st2) : (st2.gens g).isSome ∧ st2.gen g = none := by
  have hg := hr.good
  have hg1 := good_exec hg e
  simp only [exec, Option.bind_eq_bind, Option.bind_eq_some_iff] at e
  obtain ⟨a, ha, e⟩ := e
  injection e with e
  obtain ⟨f, hf⟩ := hs
  obtain ⟨h1, h2, h3, h4, h5, h6, h7⟩ := chain_spec ss st.heap a (hg.lt ha)
  have h8 := h7 ⟨_, hf, rfl⟩
  have hgen : st2.gens g = some (chain (st.heap, a) ss).2 := by
    rw [execAll_gens e2 hd, ← e]
    simp
  refine ⟨by rw [hgen]; rfl, ?_⟩
  have hlen : (chain (st.heap, a) ss).2 < st1.heap.length := by
    rw [← e]; simp only [length_sweep _ _ h1]; exact h2
  have hfr := execAll_frame hg1 e2 hlen fun z hz => by
    rw [← e] at hz
    have := hg.lt hz
    omega
  simp only [Store.gen, hgen, Option.bind_some]
  rw [hfr, ← e]
  exact getElem?_sweep_dead _ _ h1 _ h8

/-- `auto x = Arbi<vector<T>>();`: sizes 0 to 200, /repo/proptest/generator/vector.hpp:64-67. -/
def vecObj (g : Gen σ α) : Obj (Gen σ α) := ⟨0, 200, g⟩

example (g h : Gen (List Int) Nat) : ∃ st, Reached st ∧ st.var 0 = some (vecObj g) ∧
    ∃ st', exec st (.set 0 [.gens (fun _ => h), .sizes 10 10]) = some st' ∧
      st'.var 0 = some ⟨0, 200, h⟩ := ⟨_, ⟨[.new 0 (vecObj g)], rfl⟩, rfl, _, rfl, rfl⟩

example (g h : Gen (List Int) Nat) : ∃ st, Reached st ∧
    ∃ st', exec st (.set 0 [.sizes 10 10, .gens (fun _ => h)]) = some st' ∧
      st'.var 0 = some ⟨10, 10, h⟩ := ⟨_, ⟨[.new 0 (vecObj g)], rfl⟩, _, rfl, rfl⟩

example (g h : Gen (List Int) Nat) : ∃ st, Reached st ∧
    ∃ st', exec st (.bind 1 0 [.gens (fun _ => h), .sizes 10 10]) = some st' ∧
      st'.var 1 = some ⟨10, 10, h⟩ ∧ st'.var 0 = some ⟨0, 200, h⟩ := ⟨_, ⟨[.new 0 (vecObj g)], rfl⟩, _, rfl, rfl, rfl⟩

example (g h : Gen (List Int) Nat) : ∃ st, Reached st ∧
    ∃ st', exec st (.refer 5 0 [.gens (fun _ => h), .sizes 10 10]) = some st' ∧
      st'.gen 5 = none := ⟨_, ⟨[.new 0 (vecObj g)], rfl⟩, _, rfl, rfl⟩

/-! ### C129 generators made from others -/

/-- C129. A generator made with `map`, `filter`, `flatMap`, `pairWith`, `tupleWith`, or by passing the generator to
a combinator, has the settings given until then and keeps them, whatever is done afterwards to the generator it was
made from or to other ones. -/
theorem C129_derived (st st1 st2 : Store E) (hr : Reached st) (g x : Nat) (ss : List (Setter E))
    (e : exec st (.derive g x ss) = some st1) (cs : List (Cmd E)) (hd : ∀ c ∈ cs, ¬ c.defines g)
    (e2 : execAll st1 cs = some st2) :
    ∃ o r, st.var x = some o ∧ st2.gen g = some r ∧ Configured o ss r := by
  have hg := hr.good
  have hg1 := good_exec hg e
  simp only [exec, Option.bind_eq_bind, Option.bind_eq_some_iff] at e
  obtain ⟨a, ha, e⟩ := e
  injection e with e
  obtain ⟨o, ho⟩ := hg.live x a ha
  obtain ⟨h1, -⟩ := chain_spec ss st.heap a (hg.lt ha)
  have hl := length_sweep _ _ h1
  refine ⟨o, applyAll ss o, by simp [Store.var, ha, ho], ?_, configured_applyAll ss o⟩
  have hgen : st2.gens g = some (chain (st.heap, a) ss).1.length := by
    rw [execAll_gens e2 hd, ← e]
    simp
  have hfr := execAll_frame hg1 e2 (b := (chain (st.heap, a) ss).1.length)
    (by rw [← e]; simp only [List.length_append, hl, List.length_singleton]; omega) fun z hz => by
      rw [← e] at hz
      have := hg.lt hz
      omega
  simp only [Store.gen, hgen, Option.bind_some]
  rw [hfr, ← e]
  dsimp only
  rw [List.getElem?_append_right (by omega), hl, Nat.sub_self, List.getElem?_cons_zero, chain_value hg ha ss ho]
  rfl

/-- C129. A generator made with `reference` from a variable always has the settings that the variable has when it is
used. -/
theorem C129_reference (st st1 st2 : Store E) (hr : Reached st) (g x : Nat) (ss : List (Setter E))
    (hs : ∀ s ∈ ss, ∀ f, s ≠ .gens f) (e : exec st (.refer g x ss) = some st1) (cs : List (Cmd E))
    (hd : ∀ c ∈ cs, ¬ c.defines g) (hx : ∀ c ∈ cs, ¬ c.declares x) (e2 : execAll st1 cs = some st2) :
    (st2.var x).isSome ∧ st2.gen g = st2.var x := by
  have hg := hr.good
  have hg1 := good_exec hg e
  simp only [exec, Option.bind_eq_bind, Option.bind_eq_some_iff] at e
  obtain ⟨a, ha, e⟩ := e
  injection e with e
  obtain ⟨-, -, -, -, -, h6, -⟩ := chain_spec ss st.heap a (hg.lt ha)
  have h6 := h6 fun s h => by
    cases s with
    | gens f => exact absurd rfl (hs _ h f)
    | _ => rfl
  have hgen : st2.gens g = some a := by
    rw [execAll_gens e2 hd, ← e]
    simp [h6]
  have hvar : st2.vars x = some a := by
    rw [execAll_vars_eq e2 hx, ← e]
    exact ha
  obtain ⟨o, ho⟩ := (good_execAll hg1 e2).live x a hvar
  simp [Store.gen, Store.var, hgen, hvar, ho]

/-- C129. A generator keeps its settings as long as no setter is called on it, whatever is done to the generator
it was copied from, to copies of it or to other ones. -/
theorem C129_copies (st st' : Store E) (hr : Reached st) (y : Nat) (cs : List (Cmd E))
    (hs : ∀ c ∈ cs, ¬ c.sets y ∧ ¬ c.declares y) (e : execAll st cs = some st') : st'.var y = st.var y := by
  have hg := hr.good
  clear hr
  induction cs generalizing st with
  | nil => injection e with e; rw [e]
  | cons c cs ih =>
    simp only [execAll, Option.bind_eq_some_iff] at e
    obtain ⟨st1, e1, e2⟩ := e
    rw [ih st1 (fun c hc => hs c (by simp [hc])) e2 (good_exec hg e1)]
    have hv := exec_vars_eq e1 (hs c (by simp)).2
    simp only [Store.var, hv]
    cases hq : st.vars y with
    | none => rfl
    | some a =>
      simp only [Option.bind_some]
      rw [(exec_frame hg e1 (hg.lt hq) fun z hz hza => ?_).2]
      exact (hs c (by simp)).1 (hg.inj z y a hza hq ▸ hz)

example (g : Gen (List Int) Nat) : ∃ st1 st2, Reached st1 ∧
    exec st1 (.derive 7 0 [.size 3]) = some st2 ∧
    ∃ st3, execAll st2 [.set 0 [.sizes 5 6]] = some st3 ∧
      st3.gen 7 = some ⟨3, 3, g⟩ ∧ st3.var 0 = some ⟨5, 6, g⟩ :=
  ⟨_, _, ⟨[.new 0 (vecObj g)], rfl⟩, rfl, _, rfl, rfl, rfl⟩

example (g : Gen (List Int) Nat) : ∃ st1 st2, Reached st1 ∧ st1.var 1 = some ⟨3, 3, g⟩ ∧
    execAll st1 [.set 0 [.sizes 5 6]] = some st2 ∧ st2.var 1 = some ⟨3, 3, g⟩ ∧ st2.var 0 = some ⟨5, 6, g⟩ :=
  ⟨_, _, ⟨[.new 0 (vecObj g), .bind 1 0 [.size 3]], rfl⟩, rfl, rfl, rfl, rfl⟩

example (g : Gen (List Int) Nat) : ∃ st1 st2, Reached st1 ∧
    exec st1 (.refer 7 0 [.size 3]) = some st2 ∧ st2.gen 7 = some ⟨3, 3, g⟩ ∧
    ∃ st3, execAll st2 [.set 0 [.sizes 5 6]] = some st3 ∧ st3.gen 7 = some ⟨5, 6, g⟩ :=
  ⟨_, _, ⟨[.new 0 (vecObj g)], rfl⟩, rfl, rfl, _, rfl, rfl⟩

end Settings
end Verif
