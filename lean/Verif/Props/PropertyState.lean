import Verif.Lemmas.PropertyState
import Verif.Props.Property
/-
C135: the reported arguments failed, also for generators with a state of their own.
-/
namespace Verif
namespace Engine
open PairTuple
variable {n : Nat} {A : Fin n → Type} {ρ ω : Type}

/-- **C135** If the state of the generators influences neither the values nor the random engine then `forAll` behaves as if
it did not exist: the same report after the same calls. So what is proved of `forAll` holds for such generators, too.

Partial: false for other generators, see `C135_counter_violated`. -/
theorem C135_unused_state_partial (c : Cfg (ρ × ω) A) (c' : Cfg ρ A) (h : SameBut c c') (fuel : Nat) (seed : ρ) (own : ω)
    (tr : Trace A) : forAllOwn c fuel seed own tr = forAll c' fuel seed tr :=
  forAllOwn_forget h fuel seed own tr

/-- **C135** For such generators shrinking starts from the arguments of the failing run, the last call made before. -/
theorem C135_starts_from_failing_partial (c : Cfg (ρ × ω) A) (c' : Cfg ρ A) (h : SameBut c c') (hc : Setting c') (fuel : Nat)
    (seed : ρ) (own : ω) (a : Nat) (start shrunk : Tup A) (tr : Trace A)
    (hf : forAllOwn c fuel seed own [] = (.ok (.falsified a start shrunk), tr)) :
    ∃ x, (calls .run tr).getLast? = some x ∧ ∀ i, x.1 i = (start i).value :=
  C47_shrinking_starts_from_the_failing_arguments hc fuel seed a start shrunk tr
    (by rw [← C135_unused_state_partial c c' h fuel seed own []]; exact hf)

/-- A generator that counts its calls without using the number. -/
private def counts : Cfg (Nat × Nat) (fun _ : Fin 1 => Nat) where
  gens := fun _ s => .ok (.node s.1 [.node 0 []], (s.1 + 1, s.2 + 1))
  orderRun := [0]
  orderShrink := [0]
  orderEach := [0]
  thrown := id
  func := fun _ a => returns (decide (a 0 < 2))
  startup := none
  cleanup := none
  numRuns := 9
  maxDurationMs := 0
  clock := fun _ => 0

example : SameBut counts (demo (fun s => .node s [.node 0 []]) (fun a => returns (decide (a < 2))) 9) where
  gens := fun _ _ _ => rfl
  orderRun := rfl
  orderShrink := rfl
  orderEach := rfl
  thrown := fun _ _ => rfl
  func := rfl
  startup := rfl
  cleanup := rfl
  numRuns := rfl
  maxDurationMs := rfl
  clock := rfl

example : shown (forAllOwn counts 5 0 7 []) = (.ok false, some (3, 2, 2), [0, 1, 2], [0]) := by decide +kernel

/-- The property "x is not `k`" of a generator that yields 0, 1, 2, ... in turn and does not use the random engine, like
`generator([&](Random&) { return make_shrinkable<int>(counter++); })` or `lazy<int>([&] { return counter++; })`. -/
def counter (ρ : Type) (k runs : Nat) : Cfg (ρ × Nat) (fun _ : Fin 1 => Nat) where
  gens := fun _ s => .ok (.node s.2 [], (s.1, s.2 + 1))
  orderRun := [0]
  orderShrink := [0]
  orderEach := [0]
  thrown := id
  func := fun _ a => returns (decide (a 0 ≠ k))
  startup := none
  cleanup := none
  numRuns := runs
  maxDurationMs := 0
  clock := fun _ => 0

private theorem counter_draw (k runs : Nat) (s : ρ × Nat) :
    Gen.drawTuple (counter ρ k runs).gens [0] s = .ok ((fun _ => .node s.2 []), (s.1, s.2 + 1)) := by
  unfold Gen.drawTuple
  simp only [counter, Gen.drawInto, Outcome.ok_bind]
  rw [dif_pos (by intro i; obtain rfl : i = 0 := Subsingleton.elim _ _; rfl)]
  congr 2
  funext i
  obtain rfl : i = 0 := Subsingleton.elim _ _
  rfl

private theorem counter_again (k runs : Nat) (s : St (ρ × Nat) (fun _ : Fin 1 => Nat)) :
    (shrinkWith (drawAgain (counter ρ k runs)) (counter ρ k runs) s).1 =
      .ok (.falsified (s.i + 1) (fun _ => .node s.rand.2 []) (fun _ => .node s.rand.2 [])) := by
  have h1 : drawAgain (counter ρ k runs) s = (.ok (fun _ => .node s.rand.2 []),
      { s with saved := (s.saved.1, s.saved.2), rand := (s.rand.1, s.rand.2 + 1) }) := by
    unfold drawAgain
    rw [show (counter ρ k runs).orderShrink = [0] from rfl, counter_draw]
  unfold shrinkWith
  rw [Eng.bind_ok (show Eng.reads (fun s => s.i) s = (.ok s.i, s) from rfl), Eng.bind_ok h1]
  rfl

private theorem counter_invoke (k runs : Nat) (s : St (ρ × Nat) (fun _ : Fin 1 => Nat)) :
    invokeWithGenTuple (counter ρ k runs) s = (.ok (decide (s.rand.2 ≠ k)),
      ⟨(s.rand.1, s.rand.2 + 1), s.saved, s.i, s.fails,
        .call .run (fun _ => s.rand.2) (returns (decide (s.rand.2 ≠ k))) :: s.trace⟩) := by
  have h1 : drawRun (counter ρ k runs) s = (.ok (fun _ => .node s.rand.2 []), { s with rand := (s.rand.1, s.rand.2 + 1) }) := by
    unfold drawRun
    rw [show (counter ρ k runs).orderRun = [0] from rfl, counter_draw]
  unfold invokeWithGenTuple
  rw [Eng.bind_ok h1]
  unfold assertToProperty Eng.tryCatch callFunc record
  simp only [returns, counter, List.append_nil]
  rfl

private theorem counter_attempt (k runs : Nat) (s : St (ρ × Nat) (fun _ : Fin 1 => Nat)) (hf : s.fails = []) :
    let s1 : St (ρ × Nat) (fun _ : Fin 1 => Nat) := ⟨(s.rand.1, s.rand.2 + 1), s.rand, s.i, [],
        .call .run (fun _ => s.rand.2) (returns (decide (s.rand.2 ≠ k))) :: s.trace⟩
    (s.rand.2 ≠ k → attemptWith (drawAgain (counter ρ k runs)) (counter ρ k runs) s = (.ok .pass, s1)) ∧
    (s.rand.2 = k → (attemptWith (drawAgain (counter ρ k runs)) (counter ρ k runs) s).1 =
      .ok (.stop (.falsified (s.i + 1) (fun _ => .node (k + 1) []) (fun _ => .node (k + 1) [])))) := by
  intro s1
  have h0 := counter_invoke k runs { s with saved := s.rand }
  have hh : attemptWith (drawAgain (counter ρ k runs)) (counter ρ k runs) s =
      (if !decide (s.rand.2 ≠ k) then do
          let r ← shrinkWith (drawAgain (counter ρ k runs)) (counter ρ k runs)
          pure (.stop r)
        else pure .pass : Eng (ρ × Nat) (fun _ : Fin 1 => Nat) (Step (fun _ : Fin 1 => Nat))) s1 := by
    unfold attemptWith
    rw [Eng.bind_ok (show Eng.modify (fun s => { s with saved := s.rand }) s = (.ok (), { s with saved := s.rand }) from rfl),
      Eng.bind_ok (show runStartup (counter ρ k runs) .run { s with saved := s.rand } = (.ok (), _) from rfl),
      Eng.bind_ok h0, Eng.bind_ok (show runCleanup (counter ρ k runs) .run _ = (.ok (), _) from rfl),
      Eng.bind_ok (show flushFailures _ = (.ok _, _) from rfl)]
    simp only [hf]
    rfl
  constructor
  · intro hk
    rw [hh, decide_eq_true hk]
    rfl
  · intro hk
    rw [hh, decide_eq_false (by simpa using hk)]
    have h2 := counter_again (ρ := ρ) k runs s1
    rw [if_pos (show (!false) = true from rfl), Eng.bind_apply]
    cases h3 : shrinkWith (drawAgain (counter ρ k runs)) (counter ρ k runs) s1 with
    | mk o s2 =>
      rw [h3] at h2
      simp only at h2
      rw [h2]
      show Outcome.ok _ = _
      simp [s1, hk]

private theorem counter_loop (k runs fuel extra : Nat) : ∀ (d : Nat) (s : St (ρ × Nat) (fun _ : Fin 1 => Nat)),
    s.fails = [] → s.rand.2 + d = k →
    (forLoopWith (drawAgain (counter ρ k runs)) (counter ρ k runs) (fuel + 1) (d + 1 + extra) s).1 =
      .ok (.falsified (s.i + d + 1) (fun _ => .node (k + 1) []) (fun _ => .node (k + 1) [])) := by
  intro d
  induction d with
  | zero =>
    intro s hf hk
    obtain ⟨-, h2⟩ := counter_attempt k runs s hf
    have h3 := h2 (by omega)
    rw [show 0 + 1 + extra = extra + 1 by omega, forLoopWith, Eng.bind_ok (show Eng.reads _ s = (.ok _, s) from rfl),
      if_neg (by simp [counter])]
    show (Eng.bind (doWhileWith _ _ (fuel + 1)) _ s).1 = _
    have h4 : (doWhileWith (drawAgain (counter ρ k runs)) (counter ρ k runs) (fuel + 1) s).1 =
        .ok (some (.falsified (s.i + 1) (fun _ => .node (k + 1) []) (fun _ => .node (k + 1) []))) := by
      rw [doWhileWith]
      show (Eng.bind (guardedWith _ _) _ s).1 = _
      unfold Eng.bind guardedWith Eng.tryCatch
      cases h5 : attemptWith (drawAgain (counter ρ k runs)) (counter ρ k runs) s with
      | mk o s1 =>
        rw [h5] at h3
        simp only at h3
        rw [h3]
        rfl
    unfold Eng.bind
    cases h5 : doWhileWith (drawAgain (counter ρ k runs)) (counter ρ k runs) (fuel + 1) s with
    | mk o s1 =>
      rw [h5] at h4
      simp only at h4
      rw [h4]
      rfl
  | succ d ih =>
    intro s hf hk
    obtain ⟨h2, -⟩ := counter_attempt k runs s hf
    have h3 := h2 (by omega)
    have h4 : doWhileWith (drawAgain (counter ρ k runs)) (counter ρ k runs) (fuel + 1) s =
        (.ok none, ⟨(s.rand.1, s.rand.2 + 1), s.rand, s.i, [],
        .call .run (fun _ => s.rand.2) (returns (decide (s.rand.2 ≠ k))) :: s.trace⟩) := by
      rw [doWhileWith]
      show Eng.bind (guardedWith _ _) _ s = _
      unfold Eng.bind guardedWith Eng.tryCatch
      rw [h3]
      rfl
    rw [show d + 1 + 1 + extra = (d + 1 + extra) + 1 by omega, forLoopWith,
      Eng.bind_ok (show Eng.reads _ s = (.ok _, s) from rfl), if_neg (by simp [counter]), Eng.bind_ok h4]
    dsimp only
    rw [Eng.bind_ok (show Eng.modify _ _ = (.ok (), _) from rfl), ih _ rfl (by dsimp only; omega)]
    dsimp only
    rw [show s.i + 1 + d + 1 = s.i + (d + 1) + 1 by omega]

/-- **C135** is false of the code: when the property "x is not `k`" is tested with a generator that counts 0, 1, 2, ..., the
run with `k` fails, but after restoring the random engine the values are generated again: the arguments reported,
and those reported as the simplest, are `k + 1`, for which the property holds. For every `k` and every engine. -/
theorem C135_counter_violated (k runs fuel : Nat) (hr : k < runs) (seed : ρ) :
    ∃ start shrunk tr, forAllOwn (counter ρ k runs) (fuel + 1) seed 0 [] = (.ok (.falsified (k + 1) start shrunk), tr) ∧
      (start 0).value = k + 1 ∧ (shrunk 0).value = k + 1 ∧
      (counter ρ k runs).func tr (Tup.get start) = ⟨[], .ok true⟩ ∧
      (counter ρ k runs).func tr (Tup.get shrunk) = ⟨[], .ok true⟩ := by
  obtain ⟨extra, rfl⟩ := Nat.exists_eq_add_of_lt hr
  have h := counter_loop (ρ := ρ) k (k + extra + 1) fuel extra k ⟨(seed, 0), (seed, 0), 0, [], []⟩ rfl (by simp)
  have h1 : (forAllOwn (counter ρ k (k + extra + 1)) (fuel + 1) seed 0 []).1 =
      .ok (.falsified (k + 1) (fun _ => .node (k + 1) []) (fun _ => .node (k + 1) [])) := by
    show (runForAllWith _ _ (fuel + 1) ⟨(seed, 0), (seed, 0), 0, [], []⟩).1 = _
    unfold runForAllWith Eng.withContext Eng.catchStd Eng.tryCatch
    rw [show (counter ρ k (k + extra + 1)).numRuns = k + 1 + extra by simp [counter]; omega]
    dsimp only
    generalize hL : forLoopWith (drawAgain (counter ρ k (k + extra + 1))) (counter ρ k (k + extra + 1)) (fuel + 1) (k + 1 + extra)
      ⟨(seed, 0), (seed, 0), 0, [], []⟩ = L at h
    obtain ⟨o, s1⟩ := L
    simp only [Nat.zero_add] at h
    rw [h]
  refine ⟨_, _, _, Prod.ext h1 rfl, rfl, rfl, ?_, ?_⟩
  · simp [counter, returns, Tup.get]
  · simp [counter, returns, Tup.get]

/-- "x is not 3" in ten runs: calls with 0, 1, 2 and 3, then 4 is reported. -/
example : shown (forAllOwn (counter Nat 3 10) 5 0 0 []) = (.ok false, some (4, 4, 4), [0, 1, 2, 3], []) := by
  decide +kernel

end Engine
end Verif
