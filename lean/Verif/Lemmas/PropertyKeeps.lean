import Verif.Lemmas.Hooks
import Mathlib.Tactic.SplitIfs
/-
What the whole engine keeps, if each event keeps it.
-/
namespace Verif
namespace Engine
open PairTuple
variable {n : Nat} {A : Fin n → Type} {σ : Type}

/-- Every event that may happen keeps `P`. -/
structure Cfg.Steps (c : Cfg σ A) (P : Trace A → Prop) : Prop where
  startup : ∀ ph ev tr, P tr → P (.startup ph ev :: tr)
  cleanup : ∀ ph ev tr, P tr → P (.cleanup ph ev :: tr)
  call : ∀ ph a tr, P tr → P (.call ph a (c.func tr a) :: tr)
  genThrew : ∀ ph e tr, P tr → P (.genThrew ph e :: tr)

section
variable {α β : Type} {c : Cfg σ A} {P : Trace A → Prop}

theorem Keeps.same {m : Eng σ A α} (h : ∀ s, (m s).2.trace = s.trace) : Keeps P m := fun s hs => by rw [h]; exact hs

theorem Keeps.tryCatch {m : Eng σ A α} {f : Exn → Eng σ A α} (hm : Keeps P m) (hf : ∀ a, Keeps P (f a)) :
    Keeps P (Eng.tryCatch m f) := by
  intro s hs
  have := hm s hs
  unfold Eng.tryCatch
  cases h : m s with
  | mk o s1 =>
    rw [h] at this
    cases o with
    | ok a => exact this
    | throws e => exact hf e s1 this
    | ub => exact this
    | diverges => exact this

variable (hP : c.Steps P)
include hP

theorem keeps_startup (ph : Phase) : Keeps P (runStartup c ph) := by
  intro s hs
  unfold runStartup
  split
  · exact hs
  · exact hP.startup _ _ _ hs

theorem keeps_cleanup (ph : Phase) : Keeps P (runCleanup c ph) := by
  intro s hs
  unfold runCleanup
  split
  · exact hs
  · exact hP.cleanup _ _ _ hs

theorem keeps_call (ph : Phase) (args : Args A) : Keeps P (callFunc c ph args) := by
  intro s hs
  exact hP.call _ _ _ hs

theorem keeps_drawRun : Keeps P (drawRun c) := by
  intro s hs
  unfold drawRun
  split
  · exact hs
  · exact hP.genThrew _ _ _ hs
  · exact hs
  · exact hs

theorem keeps_drawSaved : Keeps P (drawSaved c) := by
  intro s hs
  unfold drawSaved
  split
  · exact hs
  · exact hP.genThrew _ _ _ hs
  · exact hs
  · exact hs

theorem keeps_test (vals : Tup A) (N : Fin n) (next : Shr (A N)) : Keeps P (test c vals N next) :=
  Keeps.catchStd (Keeps.bind (keeps_startup hP _) fun _ => Keeps.bind (keeps_call hP _ _) fun _ =>
    Keeps.bind (keeps_cleanup hP _) fun _ => Keeps.same fun _ => rfl) (Keeps.same fun _ => rfl)

mutual
theorem keeps_shrinkN (N : Fin n) : ∀ (t : Shr (A N)) (vals : Tup A) (s : St σ A), P s.trace →
    P (shrinkN c vals N t s).2.trace
  | .node v ss, vals, s, hs => by
    rw [shrinkN]
    exact keeps_shrinkNIter N ss vals _ _ hs
theorem keeps_shrinkNIter (N : Fin n) : ∀ (ss : List (Shr (A N))) (vals : Tup A) (outer : List String) (s : St σ A),
    P s.trace → P (shrinkNIter c vals N outer ss s).2.trace
  | [], vals, outer, s, hs => by rw [shrinkNIter]; exact hs
  | next :: rest, vals, outer, s, hs => by
    have := keeps_test hP vals N next s hs
    rw [shrinkNIter]
    beta_reduce
    cases h : test c vals N next s with
    | mk o s1 =>
      rw [h] at this
      cases o with
      | ok r =>
        simp only
        split_ifs
        · exact keeps_shrinkN N next _ _ this
        · exact keeps_shrinkNIter N rest vals outer s1 this
      | throws e => exact this
      | ub => exact this
      | diverges => exact this
end

theorem keeps_shrinkEach : ∀ (order : List (Fin n)) (vals : Tup A), Keeps P (shrinkEach c order vals)
  | [], _ => Keeps.same fun _ => rfl
  | N :: rest, vals => Keeps.bind (fun s hs => keeps_shrinkN hP N _ vals s hs) fun _ => keeps_shrinkEach rest _

theorem keeps_shrink : Keeps P (shrink c) :=
  Keeps.bind (Keeps.same fun _ => rfl) fun _ => Keeps.bind (keeps_drawSaved hP) fun _ => Keeps.bind (keeps_shrinkEach hP _ _) fun _ =>
    Keeps.same fun _ => rfl

theorem keeps_attempt : Keeps P (attempt c) := by
  refine Keeps.bind (Keeps.same fun _ => rfl) fun _ => Keeps.bind (keeps_startup hP _) fun _ => Keeps.bind ?_ fun _ =>
    Keeps.bind (keeps_cleanup hP _) fun _ => Keeps.bind (Keeps.same fun _ => rfl) fun _ => ?_
  · exact Keeps.bind (keeps_drawRun hP) fun _ => Keeps.tryCatch (keeps_call hP _ _) fun e => by
      split <;> exact Keeps.same fun _ => rfl
  · split
    · exact Keeps.bind (keeps_shrink hP) fun _ => Keeps.same fun _ => rfl
    · split
      · exact Keeps.bind (keeps_shrink hP) fun _ => Keeps.same fun _ => rfl
      · exact Keeps.same fun _ => rfl

theorem keeps_guarded : Keeps P (guarded c) :=
  Keeps.tryCatch (keeps_attempt hP) fun e => by
    split
    · exact Keeps.same fun _ => rfl
    · split <;> exact Keeps.same fun _ => rfl

theorem keeps_doWhile : ∀ fuel, Keeps P (doWhile c fuel)
  | 0 => Keeps.same fun _ => rfl
  | fuel + 1 => by
    refine Keeps.bind (keeps_guarded hP) fun v => ?_
    cases v with
    | pass => exact Keeps.same fun _ => rfl
    | again => exact keeps_doWhile fuel
    | stop r => exact Keeps.same fun _ => rfl

theorem keeps_forLoop (fuel : Nat) : ∀ left, Keeps P (forLoop c fuel left)
  | 0 => Keeps.same fun _ => rfl
  | left + 1 => by
    rw [forLoop]
    refine Keeps.bind (Keeps.same fun _ => rfl) fun el => ?_
    split
    · exact Keeps.same fun _ => rfl
    · refine Keeps.bind (keeps_doWhile hP fuel) fun v => ?_
      cases v with
      | some r => exact Keeps.same fun _ => rfl
      | none => exact Keeps.bind (Keeps.same fun _ => rfl) fun _ => keeps_forLoop fuel left

theorem keeps_forAll (fuel : Nat) (seed : σ) (tr : Trace A) (h : P tr) : P (forAll c fuel seed tr).2 := by
  have : Keeps P (Eng.catchStd (forLoop c fuel c.numRuns) (shrink c)) := Keeps.catchStd (keeps_forLoop hP fuel _) (keeps_shrink hP)
  exact this ⟨seed, seed, 0, [], tr⟩ h

end

end Engine
end Verif
