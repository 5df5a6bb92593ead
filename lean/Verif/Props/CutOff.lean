import Verif.Lemmas.PropertyKeeps
import Verif.Props.TimeLimit
/-
C192: the number of runs and the time limit only cut a test off.
-/
namespace Verif
namespace Engine
open PairTuple
variable {n : Nat} {A : Fin n → Type} {σ : Type}

/-- The same test with another number of runs and another time limit. -/
def Cfg.bounded (c : Cfg σ A) (runs limit : Nat) : Cfg σ A := { c with numRuns := runs, maxDurationMs := limit }

theorem runStartup_cut (c : Cfg σ A) (m t : Nat) (ph : Phase) : runStartup (c.bounded m t) ph = runStartup c ph := rfl
theorem runCleanup_cut (c : Cfg σ A) (m t : Nat) (ph : Phase) : runCleanup (c.bounded m t) ph = runCleanup c ph := rfl
theorem test_cut (c : Cfg σ A) (m t : Nat) (vals : Tup A) (N : Fin n) (next : Shr (A N)) :
    test (c.bounded m t) vals N next = test c vals N next := rfl
theorem invoke_cut (c : Cfg σ A) (m t : Nat) : invokeWithGenTuple (c.bounded m t) = invokeWithGenTuple c := rfl

mutual
theorem shrinkN_cut (c : Cfg σ A) (m t : Nat) (N : Fin n) : ∀ (u : Shr (A N)) (vals : Tup A) (s : St σ A),
    shrinkN (c.bounded m t) vals N u s = shrinkN c vals N u s
  | .node v ss, vals, s => by
    rw [shrinkN, shrinkN]
    exact shrinkNIter_cut c m t N ss vals _ _
theorem shrinkNIter_cut (c : Cfg σ A) (m t : Nat) (N : Fin n) : ∀ (ss : List (Shr (A N))) (vals : Tup A)
    (outer : List String) (s : St σ A),
    shrinkNIter (c.bounded m t) vals N outer ss s = shrinkNIter c vals N outer ss s
  | [], vals, outer, s => by rw [shrinkNIter, shrinkNIter]
  | next :: rest, vals, outer, s => by
    rw [shrinkNIter, shrinkNIter, test_cut]
    beta_reduce
    generalize test c vals N next s = r
    cases r with
    | mk o s1 =>
      cases o with
      | ok b =>
        simp only
        split_ifs
        · exact shrinkN_cut c m t N next _ _
        · exact shrinkNIter_cut c m t N rest vals outer s1
      | throws e => rfl
      | ub => rfl
      | diverges => rfl
end

theorem shrinkEach_cut (c : Cfg σ A) (m t : Nat) : ∀ (order : List (Fin n)) (vals : Tup A),
    shrinkEach (c.bounded m t) order vals = shrinkEach c order vals
  | [], _ => rfl
  | N :: rest, vals => by
    rw [shrinkEach, shrinkEach]
    congr 1
    · funext s; exact shrinkN_cut c m t N _ vals s
    · funext w; exact shrinkEach_cut c m t rest w

theorem shrink_cut (c : Cfg σ A) (m t : Nat) : shrink (c.bounded m t) = shrink c := by
  funext s
  unfold shrink
  have : shrinkEach (c.bounded m t) (c.bounded m t).orderEach = shrinkEach c c.orderEach := by
    funext vals
    exact shrinkEach_cut c m t _ vals
  rw [this]
  rfl

theorem doWhile_cut (c : Cfg σ A) (m t : Nat) : ∀ fuel, doWhile (c.bounded m t) fuel = doWhile c fuel := by
  have h1 : attempt (c.bounded m t) = attempt c := by
    unfold attempt
    rw [shrink_cut, invoke_cut]
    rfl
  have h2 : guarded (c.bounded m t) = guarded c := by
    unfold guarded
    rw [h1]
  intro fuel
  induction fuel with
  | zero => rfl
  | succ fuel ih => rw [doWhile, doWhile, h2, ih]

/-! ### What has happened stays -/

theorem steps_later (c : Cfg σ A) (tr : Trace A) : c.Steps (fun tr' => tr <:+ tr') where
  startup := fun _ _ _ h => h.trans (List.suffix_cons _ _)
  cleanup := fun _ _ _ h => h.trans (List.suffix_cons _ _)
  call := fun _ _ _ h => h.trans (List.suffix_cons _ _)
  genThrew := fun _ _ _ h => h.trans (List.suffix_cons _ _)

/-- The second limit is not earlier than the first one (0 is no limit). -/
def LaterLimit (t t' : Nat) : Prop := t' = 0 ∨ (t ≠ 0 ∧ t ≤ t')

/-- The loop has come to its end or has run out of time. -/
def Cut (o : Outcome (Report A)) : Prop := o = .ok .passed ∨ ∃ k, o = .ok (.timedOut k)

theorem forLoop_cut (c : Cfg σ A) (m t m' t' fuel : Nat) (ht : LaterLimit t t') : ∀ (left extra : Nat) (s : St σ A),
    forLoop (c.bounded m' t') fuel (left + extra) s = forLoop (c.bounded m t) fuel left s ∨
    (Cut (forLoop (c.bounded m t) fuel left s).1 ∧
      (forLoop (c.bounded m t) fuel left s).2.trace <:+ (forLoop (c.bounded m' t') fuel (left + extra) s).2.trace)
  | 0, extra, s => .inr ⟨.inl rfl, keeps_forLoop (steps_later _ s.trace) fuel _ s (List.suffix_refl _)⟩
  | left + 1, extra, s => by
    by_cases hl : t ≠ 0 ∧ t < c.clock s.trace
    · have e : forLoop (c.bounded m t) fuel (left + 1) s = (.ok (.timedOut s.i), s) := by
        rw [forLoop, Eng.bind_apply]
        simp only [Eng.reads]
        rw [if_pos (show (c.bounded m t).maxDurationMs ≠ 0 ∧ (c.bounded m t).maxDurationMs < (c.bounded m t).clock s.trace from hl)]
        rfl
      rw [e]
      exact .inr ⟨.inr ⟨_, rfl⟩, keeps_forLoop (steps_later _ s.trace) fuel _ s (List.suffix_refl _)⟩
    · have hl' : ¬ (t' ≠ 0 ∧ t' < c.clock s.trace) := by
        rintro ⟨h0, h1⟩
        rcases ht with h | ⟨h, h2⟩
        · exact h0 h
        · exact hl ⟨h, by omega⟩
      have e : ∀ m t k, ¬ (t ≠ 0 ∧ t < c.clock s.trace) → forLoop (c.bounded m t) fuel (k + 1) s =
          match doWhile c fuel s with
          | (.ok (some r), s') => (.ok r, s')
          | (.ok none, s') => forLoop (c.bounded m t) fuel k { s' with i := s'.i + 1 }
          | (.throws e, s') => (.throws e, s')
          | (.ub, s') => (.ub, s')
          | (.diverges, s') => (.diverges, s') := by
        intro m t k h
        rw [forLoop, Eng.bind_apply]
        simp only [Eng.reads]
        rw [if_neg (show ¬ ((c.bounded m t).maxDurationMs ≠ 0 ∧ (c.bounded m t).maxDurationMs < (c.bounded m t).clock s.trace) from h),
          Eng.bind_apply, doWhile_cut]
        rcases doWhile c fuel s with ⟨(_ | r) | e | _ | _, s'⟩ <;> rfl
      rw [show left + 1 + extra = (left + extra) + 1 by omega, e m t left hl, e m' t' (left + extra) hl']
      rcases doWhile c fuel s with ⟨(_ | r) | e | _ | _, s'⟩
      · exact forLoop_cut c m t m' t' fuel ht left extra _
      · exact .inl rfl
      · exact .inl rfl
      · exact .inl rfl
      · exact .inl rfl

/-- C192. The same test with a larger number of runs and a later time limit (or none), from the same seed: either the two
tests are the same, call by call and in the report, or the shorter one has passed or run out of time and the longer one
begins with the same calls. Hooks, generators and functions may do whatever they like. -/
theorem C192_cut_off (c : Cfg σ A) (m t m' t' fuel : Nat) (hm : m ≤ m') (ht : LaterLimit t t') (seed : σ) (tr : Trace A) :
    forAll (c.bounded m' t') fuel seed tr = forAll (c.bounded m t) fuel seed tr ∨
    (Cut (forAll (c.bounded m t) fuel seed tr).1 ∧
      (forAll (c.bounded m t) fuel seed tr).2 <:+ (forAll (c.bounded m' t') fuel seed tr).2) := by
  obtain ⟨extra, rfl⟩ := Nat.le.dest hm
  have key := forLoop_cut c m t (m + extra) t' fuel ht m extra ⟨seed, seed, 0, [], tr⟩
  unfold forAll runForAll Eng.withContext Eng.catchStd Eng.tryCatch
  simp only [shrink_cut]
  rw [show (c.bounded m t).numRuns = m from rfl, show (c.bounded (m + extra) t').numRuns = m + extra from rfl]
  rcases key with h | ⟨h1, h2⟩
  · left
    rw [h]
  · right
    revert h1 h2
    rcases forLoop (c.bounded m t) fuel m ⟨seed, seed, 0, [], tr⟩ with ⟨o, s1⟩
    rcases forLoop (c.bounded (m + extra) t') fuel (m + extra) ⟨seed, seed, 0, [], tr⟩ with ⟨o', s2⟩
    intro h1 h2
    have h1' : Cut o := h1
    have h2' : s1.trace <:+ s2.trace := h2
    obtain ⟨r, rfl⟩ : ∃ r, o = .ok r := by
      rcases h1' with rfl | ⟨k, rfl⟩
      · exact ⟨_, rfl⟩
      · exact ⟨_, rfl⟩
    refine ⟨h1', ?_⟩
    cases o' with
    | throws e =>
      simp only
      split_ifs
      · exact keeps_shrink (steps_later c s1.trace) s2 h2'
      · exact h2'
    | ok r => exact h2'
    | ub => exact h2'
    | diverges => exact h2'

/-- C192. A failure that was reported is reported again, in the same way, with any larger number of runs and any later
time limit. -/
theorem C192_failure_kept (c : Cfg σ A) (m t m' t' fuel : Nat) (hm : m ≤ m') (ht : LaterLimit t t') (seed : σ) (tr tr' : Trace A)
    (k : Nat) (start shrunk : Tup A) (h : forAll (c.bounded m t) fuel seed tr = (.ok (.falsified k start shrunk), tr')) :
    forAll (c.bounded m' t') fuel seed tr = (.ok (.falsified k start shrunk), tr') := by
  rcases C192_cut_off c m t m' t' fuel hm ht seed tr with e | ⟨h1, -⟩
  · rw [e, h]
  · rw [h] at h1
    rcases h1 with h1 | ⟨k, h1⟩ <;> cases h1

/-- C192. If the longer test returns true, so does the shorter one. -/
theorem C192_true_shorter (c : Cfg σ A) (m t m' t' fuel : Nat) (hm : m ≤ m') (ht : LaterLimit t t') (seed : σ) (tr : Trace A)
    (r : Report A) (h : (forAll (c.bounded m' t') fuel seed tr).1 = .ok r) (hr : r.verdict = true) :
    ∃ r', (forAll (c.bounded m t) fuel seed tr).1 = .ok r' ∧ r'.verdict = true := by
  rcases C192_cut_off c m t m' t' fuel hm ht seed tr with e | ⟨h1 | ⟨k, h1⟩, -⟩
  · exact ⟨r, by rw [← e, h], hr⟩
  · exact ⟨_, h1, rfl⟩
  · exact ⟨_, h1, rfl⟩

/-- What is reported: whether something failed, and in which run. -/
def Report.inRun : Report A → Option Nat
  | .falsified k _ _ => some k
  | _ => none

/-- The numbers 0, 1, 2, ... are drawn one after the other and 3 fails: after 4 runs, and after any larger number of runs
this is reported in the fourth run. -/
example (runs : Nat) (h : 4 ≤ runs) :
    ∃ start shrunk, (forAll ((demo chain (fun k => returns (decide (k < 3))) 0).bounded runs 0) 5 0 []).1 =
      .ok (.falsified 4 start shrunk) := by
  have h4 : (match (forAll ((demo chain (fun k => returns (decide (k < 3))) 0).bounded 4 0) 5 0 []).1 with
      | .ok r => r.inRun
      | _ => none) = some 4 := by decide +kernel
  cases ho : forAll ((demo chain (fun k => returns (decide (k < 3))) 0).bounded 4 0) 5 0 [] with
  | mk o tr =>
    rw [ho] at h4
    cases o with
    | ok r =>
      cases r with
      | falsified k start shrunk =>
        have : k = 4 := by simpa [Report.inRun] using h4
        subst this
        exact ⟨start, shrunk, by rw [C192_failure_kept _ 4 0 runs 0 5 h (.inl rfl) 0 [] tr 4 start shrunk ho]⟩
      | _ => cases h4
    | _ => cases h4

/-- One millisecond per call and a limit of 1: the test runs out of time in the third run and has not seen the failure; the
test without a limit begins with the same two calls. -/
example : (forAll ((slow (demo chain (fun k => returns (decide (k < 3))) 0) 0).bounded 4 1) 5 0 []).2.length = 2 ∧
    (forAll ((slow (demo chain (fun k => returns (decide (k < 3))) 0) 0).bounded 4 1) 5 0 []).2 <:+
      (forAll ((slow (demo chain (fun k => returns (decide (k < 3))) 0) 0).bounded 4 0) 5 0 []).2 := by
  have h2 : (forAll ((slow (demo chain (fun k => returns (decide (k < 3))) 0) 0).bounded 4 1) 5 0 []).2.length = 2 := by
    decide +kernel
  refine ⟨h2, ?_⟩
  rcases C192_cut_off (slow (demo chain (fun k => returns (decide (k < 3))) 0) 0) 4 1 4 0 5 (le_refl _) (.inl rfl) 0 [] with
    e | ⟨-, e⟩
  · rw [e]; exact List.suffix_refl _
  · exact e

end Engine
end Verif
