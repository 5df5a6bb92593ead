import Verif.Props.Stateful
/-
C94: the settings of a stateful property, for all sequences of calls of setters.
-/
namespace Verif
namespace Stateful
open Engine Random
variable {σ O M : Type}

/-- The call of a setter of a stateful property, except `setOnCleanup` (for which see C69). -/
inductive Said (O M : Type) where
  | seed (n : Nat)
  | runs (n : Nat)
  | limit (n : Nat)
  | startup (h : Trace (Two O (List (Act O M))) → Ev Unit)
  | check (h : O → M → Ev (O × M))

/-- The arguments of the setters. -/
def Said.seed? : Said O M → Option Nat | .seed n => some n | _ => none
@[inherit_doc Said.seed?] def Said.runs? : Said O M → Option Nat | .runs n => some n | _ => none
@[inherit_doc Said.seed?] def Said.limit? : Said O M → Option Nat | .limit n => some n | _ => none
@[inherit_doc Said.seed?] def Said.startup? : Said O M → Option (Trace (Two O (List (Act O M))) → Ev Unit)
  | .startup h => some h | _ => none
@[inherit_doc Said.seed?] def Said.check? : Said O M → Option (O → M → Ev (O × M)) | .check h => some h | _ => none

/-- The argument of the last call of a setter. -/
def lastSaid {α : Type} (pick : Said O M → Option α) (ss : List (Said O M)) : Option α := (ss.filterMap pick).getLast?

/-- The calls one after the other, as in `prop.setSeed(1).setNumRuns(10)`. -/
def sayAll (p : Prop' σ O M) : List (Said O M) → Prop' σ O M
  | [] => p
  | .seed n :: ss => sayAll (p.setSeed n) ss
  | .runs n :: ss => sayAll (p.setNumRuns n) ss
  | .limit n :: ss => sayAll (p.setMaxDurationMs n) ss
  | .startup h :: ss => sayAll (p.setOnStartup h) ss
  | .check h :: ss => sayAll (p.setPostCheck h) ss

theorem lastSaid_cons {α : Type} (pick : Said O M → Option α) (s : Said O M) (ss : List (Said O M)) :
    lastSaid pick (s :: ss) = (lastSaid pick ss).or (pick s) := by
  simp only [lastSaid, List.filterMap_cons]
  cases h : pick s with
  | none => simp
  | some a =>
    cases h' : ss.filterMap pick with
    | nil => simp
    | cons b bs => simp [List.getLast?_cons_cons, List.getLast?_eq_getLast]

theorem sayAll_eq (p : Prop' σ O M) (ss : List (Said O M)) : sayAll p ss =
    { p with
      seed := (lastSaid Said.seed? ss).getD p.seed
      numRuns := (lastSaid Said.runs? ss).getD p.numRuns
      maxDurationMs := (lastSaid Said.limit? ss).getD p.maxDurationMs
      onStartup := (lastSaid Said.startup? ss).or p.onStartup
      postCheck := (lastSaid Said.check? ss).or p.postCheck } := by
  induction ss generalizing p with
  | nil => simp [sayAll, lastSaid]
  | cons s ss ih =>
    have or_getD : ∀ {α : Type} (o : Option α) (a d : α), (o.or (some a)).getD d = o.getD a := by
      intro α o a d
      cases o <;> rfl
    have or_or : ∀ {α : Type} (o : Option α) (a : α) (d : Option α), (o.or (some a)).or d = o.or (some a) := by
      intro α o a d
      cases o <;> rfl
    cases s <;> simp [sayAll, ih, lastSaid_cons, Said.seed?, Said.runs?, Said.limit?, Said.startup?, Said.check?,
      Prop'.setSeed, Prop'.setNumRuns, Prop'.setMaxDurationMs, Prop'.setOnStartup, Prop'.setPostCheck, or_getD, or_or]

/-- The part of C94 that holds, for all setters: whatever setters are called, in any order and any number of times, `go` is
the test of the function that makes the model, does the actions and the post check given last, with the seed, the number
of runs, the time limit and the startup hook given last, and the defaults for what is not given.

Partial: missing are the largest values, see `C94_largest_values_ignored_violated`, and `setOnCleanup`, see C69. -/
theorem C94_all_settings_partial (env : Env σ O (List (Act O M))) (initialGen : Gen σ O) (factory : O → Ev (O × M))
    (actionGen : Gen σ (Act O M)) (ss : List (Said O M)) (hs : ∀ n, Said.seed n ∈ ss → n < 2^64 - 1)
    (hr : ∀ n, Said.runs n ∈ ss → n < 2^32 - 1) (hl : ∀ n, Said.limit n ∈ ss → n < 2^32 - 1) (fuel : Nat)
    (tr : Trace (Two O (List (Act O M)))) :
    ((sayAll (Prop'.new initialGen factory actionGen) ss).go env fuel tr).1 =
      forAll {
        gens := twoGens initialGen (ListLike.arbiVector env.R actionGen 0 200)
        orderRun := env.orderRun
        orderShrink := env.orderShrink
        orderEach := env.orderEach
        thrown := env.thrown
        func := fun _ args => func factory (lastSaid Said.check? ss) (args 0) (args 1)
        startup := lastSaid Said.startup? ss
        cleanup := none
        numRuns := (lastSaid Said.runs? ss).getD env.defaultNumRuns
        maxDurationMs := (lastSaid Said.limit? ss).getD env.defaultMaxDurationMs
        clock := env.clock } fuel (env.seeded ((lastSaid Said.seed? ss).getD env.globalSeed)) tr := by
  have pick : ∀ (f : Said O M → Option Nat) (m d : Nat), (∀ s ∈ ss, ∀ n, f s = some n → n < m) →
      (if (lastSaid f ss).getD m ≠ m then (lastSaid f ss).getD m else d) = (lastSaid f ss).getD d := by
    intro f m d hf
    cases h : lastSaid f ss with
    | none => simp
    | some n =>
      obtain ⟨s, hs, e⟩ := List.mem_filterMap.1 (List.mem_of_getLast? h)
      have := hf s hs n e
      simp only [Option.getD_some]
      rw [if_pos (by omega)]
  have h1 := pick Said.seed? uint64Max env.globalSeed fun s hm n e => by
    cases s <;> simp [Said.seed?] at e
    exact hs _ (e ▸ hm)
  have h2 := pick Said.runs? uint32Max env.defaultNumRuns fun s hm n e => by
    cases s <;> simp [Said.runs?] at e
    exact hr _ (e ▸ hm)
  have h3 := pick Said.limit? uint32Max env.defaultMaxDurationMs fun s hm n e => by
    cases s <;> simp [Said.limit?] at e
    exact hl _ (e ▸ hm)
  rw [← h1, ← h2, ← h3, sayAll_eq]
  simp only [Prop'.new, Option.or_none]
  rfl

/-- The calls of setters for the example: 7 runs, then 3; a post check that wants a number below 11. -/
def toldTwice : List (Said Nat Unit) :=
  [.runs 7, .check fun o m => if o < 11 then ⟨[], .ok (o, m)⟩ else ⟨[], .throws .assertFailed⟩, .runs 3, .seed 5, .limit 0]

/-- Three runs are made, not seven; with lists of two actions the check finds 11. -/
example : (∀ n, Said.seed n ∈ toldTwice → n < 2^64 - 1) ∧ (∀ n, Said.runs n ∈ toldTwice → n < 2^32 - 1) ∧
    (∀ n, Said.limit n ∈ toldTwice → n < 2^32 - 1) ∧
    seen ((sayAll (Prop'.new (fun s => .ok (Shr.leaf 0, s)) (fun o => ⟨[], .ok (o, ())⟩)
      (fun s => .ok (Shr.leaf (digit 1), s))) toldTwice).go (sampleEnv 1) 5 []).1 = (.ok true, none, [1, 1, 1], []) ∧
    (seen ((sayAll (Prop'.new (fun s => .ok (Shr.leaf 0, s)) (fun o => ⟨[], .ok (o, ())⟩)
      (fun s => .ok (Shr.leaf (digit 1), s))) toldTwice).go (sampleEnv 2) 5 []).1).1 = .ok false := by
  refine ⟨by simp [toldTwice], by simp [toldTwice], by simp [toldTwice], by decide +kernel, by decide +kernel⟩

end Stateful
end Verif
