import Verif.Props.ChanceSettle
import Verif.Props.ChanceSetAny
/-
C189: how likely a test finds a set of elements of different probabilities.
-/
namespace Verif
namespace Engine
open Shr Random ListLike Containers Comb PairTuple Integral IntType Filter Topology
variable {α : Type}

/-- C189. A test of `N` runs with a set as its argument that fails for exactly one set `S`: it is found with the
probability that one of `N` sets is `S`, where the elements may have different probabilities (see `C145_any_set`) and
their generator may have loops. -/
theorem C189_any_set_found [LinearOrder α] (g : Nat → Src (Shr α)) (hg : ChanceLimit g (fun _ => true) 1)
    (minSize maxSize : Nat) (hmax : maxSize < 2 ^ 32) (S : List α) (hS : S.Pairwise (· < ·)) (h1 : minSize ≤ S.length)
    (h2 : S.length ≤ maxSize) (P : α → ℚ) (U : List α) (hU : U.Nodup) (hn : maxSize ≤ U.length)
    (hp : ∀ v ∈ U, 0 < P v ∧ ChanceLimit g (fun t => decide (t.value = v)) (P v)) (hSU : ∀ v ∈ S, v ∈ U)
    (c : Nat → AnyTest (fun _ : Fin 1 => List α)) (f : List α → Ev Bool) (N : Nat)
    (hc : ∀ m, Searching (c m) (fun a => f (a 0)) N)
    (hgens : ∀ m σ R, (c m σ R).orderRun = [0] ∧ (c m σ R).gens = fun _ s => arbiSet R (g m σ R) minSize maxSize m s)
    (hf : ∀ xs, (f xs).Fails ↔ xs = S) (hnd : ∀ xs, (f xs).discarded = false) :
    ChanceLimit (fun m => forAllCall (c m) m) (fun r => r.isSome)
      (1 - (1 - successive P S.length S.toFinset 0 / (maxSize - minSize + 1)) ^ N) := by
  have args : ∀ (E : List α → Bool) (p : ℚ),
      ChanceLimit (fun m σ R s => arbiSet R (g m σ R) minSize maxSize m s) (fun t => E t.value) p →
      ChanceLimit (fun m => argsDraw (c m)) (fun a => decide (∀ i : Fin 1, E (a i) = true)) p := by
    intro E p h
    have := C189_arguments c [0] (by decide) (by decide) (fun m _ σ R s => arbiSet R (g m σ R) minSize maxSize m s) hgens
      (fun _ => E) (fun _ => p) (fun _ => h)
    simpa using this
  have hpos : ∀ u ∈ U, ∃ p, 0 < p ∧ ChanceLimit g (fun t => decide (t.value = u)) p := fun u hu => ⟨_, hp u hu⟩
  have hret := args (fun _ => true) 1 (C145_nested_returns g minSize maxSize (h1.trans h2) hmax hg U hU hn hpos)
  have hhit := args (fun xs => decide (xs = S)) _ (C145_any_set g minSize maxSize hmax S hS h1 h2 P hg
    fun v hv => hp v (hSU v hv))
  have hdis := args (fun _ => false) 0 (by
    have h0 := C145_nested_sizes g minSize maxSize S.length hmax h1 h2 hg U hU (h2.trans hn) hpos
    intro ε hε
    obtain ⟨M, hM⟩ := h0 ε hε
    refine ⟨M, fun m hm => ?_⟩
    obtain ⟨q, ⟨e, he, -⟩, -⟩ := hM m hm
    refine ⟨0, ⟨e, he, ?_⟩, by simpa using hε⟩
    rw [← Exp.mean_const 0 he.1]
    congr 1
    funext o
    cases o <;> simp [hit])
  have := C189_found hc (fails := fun a => decide (∀ i : Fin 1, decide (a i = S) = true)) (fun a => by simp [hf])
    (p := successive P S.length S.toFinset 0 / (maxSize - minSize + 1)) (d := 0) (by simpa using hret) hhit
    (by simpa [hnd] using hdis) (by norm_num)
  simpa using this

/-- A test of a set of at most three of the numbers of `sixNumbers`, for the example. -/
def sixTest (N : Nat) (f : List Nat → Ev Bool) (m : Nat) : AnyTest (fun _ : Fin 1 => List Nat) := fun σ R =>
  { gens := fun _ s => arbiSet R (sixNumbers m σ R) 0 3 m s
    orderRun := [0]
    orderShrink := [0]
    orderEach := [0]
    thrown := id
    func := fun _ a => f (a 0)
    startup := none
    cleanup := none
    numRuns := N
    maxDurationMs := 0
    clock := fun _ => 0 }

theorem sixNumbers_settles (m : Nat) : Settles (sixNumbers m) := by
  refine C189_settles_nested _ [0, 0] rfl (List.replicate 2 ((Dbl.fin 0).oneMinus.divNat 2)) (by decide +kernel) (by simp)
    (by simp) ?_ m
  intro a ha k
  simp only [List.mem_cons, List.not_mem_nil, or_false] at ha
  rcases ha with rfl | rfl
  · show Settles (elementOfCall _ k)
    rw [elementOfCall_eq]
    exact C189_settles_oneOf _ [0, 0] rfl (List.replicate 2 ((Dbl.fin 0).oneMinus.divNat 2)) (by decide +kernel) (by simp) (by simp) (by
      intro a ha
      obtain ⟨v, -, rfl⟩ := List.mem_map.1 ha
      exact fun _ _ s => .inl ⟨_, rfl⟩) k
  · show Settles (elementOfCall _ k)
    rw [elementOfCall_eq]
    exact C189_settles_oneOf _ [0, 0, 0, 0] rfl (List.replicate 4 ((Dbl.fin 0).oneMinus.divNat 4)) (by decide +kernel) (by simp) (by simp) (by
      intro a ha
      obtain ⟨v, -, rfl⟩ := List.mem_map.1 ha
      exact fun _ _ s => .inl ⟨_, rfl⟩) k

/-- A function that fails for {1, 3}, where 1 is twice as likely as 3, is found out in 10 runs with this probability. -/
example : ChanceLimit (fun m => forAllCall (sixTest 10 (fun xs => returns (decide (xs ≠ [1, 3]))) m) m) (fun r => r.isSome)
    (1 - (1 - (1 / 4 * (1 / 8 / (3 / 4)) + 1 / 8 * (1 / 4 / (7 / 8))) / 4) ^ 10) := by
  have hd : ∀ m σ R s, _ := fun m => C189_settles (sixTest 10 (fun xs => returns (decide (xs ≠ [1, 3]))) m)
    (fun _ => fun σ R s => arbiSet R (sixNumbers m σ R) 0 3 m s) [0] (by decide) (fun _ _ => ⟨rfl, rfl⟩)
    fun _ => C189_settles_set (sixNumbers_settles m) 0 3 (by norm_num) (by norm_num) m
  have := C189_any_set_found sixNumbers (by simpa using sixNumbers_chance fun _ => true) 0 3 (by norm_num) [1, 3]
    (by simp) (by simp) (by simp) (fun v => if v = 1 then 1 / 4 else 1 / 8) [1, 3, 5] (by simp) (by simp) (by
      intro v hv
      simp only [List.mem_cons, List.not_mem_nil, or_false] at hv
      have := sixNumbers_chance fun x => decide (x = v)
      rcases hv with rfl | rfl | rfl
      · norm_num [List.countP_cons] at this ⊢
        exact this
      · norm_num [List.countP_cons] at this ⊢
        exact this
      · norm_num [List.countP_cons] at this ⊢
        exact this) (by simp)
    (sixTest 10 (fun xs => returns (decide (xs ≠ [1, 3])))) (fun xs => returns (decide (xs ≠ [1, 3]))) 10
    (fun m =>
      { setting := fun σ R => ⟨⟨fun _ h => (by cases h), fun _ h => (by cases h)⟩, rfl, by simp [sixTest], fun s => by
          rcases hd m σ R s with ⟨r, hr⟩ | hr <;> rw [hr] <;> simp⟩
        draws := hd m
        pure := fun _ _ _ _ => rfl
        out := fun a => .inl ⟨_, rfl⟩
        quiet := fun a h => by simp [returns] at h
        runs := fun _ _ => rfl
        noLimit := fun _ _ => rfl })
    (fun _ _ _ => ⟨rfl, rfl⟩) (fun xs => by simp [returns, Ev.Fails]) (fun xs => by simp [returns, Ev.discarded])
  simp only [List.toFinset_cons, List.toFinset_nil, insert_empty_eq, List.length_cons, List.length_nil] at this
  rw [successive_pair _ (by decide)] at this
  norm_num at this ⊢
  exact this

end Engine
end Verif
