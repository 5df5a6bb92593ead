import Verif.Lemmas.BinSearch
import Verif.Lemmas.CostBasic
/-
C12-C16: shrinking of 64-bit integers.
`binarySearchShrinkable v` is the tree for `int64_t`, `binarySearchShrinkableU v` for `uint64_t`.
-/
namespace Verif
open Shr BinSearch

/-- The values of `int64_t`. -/
def IsI64 (v : Int) : Prop := -2^63 ≤ v ∧ v < 2^63
/-- The values of `uint64_t`. -/
def IsU64 (v : Int) : Prop := 0 ≤ v ∧ v < 2^64
/-- `w` lies between zero and `v` (inclusive), on either side of zero. -/
def Between0 (w v : Int) : Prop := (0 ≤ w ∧ w ≤ v) ∨ (v ≤ w ∧ w ≤ 0)

/-- Every tree the two functions return is the tree of a natural number, mirrored for negatives. -/
theorem bs_cases {v : Int} {t : Shr Int}
    (h : (IsI64 v ∧ binarySearchShrinkable v = .ok t) ∨ (IsU64 v ∧ binarySearchShrinkableU v = .ok t)) :
    ∃ n : Nat, (n < 2^64 ∧ (v = n ∧ t = (bsNat n).map Int.ofNat)) ∨
      (n < 2^64 ∧ (v = -(n : Int) ∧ t = (bsNat n).map negNat)) := by
  rcases h with ⟨hv, ht⟩ | ⟨hv, ht⟩
  · unfold IsI64 at hv
    unfold binarySearchShrinkable at ht
    refine ⟨v.natAbs, ?_⟩
    rcases Int.natAbs_eq v with e | e
    · left
      rw [e, tree_pos (fun x a b => exact_S64 x (by omega) b) _ (by omega)] at ht
      cases ht; exact ⟨by omega, e, rfl⟩
    · right
      rw [e, tree_neg (fun x a b => exact_S64 x a (by omega)) _ (by omega)] at ht
      cases ht; exact ⟨by omega, e, rfl⟩
  · unfold IsU64 at hv
    unfold binarySearchShrinkableU at ht
    refine ⟨v.natAbs, .inl ?_⟩
    have e : v = v.natAbs := by omega
    rw [e, tree_pos exact_U64 _ (by omega)] at ht
    cases ht; exact ⟨by omega, e, rfl⟩

/-! ### C16: no overflow -/

/-- C16. For every `int64_t`, building and exploring the whole shrink tree never overflows: the model
executes every addition with an overflow check and returns normally. -/
theorem C16_signed_no_overflow (v : Int) (h : IsI64 v) :
    ∃ t, binarySearchShrinkable v = .ok t ∧ t.value = v := by
  unfold IsI64 at h
  unfold binarySearchShrinkable
  rcases Int.natAbs_eq v with e | e
  · rw [e, tree_pos (fun x a b => exact_S64 x (by omega) b) _ (by omega)]
    exact ⟨_, rfl, by simp [bsNat_value]⟩
  · rw [e, tree_neg (fun x a b => exact_S64 x a (by omega)) _ (by omega)]
    exact ⟨_, rfl, by simp [bsNat_value, negNat]⟩

/-- C16. For every `uint64_t`, no addition wraps around: the machine that traps on a wrap-around returns
normally, with the same tree as the real (modular) one. -/
theorem C16_unsigned_no_wrap (v : Int) (h : IsU64 v) :
    ∃ t, tree normU64Trap v = .ok t ∧ binarySearchShrinkableU v = .ok t ∧ t.value = v := by
  unfold IsU64 at h
  unfold binarySearchShrinkableU
  have e : v = v.natAbs := by omega
  rw [e, tree_pos exact_U64 _ (by omega), tree_pos exact_U64Trap _ (by omega)]
  exact ⟨_, rfl, rfl, by simp [bsNat_value]⟩

example : IsI64 (-9223372036854775808) ∧ IsI64 9223372036854775807 ∧ IsU64 18446744073709551615 := by
  unfold IsI64 IsU64; omega
/-- The check is not void: the additions of `genneg` overflow for arguments outside the type. -/
example : genneg normS64 5 (-2^63 - 4) 0 = .ub := by rfl

/-! ### C12: range and direction -/

/-- C12. Every value reachable by shrinking lies between zero and `v`. -/
theorem C12_range (v : Int) (t : Shr Int)
    (h : (IsI64 v ∧ binarySearchShrinkable v = .ok t) ∨ (IsU64 v ∧ binarySearchShrinkableU v = .ok t))
    (w : Int) (hw : Reach t w) : Between0 w v := by
  obtain ⟨n, ⟨_, rfl, rfl⟩ | ⟨_, rfl, rfl⟩⟩ := bs_cases h
  all_goals
    obtain ⟨x, hx, rfl⟩ := reach_map.mp hw
    have := (bsNat_reach n x).mp hx
    unfold Between0
    simp [negNat]
    omega

/-- C12. Every shrink step strictly decreases the distance to zero. -/
theorem C12_strict (v : Int) (t : Shr Int)
    (h : (IsI64 v ∧ binarySearchShrinkable v = .ok t) ∨ (IsU64 v ∧ binarySearchShrinkableU v = .ok t))
    (s c : Shr Int) (hs : Desc t s) (hc : c ∈ s.shrinks) : c.value.natAbs < s.value.natAbs := by
  obtain ⟨n, ⟨_, rfl, rfl⟩ | ⟨_, rfl, rfl⟩⟩ := bs_cases h
  all_goals
    obtain ⟨s', hs', rfl⟩ := desc_map.mp hs
    simp only [shrinks_map, List.mem_map] at hc
    obtain ⟨c', hc', rfl⟩ := hc
    have := (bsNat_desc n hs').2 c' hc'
    simp [negNat]
    omega

/-! ### C13: complete and without repetition -/

/-- C13. Every integer between zero and `v` occurs at exactly one position of the shrink tree, and no
other integer occurs. -/
theorem C13_exactly_once (v : Int) (t : Shr Int)
    (h : (IsI64 v ∧ binarySearchShrinkable v = .ok t) ∨ (IsU64 v ∧ binarySearchShrinkableU v = .ok t))
    (w : Int) : (Between0 w v → t.values.count w = 1) ∧ (¬ Between0 w v → t.values.count w = 0) := by
  have hcount : ∀ (f : Nat → Int), (∀ a b, f a = f b → a = b) → ∀ (l : List Nat) (x : Nat),
      (l.map f).count (f x) = l.count x := by
    intro f hf l x
    induction l with
    | nil => simp
    | cons y ys ih =>
      simp only [List.map_cons, List.count_cons, ih]
      by_cases e : y = x
      · simp [e]
      · have : f y ≠ f x := fun h => e (hf _ _ h)
        simp [e, this]
  have h0 : ¬ Between0 w v → t.values.count w = 0 := by
    intro hb
    rw [List.count_eq_zero]
    intro hm
    exact hb (C12_range v t h w (mem_values.mp hm))
  refine ⟨fun hb => ?_, h0⟩
  obtain ⟨n, ⟨_, rfl, rfl⟩ | ⟨_, rfl, rfl⟩⟩ := bs_cases h
  · have e : w = Int.ofNat w.natAbs := by unfold Between0 at hb; simp; omega
    rw [e, values_map, hcount _ (fun a b h => Int.ofNat.inj h), bsNat_count, if_pos]
    unfold Between0 at hb; omega
  · have e : w = negNat w.natAbs := by unfold Between0 at hb; simp [negNat]; omega
    rw [e, values_map, hcount _ (fun a b h => by unfold negNat at h; omega), bsNat_count, if_pos]
    unfold Between0 at hb; omega

/-- C13. In terms of reachability. -/
theorem C13_complete (v : Int) (t : Shr Int)
    (h : (IsI64 v ∧ binarySearchShrinkable v = .ok t) ∨ (IsU64 v ∧ binarySearchShrinkableU v = .ok t))
    (w : Int) : Reach t w ↔ Between0 w v := by
  refine ⟨C12_range v t h w, fun hb => ?_⟩
  rw [← mem_values, ← List.count_pos_iff, (C13_exactly_once v t h w).1 hb]; omega

/-! ### C14: logarithmic -/

/-- C14. A shrink path has at most 64 steps, and a node at the end of a path with `k` steps offers at
most `65 - k` candidates. -/
theorem C14_logarithmic (v : Int) (t : Shr Int)
    (h : (IsI64 v ∧ binarySearchShrinkable v = .ok t) ∨ (IsU64 v ∧ binarySearchShrinkableU v = .ok t))
    (p : List Nat) (u : Shr Int) (hp : t.at? p = some u) :
    p.length ≤ 64 ∧ p.length + u.shrinks.length ≤ 65 := by
  obtain ⟨n, ⟨hn, rfl, rfl⟩ | ⟨hn, rfl, rfl⟩⟩ := bs_cases h
  all_goals
    rw [at?_map] at hp
    cases hq : (bsNat n).at? p with
    | none => simp [hq] at hp
    | some q =>
      simp [hq] at hp
      subst hp
      have := bsNat_at 64 n (by omega) (by omega) hq
      simpa using this

/-- C14. Greedy shrinking of a number other than 0 evaluates any property at most 1 + ⌈log2 |v|⌉ times, and so at most 65
times. -/
theorem C14_evals (v : Int) (t : Shr Int)
    (h : (IsI64 v ∧ binarySearchShrinkable v = .ok t) ∨ (IsU64 v ∧ binarySearchShrinkableU v = .ok t))
    (fails : Int → Bool) : t.greedyEvals fails ≤ 1 + Nat.clog 2 v.natAbs ∧ t.greedyEvals fails ≤ 65 := by
  have hb : v.natAbs ≤ 2 ^ 64 := by
    rcases h with ⟨h, -⟩ | ⟨h, -⟩ <;> simp only [IsI64, IsU64] at h <;> omega
  have h1 := greedyEvals_le_cost fails t
  have h2 : t.cost = (bsNat v.natAbs).cost := by
    obtain ⟨n, ⟨hn, rfl, rfl⟩ | ⟨hn, rfl, rfl⟩⟩ := bs_cases h <;> simp [cost_map]
  have h3 := cost_bsNat_le v.natAbs
  have h4 : Nat.clog 2 v.natAbs ≤ 64 := Nat.clog_le_of_le_pow hb
  omega

/-! ### C15: thresholds are found exactly -/

/-- C15. If among the numbers from 0 to the failing value `v` the property fails exactly for those `≥ k`,
greedy shrinking from `v` ends at `k`. -/
theorem C15_threshold_nonneg (v : Int) (t : Shr Int)
    (h : (IsI64 v ∧ binarySearchShrinkable v = .ok t) ∨ (IsU64 v ∧ binarySearchShrinkableU v = .ok t))
    (fails : Int → Bool) (k : Int) (hk : 0 ≤ k) (hkv : k ≤ v)
    (hf : ∀ w, 0 ≤ w → w ≤ v → (fails w = true ↔ k ≤ w)) : t.greedy fails = k := by
  obtain ⟨n, ⟨hn, rfl, rfl⟩ | ⟨hn, rfl, rfl⟩⟩ := bs_cases h
  · rw [greedy_map, bsNat_greedy _ k.natAbs n (by omega)]
    · simp; omega
    · intro w hw
      have := hf w (by omega) (by omega)
      rw [show Int.ofNat w = (w : Int) from rfl, this]; omega
  · have : n = 0 := by omega
    subst this
    simp [bsNat, greedy, greedyList, negNat]; omega

/-- C15. The mirror image for negative values. -/
theorem C15_threshold_nonpos (v : Int) (t : Shr Int)
    (h : IsI64 v ∧ binarySearchShrinkable v = .ok t)
    (fails : Int → Bool) (k : Int) (hk : k ≤ 0) (hkv : v ≤ k)
    (hf : ∀ w, w ≤ 0 → v ≤ w → (fails w = true ↔ w ≤ k)) : t.greedy fails = k := by
  obtain ⟨n, ⟨hn, rfl, rfl⟩ | ⟨hn, rfl, rfl⟩⟩ := bs_cases (.inl h)
  · have : n = 0 := by omega
    subst this
    simp [bsNat, greedy, greedyList]; omega
  · rw [greedy_map, bsNat_greedy _ k.natAbs n (by omega)]
    · simp [negNat]; omega
    · intro w hw
      have := hf (-(w : Int)) (by omega) (by omega)
      rw [show negNat w = -(w : Int) from rfl, this]; omega

/-! Concrete cases: the hypotheses can be met, and the tree of 8 is as in the documentation. -/

example : binarySearchShrinkable 8 = .ok
    (node 8 [leaf 0, node 4 [node 2 [leaf 1], leaf 3], node 6 [leaf 5], leaf 7]) := by rfl
example : binarySearchShrinkable (-5) = .ok (node (-5) [leaf 0, node (-2) [leaf (-1)], node (-3) [],
    leaf (-4)]) := by rfl
example : ∃ t, IsI64 (-(2^63)) ∧ binarySearchShrinkable (-(2^63)) = .ok t := by
  have h : IsI64 (-(2^63)) := by unfold IsI64; omega
  obtain ⟨t, ht, _⟩ := C16_signed_no_overflow _ h
  exact ⟨t, h, ht⟩
example : ∃ t, IsI64 (2^63 - 1) ∧ binarySearchShrinkable (2^63 - 1) = .ok t ∧
    t.greedy (fun w => decide (123456789 ≤ w)) = 123456789 := by
  have h : IsI64 (2^63 - 1) := by unfold IsI64; omega
  obtain ⟨t, ht, _⟩ := C16_signed_no_overflow _ h
  exact ⟨t, h, ht, C15_threshold_nonneg _ t (.inl ⟨h, ht⟩) _ _ (by omega) (by omega) (by simp)⟩

end Verif
