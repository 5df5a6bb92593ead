import Verif.Props.Sizes
import Verif.Props.ChanceComb
import Verif.Model.Settings
/-
C181: containers whose size is a generated number, /repo/docs/Combinators.md:336-340 and 344-359.
-/
namespace Verif
open Shr Random ListLike Containers IntType Settings
variable {σ α β κ : Type}

theorem toSizeT_nonneg {n : Int} (h0 : 0 ≤ n) (h1 : n < 2 ^ 63) : toSizeT n = n.toNat := by
  unfold toSizeT
  rw [wrap_id (by simp [all]) (by rw [u64_lo]; omega) (by rw [u64_hi]; omega)]

theorem toSizeT_neg {n : Int} (h0 : n < 0) (h1 : -2 ^ 63 ≤ n) : toSizeT n = (n + 2 ^ 64).toNat := by
  unfold toSizeT IntType.wrap
  rw [u64_lo]
  have : u64.bits = 64 := rfl
  rw [this]
  omega

/-- Only the last 32 bits of the maximum size count. -/
theorem getRandomSize_mod (R : Rng σ) (a b : Nat) (hb : b < 2 ^ 64) (s : σ) :
    getRandomSize R a (b + 1) s = getRandomSize R a (b % 2 ^ 32 + 1) s := by
  have w : ∀ n : Nat, u32.wrap (n : Int) = ((n % 2^32 : Nat) : Int) := by
    intro n
    unfold IntType.wrap
    rw [u32_lo]
    have : u32.bits = 32 := rfl
    rw [this]
    omega
  have e : ∀ n : Nat, n < 2 ^ 64 → u64.wrap (((n + 1 : Nat) : Int) - 1) = n := fun n hn => by
    rw [wrap_id (by simp [all]) (by rw [u64_lo]; omega) (by rw [u64_hi]; omega)]
    omega
  unfold getRandomSize getRandomT
  rw [e b hb, e (b % 2 ^ 32) (by omega), w b, w (b % 2 ^ 32), Nat.mod_mod]

/-- C181, the part that holds: after `setMaxSize(n)` with a number `n` from 0 on (of type `int`) strings and vectors have at most
`n` elements, after `setSize(n)` exactly `n`. Missing: negative numbers, see `C181_..._violated`. -/
theorem C181_partial (R : Rng σ) (g : Gen σ α) (n : Int) (h0 : 0 ≤ n) (h1 : n ≤ i32.hi) (s s' : σ) (t : Shr (List α)) :
    ((arbiString R g 0 (toSizeT n) s = .ok (t, s') ∨ arbiVector R g 0 (toSizeT n) s = .ok (t, s')) → (t.value.length : Int) ≤ n) ∧
    ((arbiString R g (toSizeT n) (toSizeT n) s = .ok (t, s') ∨ arbiVector R g (toSizeT n) (toSizeT n) s = .ok (t, s')) →
      (t.value.length : Int) = n) := by
  have e : i32.hi = 2147483647 := rfl
  rw [toSizeT_nonneg h0 (by omega)]
  constructor
  · rintro (h | h)
    · obtain ⟨-, h2, -⟩ := C31_generated R g 0 n.toNat (by omega) (by omega) s s' t h
      omega
    · obtain ⟨xs, _, _, _, h2, h3, h4, _⟩ := C27_vector R g 0 n.toNat (by omega) (by omega) s s' t h
      rw [h4, List.length_map]
      omega
  · rintro (h | h)
    · obtain ⟨h2, h3, -⟩ := C31_generated R g n.toNat n.toNat (by omega) (by omega) s s' t h
      omega
    · obtain ⟨xs, _, _, _, h2, h3, h4, _⟩ := C27_vector R g n.toNat n.toNat (by omega) (by omega) s s' t h
      rw [h4, List.length_map]
      omega

example : ∃ t s', arbiString Random.script (fun | x :: s => .ok (leaf x, s) | [] => .throws .runtimeError)
    0 (toSizeT 3) [2, 7, 8] = .ok (t, s') ∧ t.value = [7, 8] := ⟨_, _, rfl, by decide +kernel⟩

/-- C181 is violated: after `setMaxSize(n)` with a negative number `n` (of type `int`) strings and vectors have any number of
elements up to `2^32 + n`, all equally likely. -/
theorem C181_maximum_violated (g : Src (Shr α)) (hg : Chance g (fun _ => true) 1) (n : Int) (h0 : n < 0) (h1 : i32.lo ≤ n)
    (k : Nat) (hk : (k : Int) ≤ 2 ^ 32 + n) :
    Chance (fun σ R s => arbiString R (g σ R) 0 (toSizeT n) s) (fun t => t.value.length = k) (1 / (2 ^ 32 + n + 1)) ∧
    Chance (fun σ R s => arbiVector R (g σ R) 0 (toSizeT n) s) (fun t => t.value.length = k) (1 / (2 ^ 32 + n + 1)) := by
  have e : i32.lo = -2147483648 := rfl
  have hm : toSizeT n % 2 ^ 32 = (2 ^ 32 + n).toNat := by
    rw [toSizeT_neg h0 (by omega)]
    omega
  have hlt : toSizeT n < 2 ^ 64 := by
    rw [toSizeT_neg h0 (by omega)]
    omega
  obtain ⟨k1, k2⟩ := C141_sizes g 0 (2 ^ 32 + n).toNat k (by omega) (by omega) (by omega) hg
  have ec : (1 : ℚ) / (((2 ^ 32 + n).toNat : Nat) - ((0 : Nat) : ℚ) + 1) = 1 / (2 ^ 32 + n + 1) := by
    have : (((2 ^ 32 + n).toNat : Nat) : Int) = 2 ^ 32 + n := by omega
    have : (((2 ^ 32 + n).toNat : Nat) : ℚ) = 2 ^ 32 + n := by exact_mod_cast this
    rw [this]
    norm_num
  rw [ec] at k1 k2
  constructor
  · obtain ⟨x, hx, hm'⟩ := k2
    refine ⟨x, hx.congr fun σ R s => ?_, hm'⟩
    simp only [arbiString]
    rw [getRandomSize_mod R 0 (toSizeT n) hlt, hm]
  · obtain ⟨x, hx, hm'⟩ := k1
    refine ⟨x, hx.congr fun σ R s => ?_, hm'⟩
    simp only [arbiVector]
    rw [getRandomSize_mod R 0 (toSizeT n) hlt, hm]

/-- A string of at most -5 characters has four billion of them as likely as none. -/
example : Chance (fun σ R s => arbiString R (die σ R) 0 (toSizeT (-5)) s) (fun t => t.value.length = 4000000000) (1 / 4294967292) ∧
    Chance (fun σ R s => arbiString R (die σ R) 0 (toSizeT (-5)) s) (fun t => t.value.length = 0) (1 / 4294967292) := by
  have h1 := (C181_maximum_violated die die_returns (-5) (by decide) (by decide) 4000000000 (by decide)).1
  have h2 := (C181_maximum_violated die die_returns (-5) (by decide) (by decide) 0 (by decide)).1
  norm_num at h1 h2 ⊢
  exact ⟨h1, h2⟩

private theorem drawMany_always {g : Gen σ α} (hg : ∀ s, ∃ r, g s = .ok r) (n : Nat) (s : σ) : ∃ r, drawMany g n s = .ok r := by
  induction n generalizing s with
  | zero => exact ⟨_, rfl⟩
  | succ n ih =>
    obtain ⟨⟨x, s1⟩, h1⟩ := hg s
    obtain ⟨⟨xs, s2⟩, h2⟩ := ih s1
    exact ⟨(x :: xs, s2), by simp only [drawMany, h1, Outcome.ok_bind, h2, Outcome.pure_eq]⟩

/-- C181 is violated: after `setSize(n)` with a negative number `n` (of type `int`) a string has `2^32 + n` characters, and the
behaviour of the generator of a vector is undefined (as soon as all the elements are generated). -/
theorem C181_size_violated (R : Rng σ) (g : Gen σ α) (n : Int) (h0 : n < 0) (h1 : i32.lo ≤ n) (s : σ) :
    (∀ t s', arbiString R g (toSizeT n) (toSizeT n) s = .ok (t, s') → (t.value.length : Int) = 2 ^ 32 + n) ∧
    ((∀ s, ∃ r, g s = .ok r) → arbiVector R g (toSizeT n) (toSizeT n) s = .ub) := by
  have e : i32.lo = -2147483648 := rfl
  have hm : toSizeT n % 2 ^ 32 = (2 ^ 32 + n).toNat := by
    rw [toSizeT_neg h0 (by omega)]
    omega
  have hlt : toSizeT n < 2 ^ 64 := by
    rw [toSizeT_neg h0 (by omega)]
    omega
  have hge : 2 ^ 63 ≤ toSizeT n := by
    rw [toSizeT_neg h0 (by omega)]
    omega
  have hsz : ∃ s1, getRandomSize R (toSizeT n) (toSizeT n + 1) s = .ok (2 ^ 32 + n, s1) := by
    rcases getRandomSize_any R (a := toSizeT n) hlt s with ⟨h, _⟩ | ⟨v, s1, e1, h2, h3⟩
    · omega
    · have : v = 2 ^ 32 + n := by omega
      subst this
      exact ⟨s1, e1⟩
  obtain ⟨s1, e1⟩ := hsz
  constructor
  · intro t s' h
    simp only [arbiString, e1, Outcome.ok_bind, Outcome.bind_eq_ok] at h
    obtain ⟨⟨xs, s2⟩, e2, e4⟩ := h
    simp at e4
    obtain ⟨rfl, rfl⟩ := e4
    obtain ⟨hl, -⟩ := drawMany_ok g _ _ _ _ e2
    have hv : (shrinkString (xs.map Shr.value) (toSizeT n)).value = xs.map Shr.value := by
      simp only [shrinkString, value_concat, shrinkRear, value_map, BinSearch.bsNat_value]
      rw [List.take_of_length_le]; simp; omega
    rw [hv, List.length_map, hl]
    omega
  · intro hg
    obtain ⟨⟨xs, s2⟩, e2⟩ := drawMany_always hg (2 ^ 32 + n).toNat s1
    obtain ⟨hl, -⟩ := drawMany_ok g _ _ _ _ e2
    simp only [arbiVector, e1, Outcome.ok_bind]
    rw [e2]
    simp only [Outcome.ok_bind, listLike, membershipwise]
    rw [if_pos (by omega)]
    rfl

example : arbiVector Random.script (fun s => .ok (leaf 0, s)) (toSizeT (-5)) (toSizeT (-5)) [] = .ub :=
  (C181_size_violated Random.script (fun s => .ok (leaf 0, s)) (-5) (by decide) (by decide) []).2 fun _ => ⟨_, rfl⟩

end Verif
