import Mathlib.Algebra.Order.Field.Power
import Mathlib.Tactic.Linarith
import Mathlib.Tactic.Positivity
import Mathlib.Tactic.Ring
import Mathlib.Tactic.FieldSimp
import Mathlib.Tactic.NormNum
import Verif.Spec.Floating
import Verif.Lemmas.Printing
/-
Accuracy of printed floating point numbers.
-/
namespace Verif
namespace Printing
open Floating

/-- The decimal exponent. -/
theorem expo_spec {n d : Nat} (hn : 0 < n) (hd : 0 < d) :
    (10 : ℚ)^(expo n d) ≤ (n : ℚ) / d ∧ (n : ℚ) / d < 10^(expo n d + 1) := by
  have hd' : (0 : ℚ) < d := by exact_mod_cast hd
  have hn' : (0 : ℚ) < n := by exact_mod_cast hn
  unfold expo
  split
  · rename_i h
    have hq : n / d ≠ 0 := by
      have := Nat.div_pos h hd
      omega
    have h1 : 10^(Nat.log 10 (n / d)) * d ≤ n :=
      (Nat.mul_le_mul_right d (Nat.pow_log_le_self 10 hq)).trans (Nat.div_mul_le_self n d)
    have h2 : n < 10^(Nat.log 10 (n / d) + 1) * d := by
      have := Nat.lt_pow_succ_log_self (b := 10) (by omega) (n / d)
      exact (Nat.div_lt_iff_lt_mul hd).mp this
    constructor
    · rw [zpow_natCast, le_div_iff₀ hd']
      exact_mod_cast h1
    · rw [show ((Nat.log 10 (n / d) : Int) + 1) = ((Nat.log 10 (n / d) + 1 : Nat) : Int) by push_cast; ring, zpow_natCast,
        div_lt_iff₀ hd']
      exact_mod_cast h2
  · rename_i h
    set q := (d + n - 1) / n with hq
    have hq2 : 2 ≤ q := by
      rw [hq, Nat.le_div_iff_mul_le hn]; omega
    have hdq : d ≤ q * n := by
      have h3 : d + n - 1 < (q + 1) * n := by
        rw [hq]; exact (Nat.div_lt_iff_lt_mul hn).mp (Nat.lt_succ_self _)
      have : (q + 1) * n = q * n + n := by ring
      omega
    obtain ⟨k, hk⟩ : ∃ k, Nat.clog 10 q = k + 1 := by
      have : 0 < Nat.clog 10 q := Nat.clog_pos (by omega) hq2
      exact ⟨Nat.clog 10 q - 1, by omega⟩
    have h1 : q ≤ 10^(k + 1) := by rw [← hk]; exact Nat.le_pow_clog (by omega) q
    have h2 : 10^k < q := by
      have := Nat.pow_pred_clog_lt_self (b := 10) (by omega) (x := q) (by omega)
      rwa [hk] at this
    have h2' : 10^k * n < d := by
      have : (10^k + 1) * n ≤ d + n - 1 := by
        have := (Nat.le_div_iff_mul_le hn).mp (show 10^k + 1 ≤ (d + n - 1) / n by rw [← hq]; omega)
        exact this
      have e : (10^k + 1) * n = 10^k * n + n := by ring
      omega
    have h1' : d ≤ 10^(k + 1) * n := hdq.trans (Nat.mul_le_mul_right n h1)
    rw [hk]
    constructor
    · rw [zpow_neg, zpow_natCast, inv_le_comm₀ (by positivity) (by positivity), inv_div, div_le_iff₀ hn']
      exact_mod_cast h1'
    · rw [show (-((k + 1 : Nat) : Int) + 1) = -(k : Int) by push_cast; ring, zpow_neg, zpow_natCast,
        lt_inv_comm₀ (by positivity) (by positivity), inv_div, lt_div_iff₀ hn']
      exact_mod_cast h2'

theorem roundEven_spec (n : Nat) {d : Nat} (hd : 0 < d) : |(roundEven n d : ℚ) - (n : ℚ) / d| ≤ 1 / 2 := by
  have hd' : (0 : ℚ) < d := by exact_mod_cast hd
  have hm : n % d < d := Nat.mod_lt _ hd
  have e : (n : ℚ) = d * ((n / d : Nat) : ℚ) + ((n % d : Nat) : ℚ) := by
    exact_mod_cast (Nat.div_add_mod n d).symm
  have e' : (n : ℚ) / d = ((n / d : Nat) : ℚ) + ((n % d : Nat) : ℚ) / d := by
    rw [e]; field_simp
  rw [e', abs_le]
  unfold roundEven
  split
  · rename_i h
    have h1 : ((2 * (n % d) : Nat) : ℚ) ≤ d := by
      have : 2 * (n % d) ≤ d := by omega
      exact_mod_cast this
    push_cast at h1
    have h2 : ((n % d : Nat) : ℚ) / d ≤ 1 / 2 := by
      rw [div_le_iff₀ hd']; push_cast; linarith
    have h3 : (0 : ℚ) ≤ ((n % d : Nat) : ℚ) / d := by positivity
    constructor <;> linarith
  · rename_i h
    have h1 : (d : ℚ) ≤ ((2 * (n % d) : Nat) : ℚ) := by
      have : d ≤ 2 * (n % d) := by
        by_contra hc
        exact h (.inl (by omega))
      exact_mod_cast this
    push_cast at h1
    have h2 : 1 / 2 ≤ ((n % d : Nat) : ℚ) / d := by
      rw [le_div_iff₀ hd']; push_cast; linarith
    have h3 : ((n % d : Nat) : ℚ) / d ≤ 1 := by
      rw [div_le_one hd']
      exact_mod_cast hm.le
    push_cast
    constructor <;> linarith

theorem pow_split (x : Int) (n d : ℚ) : n * 10^(5 - x).toNat / (d * 10^(x - 5).toNat) = n / d * (10 : ℚ)^(5 - x) := by
  rcases le_total x 5 with h | h
  · rw [show (x - 5).toNat = 0 by omega, pow_zero, mul_one]
    have : ((10 : ℚ)^(5 - x)) = 10^((5 - x).toNat) := by
      rw [← zpow_natCast, Int.toNat_of_nonneg (by omega)]
    rw [this]; ring
  · rw [show (5 - x).toNat = 0 by omega, pow_zero, mul_one]
    have : ((10 : ℚ)^(5 - x)) = (10^((x - 5).toNat))⁻¹ := by
      rw [← zpow_natCast, Int.toNat_of_nonneg (by omega), ← zpow_neg]
      congr 1
      ring
    rw [this, div_mul_eq_div_div, div_eq_mul_inv (n / d)]

theorem sixDigits_spec {n d : Nat} (hn : 0 < n) (hd : 0 < d) :
    10^5 ≤ (sixDigits n d).1 ∧ (sixDigits n d).1 < 10^6 ∧
    |((sixDigits n d).1 : ℚ) * 10^((sixDigits n d).2 - 5) - (n : ℚ) / d| ≤ (n : ℚ) / d / 200000 := by
  have hd' : (0 : ℚ) < d := by exact_mod_cast hd
  have hn' : (0 : ℚ) < n := by exact_mod_cast hn
  obtain ⟨h1, h2⟩ := expo_spec hn hd
  generalize hx : expo n d = x at h1 h2
  have hden : 0 < d * 10^(x - 5).toNat := by positivity
  have hr := roundEven_spec (n * 10^(5 - x).toNat) hden
  generalize hm : roundEven (n * 10^(5 - x).toNat) (d * 10^(x - 5).toNat) = m at hr
  have hs : sixDigits n d = if m = 10^6 then (10^5, x + 1) else (m, x) := by
    unfold sixDigits
    simp only [hx, hm]
  have e1 : ((n * 10^(5 - x).toNat : Nat) : ℚ) / ((d * 10^(x - 5).toNat : Nat) : ℚ) = (n : ℚ) / d * (10 : ℚ)^(5 - x) := by
    push_cast
    exact pow_split x n d
  rw [e1] at hr
  set v : ℚ := (n : ℚ) / d with hv
  have hv0 : 0 < v := by positivity
  have hp : (0 : ℚ) < 10^(5 - x) := by positivity
  -- the scaled number is in [10^5, 10^6)
  have lo : (10 : ℚ)^(5 : Nat) ≤ v * 10^(5 - x) := by
    calc (10 : ℚ)^(5 : Nat) = 10^x * 10^(5 - x) := by
          rw [← zpow_add₀ (by norm_num), ← zpow_natCast]; congr 1; push_cast; ring
      _ ≤ v * 10^(5 - x) := mul_le_mul_of_nonneg_right h1 hp.le
  have hi : v * 10^(5 - x) < (10 : ℚ)^(6 : Nat) := by
    calc v * 10^(5 - x) < 10^(x + 1) * 10^(5 - x) := mul_lt_mul_of_pos_right h2 hp
      _ = (10 : ℚ)^(6 : Nat) := by
          rw [← zpow_add₀ (by norm_num), ← zpow_natCast]; congr 1; push_cast; ring
  rw [abs_le] at hr
  have hmlo : 10^5 ≤ m := by
    have : ((10^5 : Nat) : ℚ) < (m : ℚ) + 1 := by push_cast; linarith
    have : 10^5 < m + 1 := by exact_mod_cast this
    omega
  have hmhi : m ≤ 10^6 := by
    have : (m : ℚ) < ((10^6 + 1 : Nat) : ℚ) := by push_cast; linarith
    have : m < 10^6 + 1 := by exact_mod_cast this
    omega
  -- the error
  have err : |(m : ℚ) * 10^(x - 5) - v| ≤ v / 200000 := by
    have hq : (0 : ℚ) < 10^(x - 5) := by positivity
    have e2 : v = v * 10^(5 - x) * 10^(x - 5) := by
      rw [mul_assoc, ← zpow_add₀ (by norm_num)]
      rw [show (5 - x + (x - 5)) = 0 by ring, zpow_zero, mul_one]
    have e3 : (m : ℚ) * 10^(x - 5) - v = ((m : ℚ) - v * 10^(5 - x)) * 10^(x - 5) := by
      rw [sub_mul, ← e2]
    rw [e3, abs_mul, abs_of_pos hq]
    have h4 : |(m : ℚ) - v * 10^(5 - x)| ≤ 1 / 2 := abs_le.mpr hr
    calc |(m : ℚ) - v * 10^(5 - x)| * 10^(x - 5) ≤ 1 / 2 * 10^(x - 5) := mul_le_mul_of_nonneg_right h4 hq.le
      _ = 10^x / 200000 := by
          rw [zpow_sub₀ (by norm_num : (10 : ℚ) ≠ 0)]; norm_num; ring
      _ ≤ v / 200000 := by linarith
  rw [hs]
  split
  · rename_i h6
    refine ⟨by norm_num, by norm_num, ?_⟩
    have e : ((10^5 : Nat) : ℚ) * 10^((x + 1) - 5) = (m : ℚ) * 10^(x - 5) := by
      rw [h6, show x + 1 - 5 = (x - 5) + 1 by ring, zpow_add₀ (by norm_num)]
      push_cast
      ring
    simp only [e]
    exact err
  · rename_i h6
    exact ⟨hmlo, by omega, err⟩

/-! Reading what was written. -/

theorem natOf_append (s t : Text) : natOf (s ++ t) = natOf s * 10^t.length + natOf t := by
  induction t using List.reverseRecOn with
  | nil => simp [natOf]
  | append_singleton t c ih =>
    rw [← List.append_assoc, natOf_concat, natOf_concat, ih]
    simp only [List.length_append, List.length_singleton, pow_succ]
    ring

theorem natOf_zeros (k : Nat) : natOf (List.replicate k 48) = 0 := by
  induction k with
  | zero => rfl
  | succ k ih => rw [List.replicate_succ', natOf_concat, ih]

theorem strip_spec (f : Text) : ∃ k, f = strip f ++ List.replicate k 48 := by
  unfold strip
  have h := List.takeWhile_append_dropWhile (p := fun c : Nat => c == 48) (l := f.reverse)
  refine ⟨(f.reverse.takeWhile (· == 48)).length, ?_⟩
  have h1 : f.reverse.takeWhile (fun c : Nat => c == 48) = List.replicate (f.reverse.takeWhile (· == 48)).length 48 := by
    refine List.eq_replicate_iff.mpr ⟨rfl, fun c hc => ?_⟩
    have := List.all_takeWhile (p := fun c : Nat => c == 48) (l := f.reverse)
    rw [List.all_eq_true] at this
    simpa using this c hc
  have h2 := congrArg List.reverse h
  rw [List.reverse_append, List.reverse_reverse] at h2
  conv_lhs => rw [← h2]
  congr 1
  conv_lhs => rw [h1]
  rw [List.reverse_replicate]

theorem strip_mem {f : Text} {c : Nat} (h : c ∈ strip f) : c ∈ f := by
  obtain ⟨k, e⟩ := strip_spec f
  rw [e]
  exact List.mem_append_left _ h

/-- All characters are digits. -/
def Digits (t : Text) : Prop := ∀ c ∈ t, 48 ≤ c ∧ c ≤ 57

theorem takeWhile_stop {p : Nat → Bool} {a b : Text} (ha : ∀ c ∈ a, p c = true) (hb : ∀ c, b.head? = some c → p c = false) :
    (a ++ b).takeWhile p = a ∧ (a ++ b).dropWhile p = b := by
  induction a with
  | nil =>
    cases b with
    | nil => simp
    | cons c b =>
      have := hb c rfl
      simp [this]
  | cons c a ih =>
    have h1 := ha c (by simp)
    have h2 := ih fun d hd => ha d (List.mem_cons_of_mem _ hd)
    simp [h1, h2]

/-- The value of a mantissa and an exponent as written. -/
theorem read_point {neg : Bool} {i f e : Text} (hi : Digits i) (hi0 : i ≠ []) (hf : Digits f)
    (he : e = [] ∨ ∃ e', e = 101 :: e') :
    readDec ((if neg then [45] else []) ++ (point i f ++ e)) =
      (if neg then -1 else 1) * natOf (i ++ f) * 10^(readInt (e.drop 1) - f.length) := by
  have hp : ∀ c ∈ point i f, c = 46 ∨ (48 ≤ c ∧ c ≤ 57) := by
    intro c hc
    unfold point at hc
    split at hc
    · exact .inr (hi c hc)
    · simp only [List.mem_append, List.mem_cons] at hc
      rcases hc with hc | hc | hc
      · exact .inr (hi c hc)
      · exact .inl hc
      · exact .inr (hf c (strip_mem hc))
  have hhead : ((if neg then [45] else []) ++ (point i f ++ e)).head? = some 45 ↔ neg = true := by
    cases neg with
    | true => simp
    | false =>
      simp only [Bool.false_eq_true, if_false, List.nil_append, iff_false]
      cases i with
      | nil => exact absurd rfl hi0
      | cons c i =>
        have := hi c (by simp)
        unfold point
        split <;> simp <;> omega
  have hbody : (if ((if neg then [45] else []) ++ (point i f ++ e)).head? = some 45 then
      ((if neg then [45] else []) ++ (point i f ++ e)).drop 1 else (if neg then [45] else []) ++ (point i f ++ e)) =
      point i f ++ e := by
    cases neg with
    | true => simp
    | false =>
      rw [if_neg (by rw [hhead]; simp)]
      simp
  have h1 := takeWhile_stop (p := fun c => c != 101) (a := point i f) (b := e)
    (fun c hc => by have := hp c hc; simp; omega)
    (fun c hc => by
      rcases he with rfl | ⟨e', rfl⟩
      · simp at hc
      · simp at hc; simp [← hc])
  have hsgn : (if ((if neg then [45] else []) ++ (point i f ++ e)).head? = some 45 then (-1 : ℚ) else 1) =
      if neg = true then -1 else 1 := by
    by_cases h : neg = true
    · rw [if_pos (hhead.mpr h), if_pos h]
    · rw [if_neg (fun hc => h (hhead.mp hc)), if_neg h]
  unfold readDec
  simp only [hbody, hsgn, h1.1, h1.2]
  rw [mul_assoc, mul_assoc]
  congr 1
  obtain ⟨k, hk⟩ := strip_spec f
  have e1 : (natOf (i ++ f) : ℚ) = natOf (i ++ strip f) * 10^k := by
    conv_lhs => rw [hk]
    rw [← List.append_assoc, natOf_append, natOf_zeros, List.length_replicate]
    push_cast
    ring
  have e2 : (f.length : Int) = (strip f).length + k := by
    conv_lhs => rw [hk]
    simp
  have e3 : (natOf (i ++ f) : ℚ) * 10^(readInt (e.drop 1) - f.length) =
      natOf (i ++ strip f) * 10^(readInt (e.drop 1) - (strip f).length) := by
    rw [e1, e2, mul_assoc, ← zpow_natCast, ← zpow_add₀ (by norm_num)]
    congr 2
    ring
  rw [e3]
  unfold point
  split
  · rename_i hs
    have h2 := takeWhile_stop (p := fun c => c != 46) (a := i) (b := [])
      (fun c hc => by have := hi c hc; simp; omega) (fun c hc => by simp at hc)
    rw [List.append_nil] at h2
    rw [h2.1, h2.2, hs]
    simp
  · have h2 := takeWhile_stop (p := fun c => c != 46) (a := i) (b := 46 :: strip f)
      (fun c hc => by have := hi c hc; simp; omega) (fun c hc => by simp at hc; simp [← hc])
    rw [h2.1, h2.2]
    simp

theorem dec_length {m k : Nat} (h1 : 10^k ≤ m) (h2 : m < 10^(k + 1)) : (dec m).length = k + 1 := by
  induction k generalizing m with
  | zero =>
    rw [dec, if_pos (by simpa using h2)]
    rfl
  | succ k ih =>
    have e1 : 10^(k + 1) = 10 * 10^k := by rw [pow_succ]; ring
    have e2 : 10^(k + 1 + 1) = 10 * 10^(k + 1) := by rw [pow_succ]; ring
    have hk : 1 ≤ 10^k := Nat.one_le_pow _ _ (by omega)
    rw [dec, if_neg (by omega)]
    simp only [List.length_append, List.length_singleton]
    rw [ih (by omega) (by omega)]

theorem readInt_exp (x : Int) : readInt ((if x < 0 then 45 else 43) ::
    (if x.natAbs < 10 then 48 :: dec x.natAbs else dec x.natAbs)) = x := by
  have h : natOf (if x.natAbs < 10 then 48 :: dec x.natAbs else dec x.natAbs) = x.natAbs := by
    split
    · rw [show 48 :: dec x.natAbs = [48] ++ dec x.natAbs from rfl, natOf_append, natOf_dec]
      simp [natOf]
    · exact natOf_dec _
  unfold readInt
  split
  · simp only [List.head?_cons, if_true, List.drop_one, List.tail_cons, h]
    omega
  · simp only [List.head?_cons, Option.some.injEq, List.drop_one, List.tail_cons, h]
    rw [if_neg (by omega)]
    simp only [if_true]
    omega

theorem read_formatG {neg : Bool} {m : Nat} (h1 : 10^5 ≤ m) (h2 : m < 10^6) (x : Int) :
    readDec ((if neg then [45] else []) ++ formatG m x) = (if neg then -1 else 1) * m * 10^(x - 5) := by
  have hl : (dec m).length = 6 := dec_length h1 h2
  have hd : Digits (dec m) := dec_digit m
  have ht : ∀ k, Digits ((dec m).take k) := fun k c hc => hd c (List.mem_of_mem_take hc)
  have hdr : ∀ k, Digits ((dec m).drop k) := fun k c hc => hd c (List.mem_of_mem_drop hc)
  have htn : ∀ k, (dec m).take (k + 1) ≠ [] := fun k h => by
    have := congrArg List.length h
    simp [hl] at this
  generalize hs : (if neg then [45] else [] : Text) = sg
  generalize hq : (if neg then -1 else 1 : ℚ) = sq
  have rp : ∀ {i f e : Text}, Digits i → i ≠ [] → Digits f → (e = [] ∨ ∃ e', e = 101 :: e') →
      readDec (sg ++ (point i f ++ e)) = sq * natOf (i ++ f) * 10^(readInt (e.drop 1) - f.length) := by
    intro i f e hi hi0 hf he
    rw [← hs, ← hq]
    exact read_point hi hi0 hf he
  unfold formatG
  split
  · split
    · have := rp (e := []) (ht (x.toNat + 1)) (htn _) (hdr (x.toNat + 1)) (.inl rfl)
      rw [List.append_nil] at this
      rw [this, List.take_append_drop, natOf_dec, List.length_drop, hl]
      congr 2
      simp [readInt, natOf]
      omega
    · have hz : Digits (List.replicate (-x - 1).toNat 48 ++ dec m) := by
        intro c hc
        simp only [List.mem_append, List.mem_replicate] at hc
        rcases hc with hc | hc
        · omega
        · exact hd c hc
      have := rp (i := [48]) (e := []) (by intro c hc; simp at hc; omega) (by simp) hz (.inl rfl)
      rw [List.append_nil] at this
      rw [this, ← List.append_assoc, natOf_append, natOf_dec, natOf_append, natOf_zeros]
      simp only [List.length_append, List.length_replicate, hl]
      have e : natOf [48] = 0 := rfl
      rw [e]
      congr 2
      · simp
      · simp [readInt, natOf]
        omega
  · have := rp (e := 101 :: (if x < 0 then 45 else 43) ::
      (if x.natAbs < 10 then 48 :: dec x.natAbs else dec x.natAbs)) (ht 1) (htn 0) (hdr 1) (.inr ⟨_, rfl⟩)
    rw [this, List.take_append_drop, natOf_dec, List.length_drop, hl, List.drop_one, List.tail_cons, readInt_exp]
    congr 2

theorem formatG_head (m : Nat) (x : Int) : (formatG m x).head? ≠ some 45 := by
  have hd : ∃ c r, dec m = c :: r ∧ c ≠ 45 := by
    rcases h : dec m with _ | ⟨c, r⟩
    · exact absurd h (dec_ne_nil m)
    · have := dec_digit m c (by rw [h]; simp)
      exact ⟨c, r, rfl, by omega⟩
  obtain ⟨c, r, h, hc⟩ := hd
  have hp : ∀ (c : Nat) (i f : Text), (point (c :: i) f).head? = some c := by
    intro c i f
    unfold point
    split <;> simp
  unfold formatG
  rw [h]
  split_ifs
  · rw [List.take_succ_cons, hp]; simpa using hc
  · rw [hp]; simp
  all_goals
    rw [List.head?_append_of_ne_nil _ (by intro e; have := hp c (r.take 0) (List.drop 1 (c :: r)); simp at e this; simp [e] at this),
      List.take_succ_cons, hp]
    simpa using hc

theorem formatG_chars (m : Nat) (x : Int) : ∀ c ∈ formatG m x, c ≠ 110 := by
  have hp : ∀ i f : Text, Digits i → Digits f → ∀ c ∈ point i f, c ≠ 110 := by
    intro i f hi hf c hc
    unfold point at hc
    split at hc
    · have := hi c hc; omega
    · simp only [List.mem_append, List.mem_cons] at hc
      rcases hc with hc | hc | hc
      · have := hi c hc; omega
      · omega
      · have := hf c (strip_mem hc); omega
  have hd : Digits (dec m) := dec_digit m
  have ht : ∀ k, Digits ((dec m).take k) := fun k c hc => hd c (List.mem_of_mem_take hc)
  have hdr : ∀ k, Digits ((dec m).drop k) := fun k c hc => hd c (List.mem_of_mem_drop hc)
  intro c hc
  unfold formatG at hc
  split at hc
  · split at hc
    · exact hp _ _ (ht _) (hdr _) c hc
    · refine hp _ _ (by intro c hc; simp at hc; omega) ?_ c hc
      intro c hc
      simp only [List.mem_append, List.mem_replicate] at hc
      rcases hc with hc | hc
      · omega
      · exact hd c hc
  · simp only [List.mem_append, List.mem_cons] at hc
    rcases hc with hc | hc | hc | hc
    · exact hp _ _ (ht _) (hdr _) c hc
    · omega
    · split at hc <;> omega
    · split at hc
      · simp only [List.mem_cons] at hc
        rcases hc with hc | hc
        · omega
        · have := dec_digit _ c hc; omega
      · have := dec_digit _ c hc; omega

/-- Reading the printed text of a number gives the number up to half a unit of the sixth digit. -/
theorem showFl_accurate (F : Fmt) (x : Fl) (hx : x.Valid F) {v : ℚ} (hv : x.toRat? F = some v) {t : Text}
    (ht : showFl F x = .ok t) : |readDec t - v| ≤ |v| / 200000 := by
  cases x with
  | nan => cases hv
  | inf n => cases hv
  | zero n =>
    injection hv with hv
    have := ok_inj ht
    subst this
    subst hv
    cases n <;> simp [readDec, natOf]
  | fin neg f e =>
    injection hv with hv
    have hf : 0 < f := Nat.lt_of_lt_of_le (by positivity) hx.1
    have hn : 0 < f * 2^(e - F.p).toNat := by positivity
    have hd : 0 < 2^(F.p - e).toNat := by positivity
    obtain ⟨h1, h2, h3⟩ := sixDigits_spec hn hd
    have hval : ((f * 2^(e - F.p).toNat : Nat) : ℚ) / ((2^((F.p : Int) - e).toNat : Nat) : ℚ) = f * 2^(e - F.p) := by
      push_cast
      rcases le_total e F.p with h | h
      · rw [show (e - F.p).toNat = 0 by omega, pow_zero, mul_one]
        have : ((2 : ℚ)^(e - F.p)) = (2^(((F.p : Int) - e).toNat))⁻¹ := by
          rw [← zpow_natCast, Int.toNat_of_nonneg (by omega), ← zpow_neg]
          congr 1
          ring
        rw [this, div_eq_mul_inv]
      · rw [show ((F.p : Int) - e).toNat = 0 by omega, pow_zero, div_one]
        rw [← zpow_natCast, Int.toNat_of_nonneg (by omega)]
    have ht' : t = (if neg then [45] else []) ++ formatG (sixDigits (f * 2^(e - F.p).toNat) (2^((F.p : Int) - e).toNat)).1
        (sixDigits (f * 2^(e - F.p).toNat) (2^((F.p : Int) - e).toNat)).2 := (ok_inj ht).symm
    rw [ht', read_formatG h1 h2, ← hv]
    rw [hval] at h3
    have hp : (0 : ℚ) < f * 2^(e - F.p) := by positivity
    cases neg
    · simp only [Bool.false_eq_true, if_false, one_mul]
      rw [abs_of_pos hp]
      exact h3
    · simp only [if_true]
      rw [show ((-1 : ℚ) * (sixDigits (f * 2^(e - F.p).toNat) (2^((F.p : Int) - e).toNat)).1 *
          10^((sixDigits (f * 2^(e - F.p).toNat) (2^((F.p : Int) - e).toNat)).2 - 5) - -1 * f * 2^(e - F.p)) =
        -((sixDigits (f * 2^(e - F.p).toNat) (2^((F.p : Int) - e).toNat)).1 *
          10^((sixDigits (f * 2^(e - F.p).toNat) (2^((F.p : Int) - e).toNat)).2 - 5) - f * 2^(e - F.p)) by ring, abs_neg,
        show (-1 : ℚ) * f * 2^(e - F.p) = -(f * 2^(e - F.p)) by ring, abs_neg, abs_of_pos hp]
      exact h3

end Printing
end Verif
