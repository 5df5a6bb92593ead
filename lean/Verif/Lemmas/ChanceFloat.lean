import Verif.Lemmas.ChanceGen
import Verif.Lemmas.FloatingBits
import Mathlib.Order.Interval.Finset.Nat
/-
Helpers for C146: the bit patterns of floating point numbers, counted.
-/
namespace Verif
namespace Floating

/-- The number with the given fields. -/
def ofFields (F : Fmt) (neg : Bool) (ex man : Nat) : Fl :=
  if ex = 0 then
    if man = 0 then Fl.zero neg
    else .fin neg (man * 2^(F.p - 1 - man.log2)) (F.emin + 1 + man.log2)
  else if ex = 2^F.ebits - 1 then
    if man = 0 then .inf neg else .nan
  else .fin neg (2^(F.p - 1) + man) (F.emin + (ex - 1) + F.p)

theorem ofBits_fields (F : Fmt) (neg : Bool) (ex man : Nat) (he : ex < 2^F.ebits) (hm : man < 2^(F.p - 1)) :
    ofBits F (neg.toNat * 2^(F.ebits + (F.p - 1)) + ex * 2^(F.p - 1) + man) = ofFields F neg ex man := by
  obtain ⟨h1, h2, h3, h4⟩ := fields F neg.toNat ex man (by cases neg <;> decide) he hm
  simp only [ofBits]
  rw [h1, h2, h3, show decide (neg.toNat = 1) = neg by cases neg <;> rfl]
  rfl

theorem exists_fields (F : Fmt) (bits : Nat) (h : bits < 2^(F.ebits + F.p)) :
    ∃ (neg : Bool) (ex man : Nat), ex < 2^F.ebits ∧ man < 2^(F.p - 1) ∧
      bits = neg.toNat * 2^(F.ebits + (F.p - 1)) + ex * 2^(F.p - 1) + man := by
  have hp := F.p_pos
  have hP := Nat.two_pow_pos (F.p - 1)
  have hE := Nat.two_pow_pos F.ebits
  have hs : bits / 2^(F.p - 1) / 2^F.ebits < 2 := by
    rw [Nat.div_div_eq_div_mul, ← Nat.pow_add, Nat.div_lt_iff_lt_mul (Nat.two_pow_pos _), ← Nat.pow_succ',
      show (F.p - 1 + F.ebits).succ = F.ebits + F.p by omega]
    exact h
  refine ⟨decide (bits / 2^(F.p - 1) / 2^F.ebits = 1), bits / 2^(F.p - 1) % 2^F.ebits, bits % 2^(F.p - 1), Nat.mod_lt _ hE,
    Nat.mod_lt _ hP, ?_⟩
  have e1 : (decide (bits / 2^(F.p - 1) / 2^F.ebits = 1)).toNat = bits / 2^(F.p - 1) / 2^F.ebits := by
    generalize bits / 2^(F.p - 1) / 2^F.ebits = s at hs
    match s, hs with
    | 0, _ => rfl
    | 1, _ => rfl
  rw [e1]
  have h2 := Nat.div_add_mod bits (2^(F.p - 1))
  have h3 := Nat.div_add_mod (bits / 2^(F.p - 1)) (2^F.ebits)
  rw [Nat.pow_add]
  calc bits = 2^(F.p - 1) * (2^F.ebits * (bits / 2^(F.p - 1) / 2^F.ebits) + bits / 2^(F.p - 1) % 2^F.ebits) + bits % 2^(F.p - 1) := by
        rw [h3, h2]
    _ = _ := by ring

theorem ofFields_inj (F : Fmt) {neg neg' : Bool} {ex ex' man man' : Nat} (he : ex < 2^F.ebits) (he' : ex' < 2^F.ebits)
    (hm : man < 2^(F.p - 1)) (hm' : man' < 2^(F.p - 1)) (hn : ofFields F neg ex man ≠ .nan)
    (h : ofFields F neg ex man = ofFields F neg' ex' man') : neg = neg' ∧ ex = ex' ∧ man = man' := by
  have hp := F.p_pos
  have hE : 2^8 ≤ 2^F.ebits := Nat.pow_le_pow_right (by decide) F.ebits_pos
  have hlog : ∀ m, m ≠ 0 → m < 2^(F.p - 1) → m.log2 < F.p - 1 := fun m h0 h1 => (Nat.log2_lt h0).mpr h1
  have hmul : ∀ a b k : Nat, a * 2^k = b * 2^k → a = b := fun a b k h => Nat.eq_of_mul_eq_mul_right (Nat.two_pow_pos k) h
  unfold ofFields at h hn
  by_cases x0 : ex = 0
  · by_cases m0 : man = 0
    · by_cases x0' : ex' = 0
      · by_cases m0' : man' = 0
        · simp only [x0, m0, x0', m0', if_true, Fl.zero.injEq] at h
          exact ⟨h, by omega, by omega⟩
        · simp [x0, m0, x0', m0'] at h
      · by_cases x1' : ex' = 2^F.ebits - 1
        · by_cases m0' : man' = 0
          · rw [if_pos x0, if_pos m0, if_neg x0', if_pos x1', if_pos m0'] at h; cases h
          · rw [if_pos x0, if_pos m0, if_neg x0', if_pos x1', if_neg m0'] at h; cases h
        · rw [if_pos x0, if_pos m0, if_neg x0', if_neg x1'] at h; cases h
    · rw [if_pos x0, if_neg m0] at h
      have l1 := hlog man m0 hm
      by_cases x0' : ex' = 0
      · by_cases m0' : man' = 0
        · rw [if_pos x0', if_pos m0'] at h; cases h
        · rw [if_pos x0', if_neg m0'] at h
          simp only [Fl.fin.injEq] at h
          obtain ⟨a, b, c⟩ := h
          have hl : man.log2 = man'.log2 := by omega
          rw [hl] at b
          exact ⟨a, by omega, hmul _ _ _ b⟩
      · by_cases x1' : ex' = 2^F.ebits - 1
        · by_cases m0' : man' = 0
          · rw [if_neg x0', if_pos x1', if_pos m0'] at h; cases h
          · rw [if_neg x0', if_pos x1', if_neg m0'] at h; cases h
        · rw [if_neg x0', if_neg x1'] at h
          simp only [Fl.fin.injEq] at h
          obtain ⟨-, -, c⟩ := h
          omega
  · by_cases x1 : ex = 2^F.ebits - 1
    · by_cases m0 : man = 0
      · rw [if_neg x0, if_pos x1, if_pos m0] at h
        by_cases x0' : ex' = 0
        · by_cases m0' : man' = 0
          · rw [if_pos x0', if_pos m0'] at h; cases h
          · rw [if_pos x0', if_neg m0'] at h; cases h
        · by_cases x1' : ex' = 2^F.ebits - 1
          · by_cases m0' : man' = 0
            · rw [if_neg x0', if_pos x1', if_pos m0'] at h
              simp only [Fl.inf.injEq] at h
              exact ⟨h, by omega, by omega⟩
            · rw [if_neg x0', if_pos x1', if_neg m0'] at h; cases h
          · rw [if_neg x0', if_neg x1'] at h; cases h
      · rw [if_neg x0, if_pos x1, if_neg m0] at hn
        exact absurd rfl hn
    · rw [if_neg x0, if_neg x1] at h
      by_cases x0' : ex' = 0
      · by_cases m0' : man' = 0
        · rw [if_pos x0', if_pos m0'] at h; cases h
        · rw [if_pos x0', if_neg m0'] at h
          have l1 := hlog man' m0' hm'
          simp only [Fl.fin.injEq] at h
          obtain ⟨-, -, c⟩ := h
          omega
      · by_cases x1' : ex' = 2^F.ebits - 1
        · by_cases m0' : man' = 0
          · rw [if_neg x0', if_pos x1', if_pos m0'] at h; cases h
          · rw [if_neg x0', if_pos x1', if_neg m0'] at h; cases h
        · rw [if_neg x0', if_neg x1'] at h
          simp only [Fl.fin.injEq] at h
          obtain ⟨a, b, c⟩ := h
          exact ⟨a, by omega, by omega⟩

theorem ofBits_inj (F : Fmt) {a b : Nat} (ha : a < 2^(F.ebits + F.p)) (hb : b < 2^(F.ebits + F.p))
    (hn : ofBits F a ≠ .nan) (h : ofBits F a = ofBits F b) : a = b := by
  obtain ⟨n1, x1, m1, e1, l1, rfl⟩ := exists_fields F a ha
  obtain ⟨n2, x2, m2, e2, l2, rfl⟩ := exists_fields F b hb
  rw [ofBits_fields F _ _ _ e1 l1] at hn h
  rw [ofBits_fields F _ _ _ e2 l2] at h
  obtain ⟨rfl, rfl, rfl⟩ := ofFields_inj F e1 e2 l1 l2 hn h
  rfl

/-! ### Chances -/

theorem follows_value (F : Fmt) : Follows (fun _ R s => arbiValue R F s)
    (.draw 0 (2^(F.ebits + F.p) - 1) fun v => .ret (.ok (ofBits F v.toNat))) := by
  have hpos : (1 : Int) ≤ 2^(F.ebits + F.p) := by
    have := Nat.two_pow_pos (F.ebits + F.p)
    have h : ((2:Int)^(F.ebits + F.p)) = ((2^(F.ebits + F.p) : Nat) : Int) := by simp
    rw [h]; omega
  refine (Follows.draw (g := fun v _ _ s => .ok (ofBits F v.toNat, s)) (by omega) fun v => Follows.pure _).congr fun σ R s => ?_
  unfold arbiValue Random.uniform
  rw [if_pos (by omega)]
  rfl

/-- The chance of an event is the part of the bit patterns that belong to it. -/
theorem chance_bits (F : Fmt) (E : Fl → Bool) (k : Nat)
    (hk : ((Finset.range (2^(F.ebits + F.p))).filter fun n => E (ofBits F n) = true).card = k) :
    Chance (fun _ R s => arbiValue R F s) E (k / 2^(F.ebits + F.p)) := by
  refine ⟨_, follows_value F, ?_⟩
  rw [Exp.mean]
  have h : ((2:Int)^(F.ebits + F.p)) = ((2^(F.ebits + F.p) : Nat) : Int) := by simp
  have e1 : ∑ v ∈ Finset.Icc (0 : Int) (2^(F.ebits + F.p) - 1), (Exp.ret (Outcome.ok (ofBits F v.toNat))).mean (hit E) =
      ∑ n ∈ Finset.range (2^(F.ebits + F.p)), if E (ofBits F n) = true then (1 : ℚ) else 0 := by
    refine Finset.sum_bij' (fun i _ => i.toNat) (fun i _ => (i : Int)) ?_ ?_ ?_ ?_ ?_
    · intro i hi
      have := Finset.mem_Icc.1 hi
      rw [h] at this
      rw [Finset.mem_range]; omega
    · intro i hi
      have := Finset.mem_range.1 hi
      rw [Finset.mem_Icc, h]; omega
    · intro i hi
      have := Finset.mem_Icc.1 hi
      omega
    · intro i hi
      simp
    · intro i hi
      rfl
  rw [e1, Finset.sum_ite, Finset.sum_const_zero, add_zero, Finset.sum_const, nsmul_eq_mul, mul_one, hk]
  push_cast
  ring

/-- Events that do not depend on the sign and cover a range of the other bits. -/
theorem count_range (F : Fmt) (E : Fl → Bool) (lo hi : Nat) (hlh : lo ≤ hi) (hhi : hi ≤ 2^(F.ebits + (F.p - 1)))
    (h : ∀ (neg : Bool) (ex man : Nat), ex < 2^F.ebits → man < 2^(F.p - 1) →
      (E (ofFields F neg ex man) = true ↔ lo ≤ ex * 2^(F.p - 1) + man ∧ ex * 2^(F.p - 1) + man < hi)) :
    ((Finset.range (2^(F.ebits + F.p))).filter fun n => E (ofBits F n) = true).card = 2 * (hi - lo) := by
  have hp := F.p_pos
  have hM : 2^(F.ebits + F.p) = 2 * 2^(F.ebits + (F.p - 1)) := by rw [← Nat.pow_succ']; congr 1; omega
  generalize hQ : 2^(F.ebits + (F.p - 1)) = Q at *
  have heq : ((Finset.range (2^(F.ebits + F.p))).filter fun n => E (ofBits F n) = true) =
      Finset.Ico lo hi ∪ Finset.Ico (Q + lo) (Q + hi) := by
    ext n
    rw [Finset.mem_filter, Finset.mem_range, Finset.mem_union, Finset.mem_Ico, Finset.mem_Ico]
    constructor
    · rintro ⟨hn, hE⟩
      obtain ⟨neg, ex, man, e1, e2, rfl⟩ := exists_fields F n hn
      rw [ofBits_fields F _ _ _ e1 e2, h _ _ _ e1 e2] at hE
      rw [hQ]
      cases neg
      · simp only [Bool.toNat_false]; left; omega
      · simp only [Bool.toNat_true]; right; omega
    · intro hn
      have hlt : n < 2^(F.ebits + F.p) := by rw [hM]; omega
      refine ⟨hlt, ?_⟩
      obtain ⟨neg, ex, man, e1, e2, rfl⟩ := exists_fields F n hlt
      rw [ofBits_fields F _ _ _ e1 e2, h _ _ _ e1 e2]
      rw [hQ] at hn
      have : ex * 2^(F.p - 1) + man < Q := by
        rw [← hQ, Nat.pow_add]
        calc ex * 2^(F.p - 1) + man < ex * 2^(F.p - 1) + 2^(F.p - 1) := by omega
          _ = (ex + 1) * 2^(F.p - 1) := by ring
          _ ≤ _ := Nat.mul_le_mul_right _ e1
      cases neg
      · simp only [Bool.toNat_false] at hn; omega
      · simp only [Bool.toNat_true] at hn; omega
  rw [heq, Finset.card_union_of_disjoint, Nat.card_Ico, Nat.card_Ico]
  · omega
  · rw [Finset.disjoint_left]
    intro a ha hb
    rw [Finset.mem_Ico] at ha hb
    omega

end Floating
end Verif
