import Verif.Model.Branch
import Verif.Lemmas.Rounds
import Verif.Lemmas.Recursive
import Verif.Props.ChanceComb
import Verif.Props.ChanceOneOf
/-
Helper lemmas for C167.
-/
namespace Verif
namespace Recursive
open Shr Random ListLike Comb Integral IntType
variable {σ α : Type}

/-! ### Chances of a return -/

theorem mean_many_returns (e : Exp (Outcome (Shr α))) (n : Nat) :
    (manyExp e n).mean (val fun _ => 1) = (e.mean (val fun _ => 1)) ^ n := by
  induction n with
  | zero => simp [manyExp, Exp.mean, val]
  | succ n ih =>
    rw [manyExp, mean_andThen]
    have : ∀ x : Shr α, ((manyExp e n).andThen fun xs => .ret (.ok (x :: xs))).mean (val fun _ => 1) =
        (e.mean (val fun _ => 1)) ^ n := by
      intro x
      rw [mean_andThen]
      exact ih
    simp only [this]
    have h := mean_and e (fun _ => true) ((e.mean (val fun _ => 1)) ^ n)
    simp only [if_true, hit_eq] at h
    rw [h, pow_succ]

theorem chance_vector {g : Src (Shr α)} {p : ℚ} (h : Chance g (fun _ => true) p) {lo hi : Nat} (hl : lo ≤ hi)
    (hb : hi < 2 ^ 32) :
    Chance (fun σ R s => arbiVector R (g σ R) lo hi s) (fun _ => true)
      ((∑ k ∈ Finset.Icc lo hi, p ^ k) / (hi - lo + 1)) := by
  obtain ⟨e, he, rfl⟩ := h
  have hf : Follows (fun σ R s => (fun σ R s => (drawMany (g σ R) (R.draw s lo hi).1.toNat (R.draw s lo hi).2 >>=
      fun p => (listLike p.1 lo true).bind fun a => .ok (a, p.2)) : Src (Shr (List α))) σ R s)
      (.draw lo hi fun v => (manyExp e v.toNat).andThen fun xs => .ret (listLike xs lo true)) :=
    Follows.draw (g := fun v σ R s => drawMany (g σ R) v.toNat s >>= fun p => (listLike p.1 lo true).bind fun a => .ok (a, p.2))
      (by omega) fun v => (follows_many he v.toNat).bind fun xs => Follows.const (listLike xs lo true)
  refine ⟨_, hf.congr fun σ R s => ?_, ?_⟩
  · show (getRandomSize R lo (hi + 1) s >>= _) = _
    rw [getRandomSize_eq R s (by omega) (by omega)]
    have : ((hi + 1 : Nat) : Int) - 1 = hi := by omega
    rw [this, Outcome.ok_bind]
    dsimp only
    cases drawMany (g σ R) (R.draw s lo hi).1.toNat (R.draw s lo hi).2 with
    | ok p =>
      simp only [Outcome.ok_bind]
      cases listLike p.1 lo true <;> rfl
    | throws x => rfl
    | ub => rfl
    | diverges => rfl
  · rw [Exp.mean]
    push_cast
    congr 1
    refine Finset.sum_bij (fun v _ => v.toNat) (fun v hv => ?_) (fun v hv w hw h => ?_) (fun k hk => ?_) (fun v hv => ?_)
    · rw [Finset.mem_Icc] at *; omega
    · rw [Finset.mem_Icc] at *; omega
    · rw [Finset.mem_Icc] at hk
      exact ⟨k, Finset.mem_Icc.2 ⟨by omega, by omega⟩, by simp⟩
    · rw [Finset.mem_Icc] at hv
      rw [hit_eq, mean_andThen, hit_eq]
      simp only [if_true]
      rw [← mean_many_returns]
      refine Exp.mean_congr (fun o ho => ?_) (sat_many e v.toNat)
      cases o with
      | ok xs =>
        have hx := ho xs rfl
        obtain ⟨t, ht, -⟩ := listLike_ok (xs := xs) (m := lo) (by omega)
        simp [val, Exp.mean, ht]
      | _ => rfl

theorem chance_construct {n : Nat} {A : Fin n → Type} (order : List (Fin n)) (hnd : order.Nodup) (hall : ∀ i, i ∈ order)
    (gens : (i : Fin n) → Src (Shr (A i))) (ctor : ((i : Fin n) → A i) → α) (p : Fin n → ℚ)
    (hp : ∀ i, Chance (gens i) (fun _ => true) (p i)) :
    Chance (fun σ R s => construct (fun a => .ok (ctor a)) (fun i => gens i σ R) order s) (fun _ => true) (∏ i, p i) := by
  obtain ⟨e, he, hm⟩ := C141_tuple order hnd hall gens (fun _ _ => true) p hp
  refine ⟨e.andThen fun t => .ret (.ok (leaf (ctor t.value))), ?_, ?_⟩
  · refine (he.bind (g := fun t _ _ s => .ok (leaf (ctor t.value), s)) fun t => Follows.pure _).congr fun σ R s => ?_
    show (Gen.drawTuple _ order s >>= _) = _
    show _ = ((Gen.drawTuple (fun i => gens i σ R) order s >>= _) >>= _)
    cases Gen.drawTuple (fun i => gens i σ R) order s with
    | ok r =>
      obtain ⟨ts, s'⟩ := r
      show Outcome.ok (leaf (ctor fun i => (ts i).value), s') =
        .ok (leaf (ctor (PairTuple.shrinkTuple ts).value), s')
      rw [show (PairTuple.shrinkTuple ts).value = fun i => (ts i).value from funext fun i => C23_tuple_value ts i]
    | throws x => rfl
    | ub => rfl
    | diverges => rfl
  · rw [hit_eq, mean_andThen, ← hm, hit_eq]
    simp [Exp.mean, val]

theorem chance_nodeOf {order : List (Fin 2)} (hnd : order.Nodup) (hall : ∀ i, i ∈ order) {g : Src (Shr Int)}
    {h : Src (Shr (List Node))} {q : ℚ} (hg : Chance g (fun _ => true) 1) (hh : Chance h (fun _ => true) q) :
    Chance (fun σ R s => nodeOf order (g σ R) (h σ R) s) (fun _ => true) q := by
  have := chance_construct (A := NodeArg) order hnd hall
    (fun i => match i with
      | 0 => g
      | 1 => h) (fun a => Node.node (a 0) (a 1))
    (fun i => match i with
      | 0 => 1
      | 1 => q) (fun i => match i with
      | 0 => hg
      | 1 => hh)
  rw [Fin.prod_univ_two] at this
  obtain ⟨e, he, hm⟩ := this
  refine ⟨e, he.congr fun σ R s => ?_, by simpa using hm⟩
  unfold nodeOf
  congr 1
  funext i
  match i with
  | 0 => rfl
  | 1 => rfl

/-! ### No discards -/

theorem drawMany_ne {g : Gen σ α} (hg : ∀ s, g s ≠ .throws .discard) (n : Nat) (s : σ) :
    drawMany g n s ≠ .throws .discard := by
  induction n generalizing s with
  | zero => intro h; cases h
  | succ n ih =>
    rw [drawMany]
    exact bind_ne (hg s) fun r _ => bind_ne (ih _) fun r' _ h => by cases h

theorem arbiVector_ne {R : Rng σ} {g : Gen σ α} (hg : ∀ s, g s ≠ .throws .discard) {lo hi : Nat} (h : lo ≤ hi)
    (hb : hi < 2 ^ 32) (s : σ) : arbiVector R g lo hi s ≠ .throws .discard := by
  rw [arbiVector_eq R g h hb s _ _ rfl]
  refine bind_ne (drawMany_ne hg _ _) fun r hr => ?_
  have h1 := (R.draw_mem s lo hi (by omega)).1
  have h2 : lo ≤ (R.draw s lo hi).1.toNat := by omega
  obtain ⟨t, ht, -⟩ := listLike_ok (xs := r.1) (m := lo) (by rw [(drawMany_ok g _ _ r.1 r.2 hr).1]; exact h2)
  rw [ht]
  intro hc
  cases hc

theorem construct_ne {n : Nat} {A : Fin n → Type} {gens : (i : Fin n) → Gen σ (A i)}
    (hg : ∀ i s, gens i s ≠ .throws .discard) (ctor : ((i : Fin n) → A i) → α) (order : List (Fin n)) (s : σ) :
    construct (fun a => .ok (ctor a)) gens order s ≠ .throws .discard := by
  have key : ∀ (order : List (Fin n)) acc s, Gen.drawInto gens order acc s ≠ .throws .discard := by
    intro order
    induction order with
    | nil => intro acc s h; cases h
    | cons i is ih =>
      intro acc s
      rw [Gen.drawInto]
      exact bind_ne (hg i s) fun r _ => ih _ _
  unfold construct Gen.drawTuple
  refine bind_ne (bind_ne (key _ _ _) fun r _ => ?_) fun r _ h => by cases h
  dsimp only
  split
  · intro h; cases h
  · intro h; cases h

theorem nodeOf_ne {order : List (Fin 2)} {g : Gen σ Int} {h : Gen σ (List Node)} (hg : ∀ s, g s ≠ .throws .discard)
    (hh : ∀ s, h s ≠ .throws .discard) (s : σ) : nodeOf order g h s ≠ .throws .discard := by
  refine construct_ne (fun i => ?_) _ order s
  match i with
  | 0 => exact hg
  | 1 => exact hh

theorem branchGen_ne {R : Rng σ} {order : List (Fin 2)} {g : Gen σ Int} {base : Gen σ Node} (w1 w2 : Dbl)
    (hg : ∀ s, g s ≠ .throws .discard) {lo hi : Nat} (h : lo ≤ hi) (hb : hi < 2 ^ 32) (n : Nat) (s : σ) :
    branchGen R order g base w1 w2 lo hi n s ≠ .throws .discard := by
  cases n with
  | zero => intro h; cases h
  | succ n =>
    rw [branchGen]
    refine nodeOf_ne hg (arbiVector_ne (fun s => ?_) h hb) s
    refine bind_ne ?_ fun ws _ => oneOfLoop_ne ws n s
    unfold oneOf
    exact bind_ne (assignWeights_ne _) fun r _ h => by cases h

/-! ### The probabilities -/

/-- The probability of a return, of a call whose calls within each other are at most `n` deep, if of the two
alternatives that which goes deeper has the share `sh`; `r` is the probability that a round of `oneOf` decides nothing. -/
def level (r sh : ℚ) (lo hi : Nat) : Nat → ℚ
  | 0 => 0
  | 1 => (∑ k ∈ Finset.Icc lo hi, (0 : ℚ) ^ k) / (hi - lo + 1)
  | n + 2 => (∑ k ∈ Finset.Icc lo hi, ((1 - r ^ n) * (1 - sh + sh * level r sh lo hi (n + 1))) ^ k) / (hi - lo + 1)

theorem chance_branch {order : List (Fin 2)} (hnd : order.Nodup) (hall : ∀ i, i ∈ order) (g : Src (Shr Int))
    (hg : Chance g (fun _ => true) 1) (hgd : NoDiscard g) (base : Src (Shr Node)) (hbase : Chance base (fun _ => true) 1)
    (hbd : NoDiscard base) (w1 w2 : Dbl) (q1 q2 : ℚ) (hw : assignWeights [w1, w2] = .ok [.fin q1, .fin q2])
    (hq1 : 0 ≤ q1 ∧ q1 ≤ 1) (hq2 : 0 ≤ q2 ∧ q2 ≤ 1) {lo hi : Nat} (h : lo ≤ hi) (hb : hi < 2 ^ 32) (n : Nat) :
    Chance (fun σ R s => branchGen R order (g σ R) (base σ R) w1 w2 lo hi n s) (fun _ => true)
      (level (1 - (accepting q1 + accepting q2) / (2 * 2 ^ 64)) (accepting q2 / (accepting q1 + accepting q2)) lo hi n) := by
  induction n with
  | zero => exact ⟨.ret .diverges, ⟨trivial, fun _ _ _ => rfl⟩, rfl⟩
  | succ n ih =>
    have hacc1 := accepting_bounds hq1.1 hq1.2
    have hacc2 := accepting_bounds hq2.1 hq2.2
    have hel : Chance (oneOfCall [(base, w1), (fun σ R s => branchGen R order (g σ R) (base σ R) w1 w2 lo hi n s, w2)] n)
        (fun _ => true) (match n with
          | 0 => 0
          | n + 1 => (1 - (1 - (accepting q1 + accepting q2) / (2 * 2 ^ 64)) ^ n) *
              (1 - accepting q2 / (accepting q1 + accepting q2) + accepting q2 / (accepting q1 + accepting q2) *
                level (1 - (accepting q1 + accepting q2) / (2 * 2 ^ 64)) (accepting q2 / (accepting q1 + accepting q2))
                  lo hi (n + 1))) := by
      cases n with
      | zero =>
        refine ⟨.ret .diverges, ⟨trivial, fun σ R s => ?_⟩, rfl⟩
        unfold oneOfCall oneOf
        simp only [List.map_cons, List.map_nil, hw]
        rfl
      | succ n =>
        obtain ⟨-, -, h3⟩ := chance_oneOf_rounds
          [(base, w1), (fun σ R s => branchGen R order (g σ R) (base σ R) w1 w2 lo hi (n + 1) s, w2)] [q1, q2]
          [1, _] (fun _ => true) hw (by simpa using ⟨hq1, hq2⟩) (by simp) (by simp) (by
            intro a ha
            simp only [List.mem_cons, List.not_mem_nil, or_false] at ha
            rcases ha with rfl | rfl
            · exact hbd
            · exact fun σ R s => branchGen_ne w1 w2 (hgd σ R) h hb (n + 1) s)
          (.cons hbase (.cons ih .nil))
        have := h3 n
        simp only [List.map_cons, List.map_nil, List.sum_cons, List.sum_nil, add_zero, List.length_cons, List.length_nil,
          List.zipWith_cons_cons, List.zipWith_nil_left] at this
        norm_num at this ⊢
        have e : ∀ x : ℚ, (accepting q1 + accepting q2 * x) / (accepting q1 + accepting q2) =
            1 - accepting q2 / (accepting q1 + accepting q2) + accepting q2 / (accepting q1 + accepting q2) * x := by
          intro x
          have : accepting q1 + accepting q2 ≠ 0 := by linarith [hacc1.1, hacc2.1]
          field_simp
          ring
        rw [e] at this
        exact this
    have := chance_nodeOf hnd hall hg (chance_vector hel h hb)
    cases n with
    | zero => exact this
    | succ n => exact this

theorem sum_Icc_cast {lo hi : Nat} (h : lo ≤ hi) :
    ∑ k ∈ Finset.Icc lo hi, (k : ℚ) = (hi - lo + 1) * ((lo + hi) / 2) := by
  induction hi, h using Nat.le_induction with
  | base => simp
  | succ hi h ih =>
    rw [Finset.sum_Icc_succ_top (by omega), ih]
    push_cast
    ring

theorem card_Icc_cast {lo hi : Nat} (h : lo ≤ hi) : ((Finset.Icc lo hi).card : ℚ) = hi - lo + 1 := by
  rw [Nat.card_Icc, Nat.cast_sub (by omega)]
  push_cast
  ring

theorem pow_lower {x : ℚ} (_ : 0 ≤ x) (h1 : x ≤ 1) (k : Nat) : 1 - k * x + (if 2 ≤ k then x ^ 2 else 0) ≤ (1 - x) ^ k := by
  rcases Nat.lt_or_ge k 2 with hk | hk
  · rw [if_neg (by omega)]
    rcases (show k = 0 ∨ k = 1 by omega) with rfl | rfl <;> simp
  · rw [if_pos hk]
    induction k, hk using Nat.le_induction with
    | base => norm_num; nlinarith
    | succ k hk ih =>
      rw [pow_succ (1 - x)]
      have : (1 - k * x + x ^ 2) * (1 - x) ≤ (1 - x) ^ k * (1 - x) := mul_le_mul_of_nonneg_right ih (by linarith)
      have hk' : (2 : ℚ) ≤ k := by exact_mod_cast hk
      push_cast
      have h3 : 0 ≤ x ^ 2 * (k - x) := mul_nonneg (by positivity) (by linarith)
      nlinarith

theorem pow_upper {x : ℚ} (h0 : 0 ≤ x) (h1 : x ≤ 1) (k : Nat) : (1 - x) ^ k ≤ 1 - k * x + k ^ 2 * x ^ 2 := by
  induction k with
  | zero => simp
  | succ k ih =>
    rw [pow_succ]
    have : (1 - x) ^ k * (1 - x) ≤ (1 - k * x + k ^ 2 * x ^ 2) * (1 - x) := mul_le_mul_of_nonneg_right ih (by linarith)
    push_cast
    have hk : (0 : ℚ) ≤ k := by positivity
    have h3 : 0 ≤ (k : ℚ) ^ 2 * x ^ 3 := by positivity
    have h4 : 0 ≤ (k + 1 : ℚ) * x ^ 2 := by positivity
    nlinarith

variable {r sh : ℚ} {lo hi : Nat}

theorem level_mono_step (hr0 : 0 ≤ r) (hr1 : r ≤ 1) (hs0 : 0 ≤ sh) (hs1 : sh ≤ 1) (h : lo ≤ hi) (n : Nat) :
    0 ≤ level r sh lo hi n ∧ level r sh lo hi n ≤ level r sh lo hi (n + 1) ∧ level r sh lo hi n ≤ 1 := by
  have hN : (1 : ℚ) ≤ hi - lo + 1 := by
    have : (lo : ℚ) ≤ hi := by exact_mod_cast h
    linarith
  have hone : ∀ f : Nat → ℚ, (∀ k, f k ≤ 1) → (∑ k ∈ Finset.Icc lo hi, f k) / (hi - lo + 1 : ℚ) ≤ 1 := by
    intro f hf
    rw [div_le_one (by linarith)]
    calc _ ≤ ∑ k ∈ Finset.Icc lo hi, (1 : ℚ) := Finset.sum_le_sum fun k _ => hf k
      _ = _ := by rw [Finset.sum_const, nsmul_eq_mul, mul_one, card_Icc_cast h]
  have hpow : ∀ m : Nat, 0 ≤ 1 - r ^ m ∧ 1 - r ^ m ≤ 1 := fun m =>
    ⟨by have := pow_le_one₀ (n := m) hr0 hr1; linarith, by have := pow_nonneg hr0 m; linarith⟩
  have hbase : ∀ x : ℚ, 0 ≤ x → x ≤ 1 → 0 ≤ 1 - sh + sh * x ∧ 1 - sh + sh * x ≤ 1 := fun x h0 h1 =>
    ⟨by nlinarith, by nlinarith⟩
  induction n with
  | zero =>
    refine ⟨le_rfl, ?_, by simp [level]⟩
    simp only [level]
    exact div_nonneg (Finset.sum_nonneg fun k _ => by positivity) (by linarith)
  | succ n ih =>
    obtain ⟨i0, i1, i2⟩ := ih
    cases n with
    | zero =>
      refine ⟨i0.trans i1, ?_, ?_⟩
      · simp only [level]
        refine div_le_div_of_nonneg_right (Finset.sum_le_sum fun k _ => ?_) (by linarith)
        exact pow_le_pow_left₀ le_rfl (by simp) k
      · simp only [level]
        exact hone _ fun k => pow_le_one₀ le_rfl (by norm_num)
    | succ n =>
      have hb := hbase _ i0 i2
      refine ⟨i0.trans i1, ?_, ?_⟩
      · have hx : (1 - r ^ n) * (1 - sh + sh * level r sh lo hi (n + 1)) ≤
            (1 - r ^ (n + 1)) * (1 - sh + sh * level r sh lo hi (n + 2)) := by
          refine mul_le_mul ?_ ?_ hb.1 (hpow _).1
          · have := pow_le_pow_of_le_one hr0 hr1 (Nat.le_succ n)
            exact sub_le_sub_left this 1
          · have := mul_le_mul_of_nonneg_left i1 hs0
            linarith
        rw [level, level]
        refine div_le_div_of_nonneg_right (Finset.sum_le_sum fun k _ => ?_) (by linarith)
        exact pow_le_pow_left₀ (mul_nonneg (hpow n).1 hb.1) hx k
      · rw [level]
        refine hone _ fun k => pow_le_one₀ (mul_nonneg (hpow n).1 hb.1) ?_
        exact mul_le_one₀ (hpow n).2 hb.1 hb.2

theorem level_mono (hr0 : 0 ≤ r) (hr1 : r ≤ 1) (hs0 : 0 ≤ sh) (hs1 : sh ≤ 1) (h : lo ≤ hi) {m n : Nat} (hmn : m ≤ n) :
    level r sh lo hi m ≤ level r sh lo hi n := by
  induction n, hmn using Nat.le_induction with
  | base => exact le_rfl
  | succ n _ ih => exact ih.trans (level_mono_step hr0 hr1 hs0 hs1 h n).2.1

/-- At most one call goes deeper on average. -/
theorem level_decrease (hr0 : 0 ≤ r) (hr1 : r ≤ 1) (hs0 : 0 < sh) (hs1 : sh < 1) (h : lo ≤ hi)
    (hm : sh * ((lo + hi) / 2) ≤ 1) :
    ∃ κ : ℚ, 0 < κ ∧ ∀ n, 1 - level r sh lo hi (n + 2) ≤
      (1 - level r sh lo hi (n + 1)) - κ * (1 - level r sh lo hi (n + 1)) ^ 2 + hi * r ^ n := by
  have hlh : (lo : ℚ) ≤ hi := by exact_mod_cast h
  have hN : (1 : ℚ) ≤ hi - lo + 1 := by linarith
  have key : ∀ n, 1 - level r sh lo hi (n + 2) ≤ sh * ((lo + hi) / 2) * (1 - level r sh lo hi (n + 1)) -
      (if 2 ≤ hi then (sh * (1 - level r sh lo hi (n + 1))) ^ 2 / (hi - lo + 1) else 0) + hi * r ^ n := by
    intro n
    obtain ⟨l0, -, l1⟩ := level_mono_step hr0 hr1 hs0.le hs1.le h (n + 1)
    rw [level]
    set a := 1 - level r sh lo hi (n + 1) with ha
    have a0 : 0 ≤ a := by linarith
    have a1 : a ≤ 1 := by linarith
    have x0 : 0 ≤ sh * a := mul_nonneg hs0.le a0
    have x1 : sh * a ≤ 1 := mul_le_one₀ hs1.le a0 a1
    have ey : 1 - sh + sh * level r sh lo hi (n + 1) = 1 - sh * a := by rw [ha]; ring
    rw [ey]
    have δ0 : 0 ≤ r ^ n := pow_nonneg hr0 n
    have δ1 : r ^ n ≤ 1 := pow_le_one₀ hr0 hr1
    have hk : ∀ k ∈ Finset.Icc lo hi, 1 - k * (sh * a) + (if 2 ≤ k then (sh * a) ^ 2 else 0) - hi * r ^ n ≤
        ((1 - r ^ n) * (1 - sh * a)) ^ k := by
      intro k hk
      rw [Finset.mem_Icc] at hk
      rw [mul_pow (1 - r ^ n)]
      have p1 := pow_lower x0 x1 k
      have p2 := pow_lower δ0 δ1 k
      have p2' : 1 - k * r ^ n ≤ (1 - r ^ n) ^ k := by
        refine le_trans ?_ p2
        split <;> nlinarith
      have p3 : (1 - sh * a) ^ k ≤ 1 := pow_le_one₀ (by linarith) (by linarith)
      have p4 : 0 ≤ (1 - sh * a) ^ k := pow_nonneg (by linarith) k
      have hkh : (k : ℚ) ≤ hi := by exact_mod_cast hk.2
      have hk0 : (0 : ℚ) ≤ k := by positivity
      have p5 : (1 - k * r ^ n) * (1 - sh * a) ^ k ≤ (1 - r ^ n) ^ k * (1 - sh * a) ^ k :=
        mul_le_mul_of_nonneg_right p2' p4
      have p6 : k * r ^ n * (1 - sh * a) ^ k ≤ hi * r ^ n := by
        calc k * r ^ n * (1 - sh * a) ^ k ≤ k * r ^ n * 1 := mul_le_mul_of_nonneg_left p3 (mul_nonneg hk0 δ0)
          _ ≤ hi * r ^ n := by rw [mul_one]; exact mul_le_mul_of_nonneg_right hkh δ0
      rw [sub_mul, one_mul] at p5
      exact (sub_le_sub p1 p6).trans p5
    have hsum := Finset.sum_le_sum hk
    have hif : (if 2 ≤ hi then (sh * a) ^ 2 else 0) ≤ ∑ k ∈ Finset.Icc lo hi, (if 2 ≤ k then (sh * a) ^ 2 else 0) :=
      Finset.single_le_sum (f := fun k => if 2 ≤ k then (sh * a) ^ 2 else 0) (fun k _ => by
        split
        · positivity
        · exact le_rfl) (Finset.mem_Icc.2 ⟨h, le_rfl⟩)
    rw [Finset.sum_sub_distrib, Finset.sum_add_distrib, Finset.sum_sub_distrib, ← Finset.sum_mul, sum_Icc_cast h,
      Finset.sum_const, Finset.sum_const, nsmul_eq_mul, nsmul_eq_mul, card_Icc_cast h] at hsum
    have hN0 : (0 : ℚ) < hi - lo + 1 := by linarith
    have hfin : 1 - (sh * ((lo + hi) / 2) * a - (if 2 ≤ hi then (sh * a) ^ 2 / (hi - lo + 1) else 0) + hi * r ^ n) ≤
        (∑ k ∈ Finset.Icc lo hi, ((1 - r ^ n) * (1 - sh * a)) ^ k) / (hi - lo + 1) := by
      rw [le_div_iff₀ hN0]
      have e : (if 2 ≤ hi then (sh * a) ^ 2 / (hi - lo + 1 : ℚ) else 0) * (hi - lo + 1) =
          if 2 ≤ hi then (sh * a) ^ 2 else 0 := by
        split
        · field_simp
        · simp
      calc _ = (hi - lo + 1) - (hi - lo + 1) * ((lo + hi) / 2) * (sh * a) +
            (if 2 ≤ hi then (sh * a) ^ 2 / (hi - lo + 1 : ℚ) else 0) * (hi - lo + 1) - (hi - lo + 1) * (hi * r ^ n) := by ring
        _ ≤ _ := by rw [e]; linarith
    linarith
  by_cases h2 : 2 ≤ hi
  · refine ⟨sh ^ 2 / (hi - lo + 1), by positivity, fun n => ?_⟩
    obtain ⟨l0, -, l1⟩ := level_mono_step hr0 hr1 hs0.le hs1.le h (n + 1)
    have hk := key n
    rw [if_pos h2] at hk
    set a := 1 - level r sh lo hi (n + 1) with ha
    have a0 : 0 ≤ a := by linarith
    have m1 : sh * ((lo + hi) / 2) * a ≤ 1 * a := mul_le_mul_of_nonneg_right hm a0
    have e : (sh * a) ^ 2 / (hi - lo + 1 : ℚ) = sh ^ 2 / (hi - lo + 1) * a ^ 2 := by ring
    rw [e] at hk
    linarith
  · refine ⟨1 - sh, by linarith, fun n => ?_⟩
    obtain ⟨l0, -, l1⟩ := level_mono_step hr0 hr1 hs0.le hs1.le h (n + 1)
    have hk := key n
    rw [if_neg h2] at hk
    set a := 1 - level r sh lo hi (n + 1) with ha
    have a0 : 0 ≤ a := by linarith
    have a1 : a ≤ 1 := by linarith
    have hh1 : (hi : ℚ) ≤ 1 := by exact_mod_cast (show hi ≤ 1 by omega)
    have m1 : sh * ((lo + hi) / 2) * a ≤ sh * 1 * a :=
      mul_le_mul_of_nonneg_right (mul_le_mul_of_nonneg_left (by linarith) hs0.le) a0
    have m2 : (1 - sh) * a ^ 2 ≤ (1 - sh) * a := mul_le_mul_of_nonneg_left (by nlinarith) (by linarith)
    linarith

theorem level_limit (hr0 : 0 ≤ r) (hr1 : r < 1) (hs0 : 0 < sh) (hs1 : sh < 1) (h : lo ≤ hi)
    (hm : sh * ((lo + hi) / 2) ≤ 1) (ε : ℚ) (hε : 0 < ε) : ∃ N, ∀ n, N ≤ n → 1 - level r sh lo hi n < ε := by
  obtain ⟨κ, hκ, hd⟩ := level_decrease hr0 hr1.le hs0 hs1 h hm
  by_contra hc
  have hall : ∀ n, ε ≤ 1 - level r sh lo hi n := by
    intro n
    by_contra hn
    refine hc ⟨n, fun m hm => ?_⟩
    have := level_mono hr0 hr1.le hs0.le hs1.le h hm
    linarith
  have hκε : 0 < κ * ε ^ 2 / 2 := by positivity
  obtain ⟨M, hM⟩ := exists_pow_lt_of_lt_one (show 0 < κ * ε ^ 2 / 2 / (hi + 1) by positivity) hr1
  have hstep : ∀ j, 1 - level r sh lo hi (M + j + 1) ≤ 1 - j * (κ * ε ^ 2 / 2) := by
    intro j
    induction j with
    | zero =>
      have := (level_mono_step hr0 hr1.le hs0.le hs1.le h (M + 0 + 1)).1
      simp only [Nat.cast_zero, zero_mul]
      linarith
    | succ j ih =>
      have h1 := hd (M + j)
      have h2 := hall (M + j + 1)
      have h3 : ε ^ 2 ≤ (1 - level r sh lo hi (M + j + 1)) ^ 2 := pow_le_pow_left₀ hε.le h2 2
      have h4 : κ * ε ^ 2 ≤ κ * (1 - level r sh lo hi (M + j + 1)) ^ 2 := mul_le_mul_of_nonneg_left h3 hκ.le
      have h5 : r ^ (M + j) ≤ r ^ M := pow_le_pow_of_le_one hr0 hr1.le (by omega)
      have h6 : hi * r ^ (M + j) ≤ κ * ε ^ 2 / 2 := by
        rw [lt_div_iff₀ (by positivity)] at hM
        have h0 : 0 ≤ r ^ M := pow_nonneg hr0 M
        have hh : (0 : ℚ) ≤ hi := by positivity
        nlinarith
      push_cast
      have e : M + (j + 1) + 1 = M + j + 2 := by omega
      rw [e]
      linarith
  obtain ⟨j, hj⟩ := exists_nat_gt (1 / (κ * ε ^ 2 / 2))
  rw [div_lt_iff₀ hκε] at hj
  have := hstep j
  have := hall (M + j + 1)
  linarith

/-- More than one call goes deeper on average. -/
theorem level_bounded (hr0 : 0 ≤ r) (hr1 : r ≤ 1) (hs0 : 0 ≤ sh) (hs1 : sh ≤ 1) (h : lo ≤ hi)
    (hm : 1 < sh * ((lo + hi) / 2)) (n : Nat) :
    level r sh lo hi n ≤ 1 - (sh * ((lo + hi) / 2) - 1) / hi ^ 2 := by
  have hlh : (lo : ℚ) ≤ hi := by exact_mod_cast h
  have hlo : (0 : ℚ) ≤ lo := by positivity
  have hN0 : (0 : ℚ) < hi - lo + 1 := by linarith
  set μ := sh * ((lo + hi) / 2) with hμ
  have hμh : μ ≤ hi := by
    calc μ ≤ 1 * ((lo + hi) / 2) := mul_le_mul_of_nonneg_right hs1 (by linarith)
      _ ≤ hi := by linarith
  have hh1 : (1 : ℚ) < hi := by linarith
  set ε := (μ - 1) / hi ^ 2 with hε
  have ε0 : 0 ≤ ε := div_nonneg (by linarith) (by positivity)
  have ε1 : ε ≤ 1 := by rw [hε, div_le_one (by positivity)]; nlinarith
  have hεh : ε * hi ^ 2 = μ - 1 := by rw [hε]; field_simp
  induction n with
  | zero => simp only [level]; linarith
  | succ n ih =>
    have hmain : (∑ k ∈ Finset.Icc lo hi, (1 - sh * ε) ^ k) / (hi - lo + 1 : ℚ) ≤ 1 - ε := by
      have x0 : 0 ≤ sh * ε := mul_nonneg hs0 ε0
      have x1 : sh * ε ≤ 1 := mul_le_one₀ hs1 ε0 ε1
      have hk : ∀ k ∈ Finset.Icc lo hi, (1 - sh * ε) ^ k ≤ 1 - k * (sh * ε) + hi ^ 2 * ε ^ 2 := by
        intro k hk
        rw [Finset.mem_Icc] at hk
        refine (pow_upper x0 x1 k).trans ?_
        have hkh : (k : ℚ) ≤ hi := by exact_mod_cast hk.2
        have hk0 : (0 : ℚ) ≤ k := by positivity
        have i1 : (k : ℚ) ^ 2 ≤ hi ^ 2 := pow_le_pow_left₀ hk0 hkh 2
        have i2 : (sh * ε) ^ 2 ≤ ε ^ 2 := pow_le_pow_left₀ x0 (by nlinarith) 2
        have i3 : (k : ℚ) ^ 2 * (sh * ε) ^ 2 ≤ hi ^ 2 * ε ^ 2 := mul_le_mul i1 i2 (by positivity) (by positivity)
        linarith
      have hsum := Finset.sum_le_sum hk
      rw [Finset.sum_add_distrib, Finset.sum_sub_distrib, ← Finset.sum_mul, sum_Icc_cast h,
        Finset.sum_const, Finset.sum_const, nsmul_eq_mul, nsmul_eq_mul, card_Icc_cast h] at hsum
      rw [div_le_iff₀ hN0]
      have e : (hi - lo + 1 : ℚ) * ((lo + hi) / 2) * (sh * ε) = (hi - lo + 1) * (μ * ε) := by rw [hμ]; ring
      have e2 : (hi : ℚ) ^ 2 * ε ^ 2 = (μ - 1) * ε := by rw [← hεh]; ring
      rw [e, e2] at hsum
      calc _ ≤ _ := hsum
        _ = _ := by ring
    cases n with
    | zero =>
      simp only [level]
      refine le_trans (div_le_div_of_nonneg_right (Finset.sum_le_sum fun k _ => ?_) hN0.le) hmain
      have x1 : sh * ε ≤ 1 := mul_le_one₀ hs1 ε0 ε1
      exact pow_le_pow_left₀ le_rfl (by linarith) k
    | succ n =>
      obtain ⟨l0, -, l1⟩ := level_mono_step hr0 hr1 hs0 hs1 h (n + 1)
      rw [level]
      refine le_trans (div_le_div_of_nonneg_right (Finset.sum_le_sum fun k _ => ?_) hN0.le) hmain
      have b0 : 0 ≤ 1 - sh + sh * level r sh lo hi (n + 1) := by nlinarith
      have d0 : 0 ≤ 1 - r ^ n := by have := pow_le_one₀ (n := n) hr0 hr1; linarith
      have d1 : 1 - r ^ n ≤ 1 := by have := pow_nonneg hr0 n; linarith
      refine pow_le_pow_left₀ (mul_nonneg d0 b0) ?_ k
      calc _ ≤ 1 * (1 - sh + sh * level r sh lo hi (n + 1)) := mul_le_mul_of_nonneg_right d1 b0
        _ ≤ 1 - sh * ε := by have := mul_le_mul_of_nonneg_left ih hs0; linarith

end Recursive
end Verif
