import Verif.Spec.Recursive
import Verif.Props.ListLike
import Mathlib.Algebra.BigOperators.Fin
import Mathlib.Data.Fintype.BigOperators
import Mathlib.Data.Rat.Defs
import Mathlib.Algebra.Order.Ring.Rat
import Mathlib.Algebra.Order.Field.Basic
import Mathlib.Algebra.Order.BigOperators.Group.Finset
import Mathlib.Tactic.Linarith
import Mathlib.Tactic.Positivity
import Mathlib.Tactic.FieldSimp
import Mathlib.Tactic.IntervalCases
import Mathlib.Tactic.Ring
/-
Lemmas about recursive generators.
-/
namespace Verif
namespace Recursive
open Shr Random ListLike Comb
variable {σ α γ : Type}

theorem construct_one (f : α → γ) (g : Gen σ α) (s : σ) :
    construct (n := 1) (A := fun _ => α) (fun a => .ok (f (a 0))) (fun _ => g) [0] s =
      (g s >>= fun r => pure (leaf (f r.1.value), r.2)) := by
  unfold construct Gen.drawTuple
  simp only [Gen.drawInto]
  cases h : g s with
  | ok r =>
    simp only [Outcome.ok_bind]
    rw [dif_pos]
    · simp
    · intro i; have := Subsingleton.elim 0 i; subst this; simp
  | throws e => rfl
  | ub => rfl
  | diverges => rfl

theorem boxGen_succ (R : Rng σ) (lo hi fuel : Nat) (s : σ) :
    boxGen R lo hi (fuel + 1) s = (arbiVector R (boxGen R lo hi fuel) lo hi s >>= fun r =>
      pure (leaf (Box.node r.1.value), r.2)) := by
  rw [boxGen]
  exact construct_one Box.node _ s

theorem boxMapGen_succ (R : Rng σ) (lo hi fuel : Nat) (s : σ) :
    boxMapGen R lo hi (fuel + 1) s = (arbiVector R (boxMapGen R lo hi fuel) lo hi s >>= fun r =>
      pure (r.1.map Box.node, r.2)) := rfl

theorem arbiVector_eq (R : Rng σ) (g : Gen σ α) {lo hi : Nat} (h : lo ≤ hi) (hb : hi < 2^32) (s s1 : σ) (v : Int)
    (hd : R.draw s lo hi = (v, s1)) :
    arbiVector R g lo hi s = (drawMany g v.toNat s1 >>= fun r => listLike r.1 lo true >>= fun t => pure (t, r.2)) := by
  obtain ⟨w, s2, e1, h1, h2, hd2⟩ := getRandomSize_draw R s h hb
  rw [hd] at hd2
  cases hd2
  unfold arbiVector
  rw [e1]
  rfl

theorem listLike_ok {xs : List (Shr α)} {m : Nat} (h : m ≤ xs.length) :
    ∃ t, listLike xs m true = .ok t ∧ t.value = xs.map Shr.value := by
  obtain ⟨t, e3⟩ := (C24_defined xs m).1.mpr h
  refine ⟨_, by simp only [listLike, e3, if_true, Outcome.ok_bind, Outcome.pure_eq]; rfl, ?_⟩
  have := (C24_defined xs m).2 t e3
  rw [value_flatMap]
  simp [this]

theorem arbiVector_ok (R : Rng σ) (g : Gen σ α) {lo hi : Nat} (h : lo ≤ hi) (hb : hi < 2^32) (s s1 s2 : σ) (v : Int)
    (hd : R.draw s lo hi = (v, s1)) (xs : List (Shr α)) (hm : drawMany g v.toNat s1 = .ok (xs, s2)) :
    ∃ t, arbiVector R g lo hi s = .ok (t, s2) ∧ t.value = xs.map Shr.value := by
  rw [arbiVector_eq R g h hb s s1 v hd, hm]
  have h1 := (R.draw_mem s lo hi (by omega)).1
  rw [hd] at h1
  obtain ⟨t, ht, hv⟩ := listLike_ok (xs := xs) (m := lo) (by rw [(drawMany_ok g _ _ _ _ hm).1]; dsimp only at h1; omega)
  refine ⟨t, ?_, hv⟩
  simp [ht]

theorem drawMany_mono {g g' : Gen σ α} (hg : ∀ s r, g s = .ok r → g' s = .ok r) :
    ∀ n s r, drawMany g n s = .ok r → drawMany g' n s = .ok r := by
  intro n
  induction n with
  | zero => intro s r h; exact h
  | succ n ih =>
    intro s r h
    rw [drawMany] at h ⊢
    obtain ⟨⟨x, s1⟩, h1, h⟩ := Outcome.bind_eq_ok.mp h
    obtain ⟨⟨xs, s2⟩, h2, h⟩ := Outcome.bind_eq_ok.mp h
    rw [hg _ _ h1, Outcome.ok_bind]
    dsimp only
    rw [ih _ _ h2, Outcome.ok_bind]
    exact h

theorem arbiVector_mono {R : Rng σ} {g g' : Gen σ α} (hg : ∀ s r, g s = .ok r → g' s = .ok r) (lo hi : Nat) (s : σ) (r)
    (h : arbiVector R g lo hi s = .ok r) : arbiVector R g' lo hi s = .ok r := by
  unfold arbiVector at h ⊢
  obtain ⟨⟨x, s1⟩, h1, h⟩ := Outcome.bind_eq_ok.mp h
  obtain ⟨⟨xs, s2⟩, h2, h⟩ := Outcome.bind_eq_ok.mp h
  rw [h1, Outcome.ok_bind]
  dsimp only at h2 ⊢
  rw [drawMany_mono hg _ _ _ h2, Outcome.ok_bind]
  exact h

theorem boxGen_mono (R : Rng σ) (lo hi : Nat) : ∀ fuel s r, boxGen R lo hi fuel s = .ok r →
    boxGen R lo hi (fuel + 1) s = .ok r := by
  intro fuel
  induction fuel with
  | zero => intro s r h; cases h
  | succ fuel ih =>
    intro s r h
    rw [boxGen_succ] at h ⊢
    obtain ⟨q, h1, h⟩ := Outcome.bind_eq_ok.mp h
    rw [arbiVector_mono ih lo hi s q h1]
    exact h

theorem boxGen_le (R : Rng σ) (lo hi : Nat) {m n : Nat} (h : m ≤ n) (s : σ) (r) (e : boxGen R lo hi m s = .ok r) :
    boxGen R lo hi n s = .ok r := by
  induction h with
  | refl => exact e
  | step _ ih => exact boxGen_mono R lo hi _ s r ih

theorem boxMapGen_mono (R : Rng σ) (lo hi : Nat) : ∀ fuel s r, boxMapGen R lo hi fuel s = .ok r →
    boxMapGen R lo hi (fuel + 1) s = .ok r := by
  intro fuel
  induction fuel with
  | zero => intro s r h; cases h
  | succ fuel ih =>
    intro s r h
    rw [boxMapGen_succ] at h ⊢
    obtain ⟨q, h1, h⟩ := Outcome.bind_eq_ok.mp h
    rw [arbiVector_mono ih lo hi s q h1]
    exact h

theorem boxMapGen_le (R : Rng σ) (lo hi : Nat) {m n : Nat} (h : m ≤ n) (s : σ) (r) (e : boxMapGen R lo hi m s = .ok r) :
    boxMapGen R lo hi n s = .ok r := by
  induction h with
  | refl => exact e
  | step _ ih => exact boxMapGen_mono R lo hi _ s r ih

theorem drawMany_diverges {g : Gen σ α} (hg : ∀ s, (∃ r, g s = .ok r) ∨ g s = .diverges) :
    ∀ n s, (∃ r, drawMany g n s = .ok r) ∨ drawMany g n s = .diverges := by
  intro n
  induction n with
  | zero => intro s; exact .inl ⟨_, rfl⟩
  | succ n ih =>
    intro s
    rw [drawMany]
    rcases hg s with ⟨⟨x, s1⟩, e⟩ | e <;> rw [e]
    · simp only [Outcome.ok_bind]
      rcases ih s1 with ⟨⟨x, s2⟩, e⟩ | e <;> rw [e]
      · exact .inl ⟨_, rfl⟩
      · exact .inr rfl
    · exact .inr rfl

theorem arbiVector_diverges (R : Rng σ) {g : Gen σ α} (hg : ∀ s, (∃ r, g s = .ok r) ∨ g s = .diverges) {lo hi : Nat}
    (h : lo ≤ hi) (hb : hi < 2^32) (s : σ) :
    (∃ r, arbiVector R g lo hi s = .ok r) ∨ arbiVector R g lo hi s = .diverges := by
  generalize hd : R.draw s lo hi = d
  obtain ⟨v, s1⟩ := d
  rcases drawMany_diverges hg v.toNat s1 with ⟨⟨xs, s2⟩, e⟩ | e
  · obtain ⟨t, ht, _⟩ := arbiVector_ok R g h hb s s1 s2 v hd xs e
    exact .inl ⟨_, ht⟩
  · right
    rw [arbiVector_eq R g h hb s s1 v hd, e]
    rfl

/-! ### counting -/

/-- `k` boxes still to be generated: are the draws `l` enough, with something left? -/
def enough : Nat → List Int → Prop
  | 0, l => l ≠ []
  | _ + 1, [] => False
  | k + 1, v :: l => enough (k + v.toNat) l
termination_by _ l => l.length

theorem not_enough_nil (k : Nat) : ¬ enough k [] := by
  cases k with
  | zero => rw [enough]; simp
  | succ k => rw [enough]; simp

theorem script_draw {v : Int} {l : List Int} {hi : Nat} (h0 : 0 ≤ v) (h1 : v ≤ hi) :
    script.draw (v :: l) (0 : Nat) hi = (v, l) := by
  simp [script, h0, h1]

theorem script_draw_suffix (l : List Int) (a b : Int) : (script.draw l a b).2 <:+ l := by
  cases l with
  | nil => simp [script]
  | cons v l => simp [script]

theorem drawMany_suffix {g : Gen (List Int) α} (hg : ∀ s x r, g s = .ok (x, r) → r <:+ s) : ∀ k (s : List Int) xs r,
    drawMany g k s = .ok (xs, r) → r <:+ s := by
  intro k
  induction k with
  | zero => intro s xs r h; cases h; exact List.suffix_refl _
  | succ k ih =>
    intro s xs r h
    rw [drawMany] at h
    obtain ⟨⟨x, s1⟩, h1, h⟩ := Outcome.bind_eq_ok.mp h
    obtain ⟨⟨ys, s2⟩, h2, h⟩ := Outcome.bind_eq_ok.mp h
    cases h
    exact (ih _ _ _ h2).trans (hg _ _ _ h1)

theorem boxGen_suffix {hi : Nat} (hb : hi < 2^32) : ∀ fuel (s : List Int) x r,
    boxGen script 0 hi fuel s = .ok (x, r) → r <:+ s := by
  intro fuel
  induction fuel with
  | zero => intro s x r h; cases h
  | succ fuel ih =>
    intro s x r h
    rw [boxGen_succ] at h
    obtain ⟨⟨t, s3⟩, h3, h1⟩ := Outcome.bind_eq_ok.mp h
    cases h1
    rw [arbiVector_eq script _ (Nat.zero_le _) hb _ _ _ rfl] at h3
    obtain ⟨⟨zs, s4⟩, h4, h3⟩ := Outcome.bind_eq_ok.mp h3
    obtain ⟨t', _, h3⟩ := Outcome.bind_eq_ok.mp h3
    cases h3
    exact (drawMany_suffix ih _ _ _ _ h4).trans (script_draw_suffix _ _ _)

theorem drawMany_boxGen_enough {hi : Nat} (hb : hi < 2^32) : ∀ fuel k (s : List Int) xs r j,
    drawMany (boxGen script 0 hi fuel) k s = .ok (xs, r) → (∀ v ∈ s, 0 ≤ v ∧ v ≤ hi) → enough j r →
    enough (k + j) s := by
  intro fuel
  induction fuel with
  | zero =>
    intro k s xs r j h hv hj
    cases k with
    | zero => cases h; simpa using hj
    | succ k => cases h
  | succ fuel ih =>
    intro k
    induction k with
    | zero => intro s xs r j h hv hj; cases h; simpa using hj
    | succ k ihk =>
      intro s xs r j h hv hj
      rw [drawMany] at h
      obtain ⟨⟨x, s1⟩, h1, h⟩ := Outcome.bind_eq_ok.mp h
      obtain ⟨⟨ys, s2⟩, h2, h⟩ := Outcome.bind_eq_ok.mp h
      cases h
      have hsuf := boxGen_suffix hb _ _ _ _ h1
      rw [boxGen_succ] at h1
      obtain ⟨⟨t, s3⟩, h3, h1⟩ := Outcome.bind_eq_ok.mp h1
      cases h1
      dsimp only at h2 hsuf
      have h5 := ihk _ _ _ _ h2 (fun v hv' => hv v (hsuf.mem hv')) hj
      cases s with
      | nil =>
        have : s3 = [] := by simpa using hsuf
        subst this
        exact absurd h5 (not_enough_nil _)
      | cons v l =>
        obtain ⟨hv0, hv1⟩ := hv v (by simp)
        rw [arbiVector_eq script _ (Nat.zero_le _) hb _ _ _ (script_draw hv0 hv1)] at h3
        obtain ⟨⟨zs, s4⟩, h4, h3⟩ := Outcome.bind_eq_ok.mp h3
        obtain ⟨t', _, h3⟩ := Outcome.bind_eq_ok.mp h3
        cases h3
        have h7 := ih _ _ _ _ _ h4 (fun v hv' => hv v (by simp [hv'])) h5
        rw [Nat.add_right_comm, enough]
        rwa [Nat.add_comm]

/-- The boxes still to be generated, each with the depth it may have: are the draws `l` enough? -/
def fits : List Nat → List Nat → Prop
  | [], _ => True
  | 0 :: _, _ => False
  | (_ + 1) :: _, [] => False
  | (n + 1) :: st, v :: l => fits (List.replicate v n ++ st) l
termination_by _ l => l.length

theorem fits_boxGen {hi : Nat} (hb : hi < 2^32) : ∀ n k st (l : List Nat),
    (∀ v ∈ l, v ≤ hi) → fits (List.replicate k n ++ st) l →
    ∃ xs l', (∀ e, drawMany (boxGen script 0 hi n) k (l.map Int.ofNat ++ e) = .ok (xs, l'.map Int.ofNat ++ e)) ∧
      l' <:+ l ∧ fits st l' := by
  intro n
  induction n with
  | zero =>
    intro k st l hv h
    cases k with
    | zero => exact ⟨[], l, fun _ => rfl, List.suffix_refl _, h⟩
    | succ k => simp [List.replicate_succ, fits] at h
  | succ n ih =>
    intro k
    induction k with
    | zero => intro st l hv h; exact ⟨[], l, fun _ => rfl, List.suffix_refl _, h⟩
    | succ k ihk =>
      intro st l hv h
      rw [List.replicate_succ, List.cons_append] at h
      cases l with
      | nil => rw [fits] at h; exact h.elim
      | cons v l =>
        rw [fits] at h
        obtain ⟨xs, l1, h1, h2, h3⟩ := ih v _ l (fun w hw => hv w (by simp [hw])) h
        obtain ⟨ys, l2, h4, h5, h6⟩ := ihk st l1 (fun w hw => hv w (by simp [h2.mem hw])) h3
        refine ⟨leaf (.node (xs.map Shr.value)) :: ys, l2, fun e => ?_, h5.trans (h2.trans (List.suffix_cons _ _)), h6⟩
        have hd : script.draw ((v :: l).map Int.ofNat ++ e) (0 : Nat) hi = ((v : Int), l.map Int.ofNat ++ e) :=
          script_draw (v := (v : Int)) (by omega) (by have := hv v (by simp); omega)
        obtain ⟨t, ht, htv⟩ := arbiVector_ok script _ (Nat.zero_le _) hb _ _ _ _ hd xs (by simpa using h1 e)
        rw [drawMany, boxGen_succ, ht]
        simp only [Outcome.ok_bind, Outcome.pure_eq]
        rw [h4, htv]
        rfl

/-! ### sums over all draws -/

open Finset in
theorem sum_draws (h L : Nat) (φ : List Nat → ℚ) :
    ∑ l : Fin (L + 1) → Fin (h + 1), φ (List.ofFn fun i => (l i : Nat)) =
      ∑ v : Fin (h + 1), ∑ l : Fin L → Fin (h + 1), φ ((v : Nat) :: List.ofFn fun i => (l i : Nat)) := by
  rw [← Fintype.sum_equiv (Fin.consEquiv (fun _ => Fin (h + 1)))
    (fun p => φ ((p.1 : Nat) :: List.ofFn fun i => (p.2 i : Nat))) _ ?_, Fintype.sum_prod_type]
  rintro ⟨v, l⟩
  simp [Fin.consEquiv, List.ofFn_succ]

theorem sum_half (n : Nat) : ∑ v ∈ Finset.range n, (1 / 2 : ℚ) ^ v = 2 - 2 * (1 / 2) ^ n := by
  induction n with
  | zero => norm_num
  | succ n ih => rw [Finset.sum_range_succ, ih, pow_succ]; ring

open Classical in
theorem sum_enough {h : Nat} (hh : 3 ≤ h) : ∀ L k,
    ∑ l : Fin L → Fin (h + 1), (if enough k ((List.ofFn fun i => (l i : Nat)).map Int.ofNat ++ [0]) then (1 : ℚ) else 0)
      ≤ ((h : ℚ) + 1) ^ L * (1 / 2) ^ k := by
  intro L
  induction L with
  | zero =>
    intro k
    cases k with
    | zero => simp [enough]
    | succ k => simp [enough, not_enough_nil]
  | succ L ih =>
    intro k
    cases k with
    | zero =>
      refine (Finset.sum_le_card_nsmul _ _ 1 fun l _ => by split <;> norm_num).trans ?_
      simp
    | succ k =>
      rw [sum_draws h L fun l => if enough (k + 1) (l.map Int.ofNat ++ [0]) then (1 : ℚ) else 0]
      calc _ = ∑ v : Fin (h + 1), ∑ l : Fin L → Fin (h + 1),
            (if enough (k + v) ((List.ofFn fun i => (l i : Nat)).map Int.ofNat ++ [0]) then (1 : ℚ) else 0) := by
            simp [enough]
        _ ≤ ∑ v : Fin (h + 1), ((h : ℚ) + 1) ^ L * (1 / 2) ^ (k + (v : Nat)) :=
            Finset.sum_le_sum fun v _ => ih (k + v)
        _ = ((h : ℚ) + 1) ^ L * (1 / 2) ^ k * ∑ v : Fin (h + 1), (1 / 2 : ℚ) ^ (v : Nat) := by
            rw [Finset.mul_sum]
            exact Finset.sum_congr rfl fun v _ => by rw [pow_add]; ring
        _ ≤ ((h : ℚ) + 1) ^ L * (1 / 2) ^ k * (((h : ℚ) + 1) * (1 / 2)) := by
            refine mul_le_mul_of_nonneg_left ?_ (by positivity)
            rw [Fin.sum_univ_eq_sum_range (fun v => (1 / 2 : ℚ) ^ v), sum_half]
            have h1 : (0 : ℚ) < (1 / 2) ^ (h + 1) := by positivity
            have h2 : (3 : ℚ) ≤ h := by exact_mod_cast hh
            linarith
        _ = _ := by rw [pow_succ, pow_succ]; ring

/-- The probability that a box needs at most `n` levels. -/
def prob (h : Nat) : Nat → ℚ
  | 0 => 0
  | n + 1 => (∑ v ∈ Finset.range (h + 1), prob h n ^ v) / (h + 1)

/-- The largest number of boxes within `n` levels. -/
def most (h : Nat) : Nat → Nat
  | 0 => 0
  | n + 1 => 1 + h * most h n

theorem prob_nonneg (h n : Nat) : 0 ≤ prob h n := by
  induction n with
  | zero => simp [prob]
  | succ n ih => rw [prob]; positivity

open Classical in
theorem sum_fits (h : Nat) : ∀ L st, (st.map (most h)).sum ≤ L →
    ((h : ℚ) + 1) ^ L * (st.map (prob h)).prod ≤
    ∑ l : Fin L → Fin (h + 1), (if fits st (List.ofFn fun i => (l i : Nat)) then (1 : ℚ) else 0) := by
  intro L
  have base : ∀ L n st, n = 0 → ((h : ℚ) + 1) ^ L * ((n :: st).map (prob h)).prod ≤
    ∑ l : Fin L → Fin (h + 1), (if fits (n :: st) (List.ofFn fun i => (l i : Nat)) then (1 : ℚ) else 0) := by
    rintro L n st rfl
    simp [prob, fits]
  induction L with
  | zero =>
    intro st hst
    match st with
    | [] => simp [fits]
    | 0 :: st => exact base _ _ st rfl
    | (n + 1) :: st => simp [most] at hst
  | succ L ih =>
    intro st hst
    match st with
    | [] => simp [fits]
    | 0 :: st => exact base _ _ st rfl
    | (n + 1) :: st =>
      rw [sum_draws h L fun l => if fits ((n + 1) :: st) l then (1 : ℚ) else 0]
      calc _ = ((h : ℚ) + 1) ^ L * (∑ v ∈ Finset.range (h + 1), prob h n ^ v) * (st.map (prob h)).prod := by
            rw [List.map_cons, List.prod_cons, prob, pow_succ]
            field_simp
        _ = ∑ v : Fin (h + 1), ((h : ℚ) + 1) ^ L * (prob h n ^ (v : Nat) * (st.map (prob h)).prod) := by
            rw [Fin.sum_univ_eq_sum_range (fun v => ((h : ℚ) + 1) ^ L * (prob h n ^ v * (st.map (prob h)).prod)),
              Finset.mul_sum, Finset.sum_mul]
            exact Finset.sum_congr rfl fun v _ => by ring
        _ ≤ ∑ v : Fin (h + 1), ∑ l : Fin L → Fin (h + 1),
            (if fits (List.replicate v n ++ st) (List.ofFn fun i => (l i : Nat)) then (1 : ℚ) else 0) := by
            refine Finset.sum_le_sum fun v _ => ?_
            refine le_trans (le_of_eq ?_) (ih (List.replicate v n ++ st) ?_)
            · simp
            · simp only [List.map_cons, List.sum_cons, most] at hst
              simp only [List.map_append, List.map_replicate, List.sum_append, List.sum_replicate, smul_eq_mul]
              have : (v : Nat) * most h n ≤ h * most h n := Nat.mul_le_mul_right _ (by omega)
              omega
        _ = _ := by simp [fits]

theorem prob_bound {h : Nat} (hh : h ≤ 2) (n : Nat) : (n : ℚ) / (n + 3) ≤ prob h n ∧ prob h n ≤ 1 := by
  induction n with
  | zero => simp [prob]
  | succ n ih =>
    obtain ⟨h1, h2⟩ := ih
    have h0 := prob_nonneg h n
    generalize hp : prob h n = p at h0 h1 h2
    have key : (p + p ^ 2 + 1) / 3 ≤ prob h (n + 1) ∧ prob h (n + 1) ≤ 1 := by
      rw [prob, hp]
      interval_cases h
      · simp; nlinarith
      · simp only [Finset.sum_range_succ, Finset.sum_range_zero]; norm_num; constructor <;> nlinarith
      · simp only [Finset.sum_range_succ, Finset.sum_range_zero]; norm_num; constructor <;> nlinarith
    refine ⟨le_trans ?_ key.1, key.2⟩
    have hn : (0 : ℚ) ≤ n := by positivity
    have h3 : (n : ℚ) / (n + 3) * (n + 3) = n := by field_simp
    have h4 : 0 ≤ (n : ℚ) / (n + 3) := by positivity
    generalize (n : ℚ) / (n + 3) = q at *
    rw [div_le_iff₀ (by push_cast; positivity)]
    push_cast
    have h5 : q + q ^ 2 ≤ p + p ^ 2 := by nlinarith
    nlinarith

theorem most_le {h : Nat} (hh : h ≤ 2) (n : Nat) : most h n + 1 ≤ 2 ^ n := by
  induction n with
  | zero => simp [most]
  | succ n ih =>
    rw [most, pow_succ]
    have : h * most h n ≤ 2 * most h n := Nat.mul_le_mul_right _ hh
    omega

end Recursive
end Verif
