import Verif.Spec.Chance
import Mathlib.Tactic.Linarith
import Mathlib.Tactic.FieldSimp
import Mathlib.Tactic.Ring
import Mathlib.Algebra.BigOperators.Ring.Finset
import Mathlib.Algebra.Order.BigOperators.Group.Finset
/-
Lemmas on experiments (Spec/Chance.lean).
-/
namespace Verif
namespace Exp
variable {σ α β γ : Type}

/-- An experiment after another one. -/
def bind (k : α → Exp β) : Exp α → Exp β
  | ret x => k x
  | draw a b next => draw a b fun v => (next v).bind k

theorem run_bind (R : Rng σ) (k : α → Exp β) (e : Exp α) (s : σ) :
    (e.bind k).run R s = (k (e.run R s).1).run R (e.run R s).2 := by
  induction e generalizing s with
  | ret x => rfl
  | draw a b next ih => exact ih _ _

theorem mean_bind (f : β → ℚ) (k : α → Exp β) (e : Exp α) : (e.bind k).mean f = e.mean fun a => (k a).mean f := by
  induction e with
  | ret x => rfl
  | draw a b next ih => simp only [bind, mean, ih]

theorem valid_bind {k : α → Exp β} (hk : ∀ a, (k a).Valid) {e : Exp α} (he : e.Valid) : (e.bind k).Valid := by
  induction e with
  | ret x => exact hk x
  | draw a b next ih => exact ⟨he.1, fun v h1 h2 => ih v (he.2 v h1 h2)⟩

theorem size_pos {a b : Int} (h : a ≤ b) : (0 : ℚ) < b - a + 1 := by
  have : (a : ℚ) ≤ b := by exact_mod_cast h
  linarith

theorem card_Icc {a b : Int} (h : a ≤ b) : ((Finset.Icc a b).card : ℚ) = b - a + 1 := by
  have : ((Finset.Icc a b).card : Int) = b - a + 1 := by simp; omega
  exact_mod_cast this

theorem mean_const (c : ℚ) {e : Exp α} (he : e.Valid) : (e.mean fun _ => c) = c := by
  induction e with
  | ret x => rfl
  | draw a b next ih =>
    have := size_pos he.1
    simp only [mean]
    rw [Finset.sum_congr rfl (g := fun _ => c)]
    · rw [Finset.sum_const, nsmul_eq_mul, card_Icc he.1]
      field_simp
    · intro v hv
      have := Finset.mem_Icc.1 hv
      exact ih v (he.2 v this.1 this.2)

theorem mean_add (f g : α → ℚ) (e : Exp α) : (e.mean fun a => f a + g a) = e.mean f + e.mean g := by
  induction e with
  | ret x => rfl
  | draw a b next ih => simp only [mean, ih, Finset.sum_add_distrib, add_div]

theorem mean_mul (c : ℚ) (f : α → ℚ) (e : Exp α) : (e.mean fun a => c * f a) = c * e.mean f := by
  induction e with
  | ret x => rfl
  | draw a b next ih => simp only [mean, ih, ← Finset.mul_sum, mul_div_assoc]

theorem mean_le {f g : α → ℚ} (h : ∀ a, f a ≤ g a) {e : Exp α} (he : e.Valid) : e.mean f ≤ e.mean g := by
  induction e with
  | ret x => exact h x
  | draw a b next ih =>
    have := size_pos he.1
    simp only [mean]
    refine div_le_div_of_nonneg_right (Finset.sum_le_sum fun v hv => ?_) this.le
    have := Finset.mem_Icc.1 hv
    exact ih v (he.2 v this.1 this.2)

/-- A draw followed by a case distinction: the results in [a,b] up to `k` and the others. -/
theorem mean_draw_le {a b k : Int} (h1 : a ≤ k + 1) (h2 : k ≤ b) (x y : ℚ) :
    (∑ v ∈ Finset.Icc a b, if v ≤ k then x else y) = (k - a + 1) * x + (b - k) * y := by
  rw [Finset.sum_ite]
  simp only [Finset.sum_const, nsmul_eq_mul]
  have e1 : (Finset.Icc a b).filter (· ≤ k) = Finset.Icc a k := by ext v; simp; omega
  have e2 : (Finset.Icc a b).filter (fun v => ¬ v ≤ k) = Finset.Icc (k + 1) b := by ext v; simp; omega
  rw [e1, e2]
  have c1 : ((Finset.Icc a k).card : ℚ) = k - a + 1 := by
    have : ((Finset.Icc a k).card : Int) = k - a + 1 := by simp; omega
    exact_mod_cast this
  have c2 : ((Finset.Icc (k + 1) b).card : ℚ) = b - k := by
    have : ((Finset.Icc (k + 1) b).card : Int) = b - k := by simp; omega
    exact_mod_cast this
  rw [c1, c2]

end Exp

/-- `f` of the result of a normal return, else 0. -/
def val {α : Type} (f : α → ℚ) : Outcome α → ℚ
  | .ok a => f a
  | _ => 0

theorem hit_eq {α : Type} (E : α → Bool) : hit E = val fun a => if E a then 1 else 0 := by
  funext o; cases o <;> rfl

variable {α β γ : Type}

/-- The experiment of a sequence of two calls. -/
def Exp.andThen (k : α → Exp (Outcome β)) (e : Exp (Outcome α)) : Exp (Outcome β) :=
  e.bind fun o => match o with
    | .ok a => k a
    | .throws x => .ret (.throws x)
    | .ub => .ret .ub
    | .diverges => .ret .diverges

theorem mean_andThen (f : β → ℚ) (k : α → Exp (Outcome β)) (e : Exp (Outcome α)) :
    (e.andThen k).mean (val f) = e.mean (val fun a => (k a).mean (val f)) := by
  rw [Exp.andThen, Exp.mean_bind]
  congr 1
  funext o
  cases o <;> rfl

theorem Follows.bind {f : Src α} {e : Exp (Outcome α)} {g : α → Src β} {k : α → Exp (Outcome β)} (hf : Follows f e)
    (hg : ∀ a, Follows (g a) (k a)) : Follows (fun σ R s => f σ R s >>= fun p => g p.1 σ R p.2) (e.andThen k) := by
  refine ⟨Exp.valid_bind (fun o => ?_) hf.1, fun σ R s => ?_⟩
  · cases o with
    | ok a => exact (hg a).1
    | throws x => trivial
    | ub => trivial
    | diverges => trivial
  · show (f σ R s >>= fun p => g p.1 σ R p.2) = _
    rw [hf.2 σ R s, Exp.andThen, Exp.run_bind]
    generalize e.run R s = r
    obtain ⟨o, s'⟩ := r
    cases o with
    | ok a => exact (hg a).2 σ R s'
    | throws x => rfl
    | ub => rfl
    | diverges => rfl

theorem Follows.congr {f g : Src α} {e : Exp (Outcome α)} (hf : Follows f e) (h : ∀ σ R s, g σ R s = f σ R s) :
    Follows g e := ⟨hf.1, fun σ R s => (h σ R s).trans (hf.2 σ R s)⟩

/-- A function that draws nothing. -/
theorem Follows.const (o : Outcome α) : Follows (fun _ _ s => o.bind fun a => .ok (a, s)) (.ret o) :=
  ⟨trivial, fun _ _ _ => rfl⟩

theorem Follows.pure (a : α) : Follows (fun _ _ s => .ok (a, s)) (.ret (.ok a)) := ⟨trivial, fun _ _ _ => rfl⟩

theorem Follows.draw {a b : Int} (h : a ≤ b) {g : Int → Src α} {k : Int → Exp (Outcome α)} (hg : ∀ v, Follows (g v) (k v)) :
    Follows (fun σ R s => g (R.draw s a b).1 σ R (R.draw s a b).2) (.draw a b k) :=
  ⟨⟨h, fun v _ _ => (hg v).1⟩, fun σ R s => (hg _).2 σ R _⟩

/-! ### Chances are well defined -/

/-- An engine that follows a script and keeps a record of the ranges it is asked for. -/
def recorder : Rng (List Int × List (Int × Int)) where
  draw := fun s a b =>
    match s.1 with
    | [] => (a, [], (a, b) :: s.2)
    | v :: vs => (if a ≤ v ∧ v ≤ b then v else a, vs, (a, b) :: s.2)
  draw_mem := by
    intro s a b h
    obtain ⟨l, r⟩ := s
    cases l with
    | nil => simp; omega
    | cons v vs => simp only; split <;> omega

theorem recorder_cons (a b v : Int) (l : List Int) (r : List (Int × Int)) (h1 : a ≤ v) (h2 : v ≤ b) :
    recorder.draw (v :: l, r) a b = (v, l, (a, b) :: r) := by
  simp [recorder, h1, h2]

theorem recorder_draw (a b : Int) (s : List Int × List (Int × Int)) :
    ∃ v l, recorder.draw s a b = (v, l, (a, b) :: s.2) := by
  obtain ⟨l, r⟩ := s
  cases l with
  | nil => exact ⟨_, _, rfl⟩
  | cons v vs => exact ⟨_, _, rfl⟩

theorem recorder_suffix (e : Exp α) (s : List Int × List (Int × Int)) : s.2 <:+ (e.run recorder s).2.2 := by
  induction e generalizing s with
  | ret x => exact List.suffix_refl _
  | draw a b next ih =>
    obtain ⟨v, l, h⟩ := recorder_draw a b s
    have := ih v (l, (a, b) :: s.2)
    rw [Exp.run, h]
    exact (List.suffix_cons _ _).trans this

theorem recorder_first (a b : Int) (next : Int → Exp α) (s : List Int × List (Int × Int)) :
    (a, b) :: s.2 <:+ ((Exp.draw a b next).run recorder s).2.2 := by
  obtain ⟨v, l, h⟩ := recorder_draw a b s
  have := recorder_suffix (next v) (l, (a, b) :: s.2)
  rw [Exp.run, h]
  exact this

/-- The result of a call whose experiment ended with this result in this state. -/
def close {σ : Type} (r : Outcome α × σ) : Outcome (α × σ) := r.1.bind fun a => .ok (a, r.2)

theorem close_ok {σ : Type} {r : Outcome α × σ} {p : α × σ} (h : close r = .ok p) : r = (.ok p.1, p.2) := by
  obtain ⟨o, s⟩ := r
  cases o with
  | ok a => cases h; rfl
  | throws x => cases h
  | ub => cases h
  | diverges => cases h

/-- An experiment that never returns normally. -/
theorem mean_zero (f : α → ℚ) {e : Exp (Outcome α)} (he : e.Valid) (rec : List (Int × Int))
    (h : ∀ l p, close (e.run recorder (l, rec)) ≠ .ok p) : e.mean (val f) = 0 := by
  induction e generalizing rec with
  | ret o =>
    cases o with
    | ok a => exact absurd rfl (h [] _)
    | throws x => rfl
    | ub => rfl
    | diverges => rfl
  | draw a b next ih =>
    simp only [Exp.mean]
    rw [Finset.sum_eq_zero, zero_div]
    intro v hv
    have hv := Finset.mem_Icc.1 hv
    refine ih v (he.2 v hv.1 hv.2) ((a, b) :: rec) fun l p hp => ?_
    refine h (v :: l) p ?_
    rw [Exp.run, recorder_cons a b v l rec hv.1 hv.2]
    exact hp

theorem mean_unique (f : α → ℚ) {e e' : Exp (Outcome α)} (he : e.Valid) (he' : e'.Valid) (rec : List (Int × Int))
    (h : ∀ l, close (e.run recorder (l, rec)) = close (e'.run recorder (l, rec))) : e.mean (val f) = e'.mean (val f) := by
  induction e generalizing e' rec with
  | ret o =>
    cases e' with
    | ret o' =>
      have := h []
      cases o <;> cases o' <;> simp [close, Exp.run, Outcome.bind] at this <;> simp [Exp.mean, val, this]
    | draw a b next =>
      cases o with
      | ok x =>
        have h1 := (h []).symm
        have h2 := congrArg (fun r => r.2.2) (close_ok h1)
        have h3 := recorder_first a b next ([], rec)
        dsimp only at h2
        rw [h2] at h3
        simpa [Exp.run] using h3.length_le
      | throws x => exact (mean_zero f he' rec fun l p hp => by rw [← h l] at hp; cases hp).symm
      | ub => exact (mean_zero f he' rec fun l p hp => by rw [← h l] at hp; cases hp).symm
      | diverges => exact (mean_zero f he' rec fun l p hp => by rw [← h l] at hp; cases hp).symm
  | draw a b next ih =>
    cases e' with
    | ret o =>
      cases o with
      | ok x =>
        have h2 := congrArg (fun r => r.2.2) (close_ok (h []))
        have h3 := recorder_first a b next ([], rec)
        dsimp only at h2
        rw [h2] at h3
        simpa [Exp.run] using h3.length_le
      | throws x => exact mean_zero f he rec fun l p hp => by rw [h l] at hp; cases hp
      | ub => exact mean_zero f he rec fun l p hp => by rw [h l] at hp; cases hp
      | diverges => exact mean_zero f he rec fun l p hp => by rw [h l] at hp; cases hp
    | draw a' b' next' =>
      by_cases hab : (a, b) = (a', b')
      · cases hab
        simp only [Exp.mean]
        congr 1
        refine Finset.sum_congr rfl fun v hv => ?_
        have hv := Finset.mem_Icc.1 hv
        refine ih v (he.2 v hv.1 hv.2) (he'.2 v hv.1 hv.2) ((a, b) :: rec) fun l => ?_
        have := h (v :: l)
        simp only [Exp.run, recorder_cons a b v l rec hv.1 hv.2] at this
        exact this
      · have hno : ∀ l p, close ((Exp.draw a b next).run recorder (l, rec)) ≠ .ok p := by
          intro l p hp
          have hp' := hp
          rw [h l] at hp'
          have h1 := recorder_first a b next (l, rec)
          have h2 := recorder_first a' b' next' (l, rec)
          rw [close_ok hp] at h1
          rw [close_ok hp'] at h2
          have := (List.suffix_of_suffix_length_le h1 h2 (by simp)).eq_of_length (by simp)
          simp only [List.cons.injEq, and_true] at this
          exact hab this
        rw [mean_zero f he rec hno, mean_zero f he' rec fun l p => by rw [← h l]; exact hno l p]

/-- The chance of an event is well defined. -/
theorem chance_unique {f : Src α} {E : α → Bool} {p q : ℚ} (h : Chance f E p) (h' : Chance f E q) : p = q := by
  obtain ⟨e, he, rfl⟩ := h
  obtain ⟨e', he', rfl⟩ := h'
  rw [hit_eq]
  exact mean_unique _ he.1 he'.1 [] fun l => by
    have h1 := he.2 _ recorder (l, [])
    have h2 := he'.2 _ recorder (l, [])
    exact h1.symm.trans h2

/-- So is the limit. -/
theorem chanceLimit_unique {f : Nat → Src α} {E : α → Bool} {p q : ℚ} (h : ChanceLimit f E p) (h' : ChanceLimit f E q) :
    p = q := by
  by_contra hne
  have hpos : 0 < |p - q| / 2 := by
    have := abs_pos.2 (sub_ne_zero.2 hne)
    linarith
  obtain ⟨N, hN⟩ := h _ hpos
  obtain ⟨N', hN'⟩ := h' _ hpos
  obtain ⟨r, hr, h1⟩ := hN (max N N') (le_max_left _ _)
  obtain ⟨r', hr', h2⟩ := hN' (max N N') (le_max_right _ _)
  obtain rfl := chance_unique hr hr'
  have : |p - q| ≤ |r - p| + |r - q| := by
    have := abs_sub_le p r q
    rw [abs_sub_comm p r] at this
    exact this
  linarith

end Verif
