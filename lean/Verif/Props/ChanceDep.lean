import Verif.Props.ChanceComb
import Verif.Lemmas.ChanceSet
import Verif.Props.Combinator
/-
C147: how likely the results of generators are that depend on generated values (Spec/Chance.lean).
-/
namespace Verif
open Shr Random ListLike Comb Integral IntType
variable {α β γ : Type}

/-! ### What an experiment can return -/

/-- Every result of the experiment, for draws that are in their ranges, satisfies `P`. -/
def Exp.SatIn (P : α → Prop) : Exp α → Prop
  | .ret x => P x
  | .draw a b next => ∀ v, a ≤ v → v ≤ b → (next v).SatIn P

theorem Exp.mean_congrIn {P : α → Prop} {f g : α → ℚ} (h : ∀ a, P a → f a = g a) {e : Exp α} (he : e.SatIn P) :
    e.mean f = e.mean g := by
  induction e with
  | ret x => exact h x he
  | draw a b next ih =>
    simp only [Exp.mean]
    rw [Finset.sum_congr rfl fun v hv => ih v (he v (Finset.mem_Icc.1 hv).1 (Finset.mem_Icc.1 hv).2)]

theorem run_all (e : Exp α) (rec : List (Int × Int)) : e.SatIn fun x => ∃ l, (e.run recorder (l, rec)).1 = x := by
  suffices h : ∀ (P : α → Prop) (rec : List (Int × Int)), (∀ l, P (e.run recorder (l, rec)).1) → e.SatIn P from
    h _ rec fun l => ⟨l, rfl⟩
  intro P
  induction e with
  | ret x => exact fun _ h => h []
  | draw a b next ih =>
    refine fun rec h v h1 h2 => ih v ((a, b) :: rec) fun l => ?_
    have := h (v :: l)
    rwa [Exp.run, recorder_cons a b v l rec h1 h2] at this

/-- What a function can return. -/
def Src.Makes (f : Src α) (x : α) : Prop := ∃ (σ : Type) (R : Rng σ) (s s' : σ), f σ R s = .ok (x, s')

theorem Follows.made {f : Src α} {e : Exp (Outcome α)} (h : Follows f e) : e.SatIn fun o => ∀ x, o = .ok x → f.Makes x := by
  have := run_all e []
  have mono : ∀ (P Q : Outcome α → Prop) (e : Exp (Outcome α)), (∀ o, P o → Q o) → e.SatIn P → e.SatIn Q := by
    intro P Q e hpq
    induction e with
    | ret x => exact hpq x
    | draw a b next ih => exact fun hp v h1 h2 => ih v (hp v h1 h2)
  refine mono _ _ e ?_ this
  rintro o ⟨l, rfl⟩ x hx
  exact ⟨_, recorder, (l, []), _, by rw [h.2, hx]; rfl⟩

/-- The experiment of looking whether there are shrinks. -/
def peekExp (e2 : α → Exp (Outcome (Shr β))) : List (Shr α) → Exp (Outcome Unit)
  | [] => .ret (.ok ())
  | c :: _ => (e2 c.value).andThen fun _ => .ret (.ok ())

theorem mean_peek {e2 : α → Exp (Outcome (Shr β))} {ss : List (Shr α)}
    (h : ∀ c ∈ ss.head?, (e2 c.value).mean (hit fun _ => true) = 1) (x : γ) (f : γ → ℚ) :
    ((peekExp e2 ss).andThen fun _ => .ret (.ok x)).mean (val f) = f x := by
  cases ss with
  | nil => rfl
  | cons c cs =>
    have := mean_and (e2 c.value) (fun _ => true) (f x)
    rw [h c rfl, mul_one] at this
    rw [mean_andThen, peekExp, mean_andThen, ← this]
    simp [Exp.mean, val]

/-- Both values of a dependent generation, without their shrinks. -/
theorem follows_dependent {g1 : Src (Shr α)} {e1 : Exp (Outcome (Shr α))} (h1 : Follows g1 e1) {g2 : α → Src (Shr β)}
    {e2 : α → Exp (Outcome (Shr β))} (h2 : ∀ v, Follows (g2 v) (e2 v)) (o : ∀ σ : Type, Rng σ → σ → List Nat → σ)
    (f : α → β → γ) (k : α × Shr β → Shr γ) (hk : ∀ p, (k p).value = f p.1 p.2.value) (res : Src (Shr γ))
    (hres : ∀ σ R s, res σ R s = (dependent (g1 σ R) (fun v => g2 v σ R) (o σ R s) s).bind fun i =>
      .ok (i.1.flatMap k, i.2)) :
    Follows (valueOnly res) (e1.andThen fun t => (e2 t.value).andThen fun u => (peekExp e2 t.shrinks).andThen fun _ =>
      .ret (.ok (f t.value u.value))) := by
  have hp : ∀ ss : List (Shr α), Follows (fun σ R s => (peek (fun v => g2 v σ R) ss s).bind fun s => .ok ((), s)) (peekExp e2 ss) := by
    intro ss
    cases ss with
    | nil => exact Follows.pure ()
    | cons c cs =>
      refine ((h2 c.value).bind fun _ => Follows.pure ()).congr fun σ R s => ?_
      rw [peek]
      cases g2 c.value σ R s <;> rfl
  refine (h1.bind fun t => (h2 t.value).bind fun u => (hp t.shrinks).bind fun _ => Follows.pure (f t.value u.value)).congr
    fun σ R s => ?_
  rw [valueOnly, hres, dependent]
  cases g1 σ R s with
  | ok r =>
    obtain ⟨t, s1⟩ := r
    simp only [Outcome.ok_bind]
    cases g2 t.value σ R s1 with
    | ok r2 =>
      obtain ⟨u, s2⟩ := r2
      simp only [Outcome.ok_bind, Outcome.pure_eq]
      cases peek (fun v => g2 v σ R) t.shrinks s2 with
      | ok s3 => simp [Outcome.bind, Bind.bind, hk]
      | throws x => rfl
      | ub => rfl
      | diverges => rfl
    | throws x => rfl
    | ub => rfl
    | diverges => rfl
  | throws x => rfl
  | ub => rfl
  | diverges => rfl

/-- If second values for first shrinks are always generated, looking at them does not matter. -/
theorem mean_look {g1 : Src (Shr α)} {e1 : Exp (Outcome (Shr α))} (h1 : Follows g1 e1) (e2 : α → Exp (Outcome (Shr β)))
    (h : ∀ t, g1.Makes t → ∀ c ∈ t.shrinks.head?, (e2 c.value).mean (hit fun _ => true) = 1) (f : α → β → γ) (G : γ → Bool) :
    (e1.andThen fun t => (e2 t.value).andThen fun u => (peekExp e2 t.shrinks).andThen fun _ =>
      .ret (.ok (f t.value u.value))).mean (hit G) =
    (e1.andThen fun t => (e2 t.value).andThen fun u => .ret (.ok (f t.value u.value))).mean (hit G) := by
  rw [hit_eq, mean_andThen, mean_andThen]
  refine Exp.mean_congrIn (fun o ho => ?_) h1.made
  cases o with
  | ok t =>
    simp only [val]
    rw [mean_andThen, mean_andThen]
    congr 2
    funext u
    exact mean_peek (h t (ho t rfl)) _ _
  | throws x => rfl
  | ub => rfl
  | diverges => rfl

theorem mean_dependent (e1 : Exp (Outcome (Shr α))) (e2 : α → Exp (Outcome (Shr β))) (f : α → β → γ) (G : γ → Bool)
    (E : α → Bool) (F : β → Bool) (hG : ∀ a b, G (f a b) = (E a && F b)) (q : ℚ)
    (hq : ∀ v, E v = true → (e2 v).mean (hit fun t => F t.value) = q) :
    (e1.andThen fun t => (e2 t.value).andThen fun u => .ret (.ok (f t.value u.value))).mean (hit G) =
      q * e1.mean (hit fun t => E t.value) := by
  rw [hit_eq, mean_andThen, ← mean_and]
  congr 2
  funext t
  rw [mean_andThen]
  by_cases hE : E t.value = true
  · rw [if_pos hE, ← hq _ hE, hit_eq]
    simp only [Exp.mean, val, hG, hE, Bool.true_and]
  · rw [if_neg hE]
    simp only [Exp.mean, val, hG, hE, Bool.false_and]
    simpa using mean_and (e2 t.value) (fun _ => true) 0

/-- C147. `dependency`, `pairWith`: the probability that the first value satisfies a condition and the second one
another is the probability of the first times that of the second, given such a first value (if a second value is always
generated for the first shrink of a first value: the code does that, too). -/
theorem C147_dependency (g1 : Src (Shr α)) (g2 : α → Src (Shr β)) (o : ∀ σ : Type, Rng σ → σ → List Nat → σ)
    (E : α → Bool) (F : β → Bool) (p q : ℚ) (h1 : Chance g1 (fun t => E t.value) p)
    (h2 : ∀ v, E v = true → Chance (g2 v) (fun t => F t.value) q) (h3 : ∀ v, ∃ E p, Chance (g2 v) E p)
    (h4 : ∀ t, Src.Makes g1 t → ∀ c ∈ t.shrinks.head?, Chance (g2 c.value) (fun _ => true) 1) :
    Chance (valueOnly fun σ R s => dependency (g1 σ R) (fun v => g2 v σ R) (o σ R s) s) (fun x => E x.1 && F x.2) (p * q) := by
  obtain ⟨e1, he1, rfl⟩ := h1
  choose _ _ e2 he2 _ using h3
  refine ⟨_, follows_dependent he1 he2 o (fun a b => (a, b)) (fun p => leaf (p.1, p.2.value)) (fun _ => rfl) _
    (fun _ _ _ => rfl), ?_⟩
  rw [mean_look he1 e2 (fun t ht c hc => chance_unique ⟨_, he2 _, rfl⟩ (h4 t ht c hc)) fun a b => (a, b)]
  rw [mean_dependent e1 e2 _ _ E F (fun _ _ => rfl) q fun v hv => (chance_unique (h2 v hv) ⟨_, he2 v, rfl⟩).symm, mul_comm]

/-- A die, and a number from 1 to what it shows: a six and then a number below 4 in 1 of 12 cases. -/
example (o : ∀ σ : Type, Rng σ → σ → List Nat → σ) :
    Chance (valueOnly fun σ R s => dependency (die σ R) (fun v s => interval R i32 1 (if 1 ≤ v ∧ v ≤ 6 then v else 6) s) (o σ R s) s)
      (fun x => decide (x.1 = 6) && decide (x.2 < 4)) (1 / 12) := by
  have hc : ∀ (v : Int) (E : Int → Bool), Chance (fun _ R s => interval R i32 1 (if 1 ≤ v ∧ v ≤ 6 then v else 6) s)
      (fun t => E t.value) (((Finset.Icc 1 (if 1 ≤ v ∧ v ≤ 6 then v else 6)).filter fun v => E v).card /
        ((if 1 ≤ v ∧ v ≤ 6 then v else 6 : Int) - (1 : Int) + 1)) := fun v E =>
    C138_interval i32 (by decide) 1 (if 1 ≤ v ∧ v ≤ 6 then v else 6) (by decide) (by split_ifs <;> omega)
      (by have : i32.hi = 2147483647 := rfl
          split_ifs <;> omega)
      (fun h => absurd h.1 (by decide)) E
  have hone : ∀ v : Int, Chance (fun _ R s => interval R i32 1 (if 1 ≤ v ∧ v ≤ 6 then v else 6) s) (fun _ => true) 1 := by
    intro v
    have := hc v fun _ => true
    have e : ((Finset.Icc 1 (if 1 ≤ v ∧ v ≤ 6 then v else 6)).filter fun _ => true = true).card =
        (if 1 ≤ v ∧ v ≤ 6 then v else 6).toNat := by simp
    rw [e] at this
    have pos : 0 < (if 1 ≤ v ∧ v ≤ 6 then v else 6) := by split_ifs <;> omega
    generalize (if 1 ≤ v ∧ v ≤ 6 then v else 6) = w at this pos ⊢
    have e2 : ((w.toNat : Nat) : ℚ) / ((w : ℚ) - ((1 : Int) : ℚ) + 1) = 1 := by
      have : ((w.toNat : Nat) : ℚ) = (w : ℚ) := by
        have h : ((w.toNat : Nat) : Int) = w := Int.toNat_of_nonneg (by omega)
        exact_mod_cast h
      rw [this]
      push_cast
      rw [sub_add_cancel]
      exact div_self (by exact_mod_cast pos.ne')
    rw [e2] at this
    exact this
  have := C147_dependency die (fun v _ R s => interval R i32 1 (if 1 ≤ v ∧ v ≤ 6 then v else 6) s) o
    (fun v => decide (v = 6)) (fun v => decide (v < 4)) _ (3 / 6) (die_chance (fun v => decide (v = 6)) 1 (by decide))
    (fun v hv => by
      obtain rfl : v = 6 := by simpa using hv
      have := hc 6 fun v => decide (v < 4)
      rw [show ((Finset.Icc (1 : Int) (if (1 : Int) ≤ 6 ∧ (6 : Int) ≤ 6 then 6 else 6)).filter fun v => decide (v < 4) = true).card = 3 by decide] at this
      norm_num at this ⊢
      exact this)
    (fun v => ⟨_, _, hc v fun _ => true⟩)
    (fun _ _ c _ => hone c.value)
  norm_num at this ⊢
  exact this

/-- C147. `chain`, `tupleWith`: the same for a component appended to a tuple. -/
theorem C147_chain (cat : α → β → γ) (g1 : Src (Shr α)) (g2 : α → Src (Shr β)) (o : ∀ σ : Type, Rng σ → σ → List Nat → σ)
    (G : γ → Bool) (E : α → Bool) (F : β → Bool) (hG : ∀ a b, G (cat a b) = (E a && F b)) (p q : ℚ)
    (h1 : Chance g1 (fun t => E t.value) p)
    (h2 : ∀ v, E v = true → Chance (g2 v) (fun t => F t.value) q) (h3 : ∀ v, ∃ E p, Chance (g2 v) E p)
    (h4 : ∀ t, Src.Makes g1 t → ∀ c ∈ t.shrinks.head?, Chance (g2 c.value) (fun _ => true) 1) :
    Chance (valueOnly fun σ R s => chain cat (g1 σ R) (fun v => g2 v σ R) (o σ R s) s) G (p * q) := by
  obtain ⟨e1, he1, rfl⟩ := h1
  choose _ _ e2 he2 _ using h3
  refine ⟨_, follows_dependent he1 he2 o cat (fun p => leaf (cat p.1 p.2.value)) (fun _ => rfl) _ (fun _ _ _ => rfl), ?_⟩
  rw [mean_look he1 e2 fun t ht c hc => chance_unique ⟨_, he2 _, rfl⟩ (h4 t ht c hc)]
  rw [mean_dependent e1 e2 _ _ E F hG q fun v hv => (chance_unique (h2 v hv) ⟨_, he2 v, rfl⟩).symm, mul_comm]

/-- Two dice and a coin that is thrown unless both show a six. -/
example (o : ∀ σ : Type, Rng σ → σ → List Nat → σ) :
    Chance (valueOnly fun σ R s => chain (fun (p : Int × Int) (b : Bool) => (p.1, p.2, b))
      (fun s => PairTuple.pairOf true (die σ R) (die σ R) s) (fun v s => if v = (6, 6) then .ok (leaf true, s) else arbiBool R half s)
      (o σ R s) s) (fun x => (decide (x.1 = 6) && decide (x.2.1 = 6)) && x.2.2) (1 / 36) := by
  have := C147_chain (fun (p : Int × Int) (b : Bool) => (p.1, p.2, b)) (fun σ R s => PairTuple.pairOf true (die σ R) (die σ R) s)
    (fun v _ R s => if v = (6, 6) then .ok (leaf true, s) else arbiBool R half s) o
    (fun x => (decide (x.1 = 6) && decide (x.2.1 = 6)) && x.2.2) (fun v => decide (v.1 = 6) && decide (v.2 = 6)) (fun b => b)
    (fun _ _ => rfl) _ 1
    (C141_pair true die die (fun v => decide (v = 6)) (fun v => decide (v = 6)) _ _
      (die_chance (fun v => decide (v = 6)) 1 (by decide)) (die_chance (fun v => decide (v = 6)) 1 (by decide)))
    (fun v hv => by
      have hv' : v = (6, 6) := by
        simp only [Bool.and_eq_true, decide_eq_true_eq] at hv
        exact Prod.ext hv.1 hv.2
      simp only [if_pos hv']
      exact ⟨_, Follows.pure (leaf true), rfl⟩)
    (fun v => by
      by_cases hv : v = (6, 6)
      · simp only [if_pos hv]
        exact ⟨fun _ => true, _, _, Follows.pure (leaf true), rfl⟩
      · simp only [if_neg hv]
        exact ⟨_, _, C139_violated.1⟩)
    (fun _ _ c _ => by
      by_cases hv : c.value = (6, 6)
      · simp only [if_pos hv]
        exact ⟨_, Follows.pure (leaf true), rfl⟩
      · simp only [if_neg hv]
        refine ⟨_, follows_bool (2 ^ 63), ?_⟩
        have := Exp.mean_const (e := .draw 0 (2 ^ 64 - 1) fun w => .ret (Outcome.ok (shrinkBool (decide (w ≤ (2 ^ 63 : Nat)))))) 1
          (follows_bool (2 ^ 63)).1
        exact this)
  norm_num at this ⊢
  exact this

/-- C147. `derive`, `flatMap`: if the first values fall into finitely many cases, the probability of a result is the sum,
over the cases, of the probability of the case times that of the result in this case. -/
theorem C147_derive {n : Nat} (g1 : Src (Shr α)) (g2 : α → Src (Shr β)) (o : ∀ σ : Type, Rng σ → σ → List Nat → σ)
    (K : α → Fin n) (p q : Fin n → ℚ) (F : β → Bool) (h0 : ∃ E p, Chance g1 E p)
    (h1 : ∀ i, Chance g1 (fun t => decide (K t.value = i)) (p i))
    (h2 : ∀ v, Chance (g2 v) (fun t => F t.value) (q (K v)))
    (h4 : ∀ t, Src.Makes g1 t → ∀ c ∈ t.shrinks.head?, Chance (g2 c.value) (fun _ => true) 1) :
    Chance (valueOnly fun σ R s => derive (g1 σ R) (fun v => g2 v σ R) (o σ R s) s) F (∑ i, p i * q i) := by
  obtain ⟨_, _, e1, he1, -⟩ := h0
  choose e2 he2 hm using h2
  refine ⟨_, follows_dependent he1 he2 o (fun _ b => b) (fun p => p.2) (fun _ => rfl) _ (fun _ _ _ => rfl), ?_⟩
  rw [mean_look he1 e2 (fun t ht c hc => chance_unique ⟨_, he2 _, rfl⟩ (h4 t ht c hc)) fun _ b => b]
  rw [hit_eq, mean_andThen]
  have e : (val fun t : Shr α => ((e2 t.value).andThen fun u => .ret (.ok u.value)).mean (val fun b => if F b then 1 else 0)) =
      fun o => ((List.finRange n).map fun i => q i * hit (fun t => decide (K t.value = i)) o).sum := by
    funext o
    cases o with
    | ok t =>
      simp only [val, mean_andThen]
      have := hm t.value
      rw [hit_eq] at this
      simp only [Exp.mean, val] at this ⊢
      rw [this]
      have hs := sum_single (List.finRange n) (List.nodup_finRange n) q (K t.value)
      rw [if_pos (List.mem_finRange _)] at hs
      exact hs.symm
    | throws x => simp [val, hit]
    | ub => simp [val, hit]
    | diverges => simp [val, hit]
  rw [e, mean_list_sum, ← Fin.sum_univ_def]
  refine Finset.sum_congr rfl fun i _ => ?_
  rw [Exp.mean_mul, mul_comm]
  congr 1
  exact chance_unique ⟨e1, he1, rfl⟩ (h1 i)

/-- A die decides: a six counts as it is, otherwise a coin is thrown for a six or a one. -/
example (o : ∀ σ : Type, Rng σ → σ → List Nat → σ) :
    Chance (valueOnly fun σ R s => derive (die σ R)
      (fun v s => if v = 6 then .ok (leaf v, s) else interval R i32 6 7 s) (o σ R s) s) (fun x => decide (x = 6)) (7 / 12) := by
  have := C147_derive (n := 2) die (fun v _ R s => if v = 6 then .ok (leaf v, s) else interval R i32 6 7 s) o
    (fun v => if v = 6 then 0 else 1) (fun i => if i = 0 then (1 : Nat) / 6 else (5 : Nat) / 6) (fun i => if i = 0 then 1 else 1 / 2)
    (fun x => decide (x = 6)) ⟨_, _, die_returns⟩
    (fun i => by
      match i with
      | 0 =>
        have := die_chance (fun v => decide ((if v = 6 then (0 : Fin 2) else 1) = 0)) 1 (by decide)
        simpa using this
      | 1 =>
        have := die_chance (fun v => decide ((if v = 6 then (0 : Fin 2) else 1) = 1)) 5 (by decide)
        simpa using this)
    (fun v => by
      by_cases hv : v = 6
      · simp only [if_pos hv]
        exact ⟨_, Follows.pure (leaf v), by simp [Exp.mean, hit, hv]⟩
      · simp only [if_neg hv]
        have := C138_interval i32 (by decide) 6 7 (by decide) (by decide) (by decide) (by decide) (fun x => decide (x = 6))
        rw [show ((Finset.Icc (6 : Int) 7).filter fun v => decide (v = 6) = true).card = 1 by decide] at this
        norm_num at this ⊢
        exact this)
    (fun _ _ c _ => by
      by_cases hv : c.value = 6
      · simp only [if_pos hv]
        exact ⟨_, Follows.pure (leaf c.value), rfl⟩
      · simp only [if_neg hv]
        have := C138_interval i32 (by decide) 6 7 (by decide) (by decide) (by decide) (by decide) (fun _ => true)
        rw [show ((Finset.Icc (6 : Int) 7).filter fun _ => true = true).card = 2 by decide] at this
        norm_num at this ⊢
        exact this)
  simp only [Fin.sum_univ_two] at this
  norm_num at this ⊢
  exact this

/-! ### accumulate -/

/-- The experiment of the later elements. -/
def steppersExp (e2 : α → Exp (Outcome (Shr α))) : Nat → Shr α → Exp (Outcome (List (Shr α)))
  | 0, _ => .ret (.ok [])
  | n + 1, t => (e2 t.value).andThen fun u => (steppersExp e2 n u).andThen fun us => .ret (.ok (u :: us))

theorem follows_steppers {g2 : α → Src (Shr α)} {e2 : α → Exp (Outcome (Shr α))} (h2 : ∀ v, Follows (g2 v) (e2 v)) (n : Nat)
    (t : Shr α) : Follows (fun σ R s => steppers (fun v => g2 v σ R) n t s) (steppersExp e2 n t) := by
  induction n generalizing t with
  | zero => exact Follows.pure []
  | succ n ih => exact (h2 t.value).bind fun u => (ih u).bind fun us => Follows.pure (u :: us)

theorem sat_steppers (e2 : α → Exp (Outcome (Shr α))) (n : Nat) (t : Shr α) :
    (steppersExp e2 n t).Sat fun o => ∀ xs, o = .ok xs → xs.length = n := by
  induction n generalizing t with
  | zero => rintro xs ⟨⟩; rfl
  | succ n ih =>
    refine Exp.sat_bind (Exp.sat_true _) fun o _ => ?_
    cases o with
    | ok x =>
      refine Exp.sat_bind (ih x) fun o' ho => ?_
      cases o' with
      | ok xs =>
        rintro ys ⟨⟩
        simp [ho xs rfl]
      | throws x => rintro ys ⟨⟩
      | ub => rintro ys ⟨⟩
      | diverges => rintro ys ⟨⟩
    | throws x => rintro ys ⟨⟩
    | ub => rintro ys ⟨⟩
    | diverges => rintro ys ⟨⟩

theorem mean_steppers [DecidableEq α] (e2 : α → Exp (Outcome (Shr α))) (x : α) (rest : List α) (ps : List ℚ)
    (hps : List.Forall₂ (fun (y : α × α) p => (e2 y.1).mean (hit fun t => decide (t.value = y.2)) = p)
      ((x :: rest).zip rest) ps) (t : Shr α) (ht : t.value = x) :
    (steppersExp e2 rest.length t).mean (hit fun us => decide (us.map Shr.value = rest)) = ps.prod := by
  induction rest generalizing x t ps with
  | nil => cases hps; simp [steppersExp, Exp.mean, hit]
  | cons y rest ih =>
    cases hps with
    | cons hp hps =>
      rename_i p ps
      rw [List.length_cons, steppersExp, hit_eq, mean_andThen, List.prod_cons, ← hp, mul_comm, ht]
      dsimp only
      rw [← mean_and]
      congr 2
      funext u
      rw [mean_andThen]
      by_cases hu : u.value = y
      · have := ih y ps hps u hu
        rw [hit_eq] at this
        rw [if_pos (by simpa using hu), ← this]
        simp [Exp.mean, val, hu]
      · rw [if_neg (by simpa using hu)]
        simp only [Exp.mean, val, List.map_cons, List.cons.injEq, hu, false_and, decide_false]
        simpa using mean_and (steppersExp e2 rest.length u) (fun _ => true) 0

/-- The list that is made of the elements. -/
def accList (minSize : Nat) (ts : List (Shr α)) : Outcome (Shr (List α)) :=
  (listLikeLength ts minSize).bind fun shr => .ok ((shr.andThen shrinkLast).map fun v => v.map Shr.value)

theorem accList_value {minSize : Nat} {ts : List (Shr α)} {t : Shr (List α)} (h : accList minSize ts = .ok t) :
    t.value = ts.map Shr.value := by
  unfold accList listLikeLength at h
  split at h
  · cases h
  · next hl =>
    simp only [Outcome.bind, Outcome.ok.injEq] at h
    rw [← h, value_map, value_andThen, value_map, sizeRange, value_map, BinSearch.bsNat_value]
    rw [List.take_of_length_le (by omega)]

theorem accList_ok {minSize : Nat} {ts : List (Shr α)} (h : minSize ≤ ts.length) : ∃ t, accList minSize ts = .ok t := by
  unfold accList listLikeLength
  rw [if_neg (by omega)]
  exact ⟨_, rfl⟩

/-- The experiment for a given size. -/
def accExp (e1 : Exp (Outcome (Shr α))) (e2 : α → Exp (Outcome (Shr α))) (minSize size : Nat) : Exp (Outcome (Shr (List α))) :=
  if size = 0 then .ret (.ok (leaf []))
  else e1.andThen fun t => (steppersExp e2 (size - 1) t).andThen fun ts => .ret (accList minSize (t :: ts))

theorem follows_acc {g1 : Src (Shr α)} {e1 : Exp (Outcome (Shr α))} (h1 : Follows g1 e1) {g2 : α → Src (Shr α)}
    {e2 : α → Exp (Outcome (Shr α))} (h2 : ∀ v, Follows (g2 v) (e2 v)) (minSize size : Nat) :
    Follows (fun σ R s => accumulateSized (g1 σ R) (fun v => g2 v σ R) minSize size s) (accExp e1 e2 minSize size) := by
  unfold accumulateSized accExp
  by_cases h : size = 0
  · simp only [if_pos h]
    exact Follows.pure _
  · simp only [if_neg h]
    refine (h1.bind fun t => (follows_steppers h2 (size - 1) t).bind fun ts => Follows.const (accList minSize (t :: ts))).congr
      fun σ R s => ?_
    cases g1 σ R s with
    | ok r =>
      obtain ⟨t, s1⟩ := r
      simp only [Outcome.ok_bind]
      cases steppers (fun v => g2 v σ R) (size - 1) t s1 with
      | ok r2 =>
        obtain ⟨ts, s2⟩ := r2
        simp only [Outcome.ok_bind, accList]
        cases listLikeLength (t :: ts) minSize <;> rfl
      | throws x => rfl
      | ub => rfl
      | diverges => rfl
    | throws x => rfl
    | ub => rfl
    | diverges => rfl

/-- Results of another size. -/
theorem mean_acc_zero (e1 : Exp (Outcome (Shr α))) (e2 : α → Exp (Outcome (Shr α))) (minSize size : Nat) (F : List α → Bool)
    (n : Nat) (hF : ∀ l, F l = true → l.length = n) (h : size ≠ n) :
    (accExp e1 e2 minSize size).mean (hit fun t => F t.value) = 0 := by
  have hF' : ∀ l, l.length ≠ n → F l = false := fun l hl => by
    by_contra hc
    exact hl (hF l (by simpa using hc))
  unfold accExp
  split
  · next h0 => simp [Exp.mean, hit, hF' [] (by simp; omega)]
  · next h0 =>
    rw [hit_eq, mean_andThen]
    have : ∀ t : Shr α, ((steppersExp e2 (size - 1) t).andThen fun ts => .ret (accList minSize (t :: ts))).mean
        (val fun t : Shr (List α) => if F t.value then 1 else 0) = 0 := by
      intro t
      rw [mean_andThen]
      have h0' := mean_and (steppersExp e2 (size - 1) t) (fun _ => true) 0
      simp only [if_true, zero_mul] at h0'
      refine Eq.trans ?_ h0'
      refine Exp.mean_congr (fun o ho => ?_) (sat_steppers e2 (size - 1) t)
      cases o with
      | ok ts =>
        have hl := ho ts rfl
        simp only [val, Exp.mean]
        cases hr : accList minSize (t :: ts) with
        | ok r =>
          have := accList_value hr
          simp only
          rw [hF' _ (by rw [this]; simp; omega)]
          rfl
        | throws x => rfl
        | ub => rfl
        | diverges => rfl
      | throws x => rfl
      | ub => rfl
      | diverges => rfl
    simp only [this]
    simpa using mean_and e1 (fun _ => true) 0

/-- Lists of every size are generated, and have this size, if the generators of their elements always return. -/
theorem mean_acc_one {e1 : Exp (Outcome (Shr α))} {e2 : α → Exp (Outcome (Shr α))} (hm1 : e1.mean (hit fun _ => true) = 1)
    (hm2 : ∀ v, (e2 v).mean (hit fun _ => true) = 1) (minSize n : Nat) (hn1 : minSize ≤ n) :
    (accExp e1 e2 minSize n).mean (hit fun t => decide (t.value.length = n)) = 1 := by
  have hst : ∀ k t, (steppersExp e2 k t).mean (hit fun _ => true) = 1 := by
    intro k
    induction k with
    | zero => intro t; rfl
    | succ k ih =>
      intro t
      rw [steppersExp, hit_eq, mean_andThen]
      refine Eq.trans ?_ (hm2 t.value)
      rw [hit_eq]
      congr 2
      funext u
      rw [mean_andThen]
      refine Eq.trans ?_ (ih u)
      rw [hit_eq]
      rfl
  unfold accExp
  split
  · next h0 => simp [Exp.mean, hit, h0]
  · next h0 =>
    rw [hit_eq, mean_andThen]
    refine Eq.trans ?_ hm1
    rw [hit_eq]
    congr 2
    funext t
    rw [mean_andThen]
    simp only [if_true]
    refine Eq.trans ?_ (hst (n - 1) t)
    rw [hit_eq]
    refine Exp.mean_congr (fun o ho => ?_) (sat_steppers e2 (n - 1) t)
    cases o with
    | ok ts =>
      have hl := ho ts rfl
      obtain ⟨r, hr⟩ := accList_ok (minSize := minSize) (ts := t :: ts) (by simp; omega)
      simp only [val, Exp.mean, hr, accList_value hr]
      rw [if_pos (by simp; omega)]
      rfl
    | throws x => rfl
    | ub => rfl
    | diverges => rfl

/-- An event of lists of size `n` has the probability it has among the lists of this size, divided by the number of
sizes. -/
theorem chance_accumulate {g1 : Src (Shr α)} {e1 : Exp (Outcome (Shr α))} (h1 : Follows g1 e1) {g2 : α → Src (Shr α)}
    {e2 : α → Exp (Outcome (Shr α))} (h2 : ∀ v, Follows (g2 v) (e2 v)) (o : ∀ σ : Type, Rng σ → σ → List Nat → σ)
    (minSize maxSize n : Nat) (hmax : maxSize < 2 ^ 64 - 1) (hn1 : minSize ≤ n) (hn2 : n ≤ maxSize)
    (F : List α → Bool) (hF : ∀ l, F l = true → l.length = n) (hm1 : e1.mean (hit fun _ => true) = 1)
    (hm2 : ∀ v, (e2 v).mean (hit fun _ => true) = 1) :
    Chance (valueOnly fun σ R s => accumulate R (g1 σ R) (fun v => g2 v σ R) minSize maxSize (o σ R s) s) F
      ((accExp e1 e2 minSize n).mean (hit fun t => F t.value) / (maxSize - minSize + 1)) := by
  have hlo : u64.lo = 0 := by decide
  have hhi : u64.hi = 2 ^ 64 - 1 := by decide
  have hi : ∀ E : Int → Bool, Chance (fun _ R s => interval R u64 minSize maxSize s) (fun t => E t.value)
      (((Finset.Icc (minSize : Int) maxSize).filter fun v => E v).card / ((maxSize : Int) - (minSize : Int) + 1)) := fun E =>
    C138_interval u64 (by decide) minSize maxSize (by omega) (by omega) (by omega) (by omega) E
  have c1 : ((Finset.Icc (minSize : Int) maxSize).filter fun v => decide (v = (n : Int)) = true).card = 1 := by
    rw [Finset.card_eq_one]
    refine ⟨n, ?_⟩
    ext v
    simp only [Finset.mem_filter, Finset.mem_Icc, decide_eq_true_eq, Finset.mem_singleton]
    omega
  have := C147_derive (n := 2) (fun _ R s => interval R u64 minSize maxSize s)
    (fun size σ R s => accumulateSized (g1 σ R) (fun v => g2 v σ R) minSize size.toNat s) o
    (fun v => if v.toNat = n then 0 else 1)
    (fun i => ((Finset.Icc (minSize : Int) maxSize).filter fun v => decide ((if v.toNat = n then (0 : Fin 2) else 1) = i)).card /
      ((maxSize : Int) - (minSize : Int) + 1))
    (fun i => if i = 0 then (accExp e1 e2 minSize n).mean (hit fun t => F t.value) else 0) F ⟨_, _, hi fun _ => true⟩
    (fun i => hi fun v => decide ((if v.toNat = n then (0 : Fin 2) else 1) = i))
    (fun v => by
      refine ⟨_, follows_acc h1 h2 minSize v.toNat, ?_⟩
      by_cases hv : v.toNat = n
      · simp [hv]
      · simp only [hv, if_false]
        rw [mean_acc_zero e1 e2 minSize v.toNat F n hF hv]
        simp)
    (fun t ⟨σ, R, s, s', ht⟩ c hc => by
      have hsz := size_range R (by omega) (by omega) ht (.child (List.mem_of_mem_head? hc) (.self c))
      refine ⟨_, follows_acc h1 h2 minSize c.value.toNat, ?_⟩
      have := mean_acc_one hm1 hm2 minSize c.value.toNat (by omega)
      refine le_antisymm ?_ ?_
      · refine le_of_le_of_eq (Exp.mean_le (g := fun _ => 1) (fun o => ?_) (follows_acc h1 h2 minSize c.value.toNat).1)
          (Exp.mean_const 1 (follows_acc h1 h2 minSize c.value.toNat).1)
        cases o <;> simp [hit]
      rw [← this]
      refine Exp.mean_le (fun o => ?_) (follows_acc h1 h2 minSize c.value.toNat).1
      cases o with
      | ok l => simp only [hit]; split_ifs <;> norm_num
      | throws x => exact le_rfl
      | ub => exact le_rfl
      | diverges => exact le_rfl)
  simp only [Fin.sum_univ_two] at this
  have c2 : ((Finset.Icc (minSize : Int) maxSize).filter fun v => decide ((if v.toNat = n then (0 : Fin 2) else 1) = 0) = true) =
      (Finset.Icc (minSize : Int) maxSize).filter fun v => decide (v = (n : Int)) = true := by
    ext v
    simp only [Finset.mem_filter, Finset.mem_Icc, decide_eq_true_eq]
    refine and_congr_right fun hv => ?_
    by_cases hvn : v.toNat = n
    · simp only [hvn, if_true, true_iff]; omega
    · simp only [hvn, if_false]
      exact ⟨fun h => absurd h (by decide), fun h => by omega⟩
  rw [c2, c1] at this
  have e : (((1 : Nat) : ℚ) / (((maxSize : Int) : ℚ) - ((minSize : Int) : ℚ) + 1) *
      (if (0 : Fin 2) = 0 then (accExp e1 e2 minSize n).mean (hit fun t => F t.value) else 0) +
      ((((Finset.Icc (minSize : Int) maxSize).filter fun v => decide ((if v.toNat = n then (0 : Fin 2) else 1) = 1) = true).card : ℚ) /
      (((maxSize : Int) : ℚ) - ((minSize : Int) : ℚ) + 1)) * (if (1 : Fin 2) = 0 then (accExp e1 e2 minSize n).mean (hit fun t => F t.value) else 0)) =
      (accExp e1 e2 minSize n).mean (hit fun t => F t.value) / (maxSize - minSize + 1) := by
    rw [if_pos rfl, if_neg (by decide), mul_zero, add_zero]
    push_cast
    ring
  rw [← e]
  exact this

/-- The probability of a list among the lists of its size. -/
theorem mean_acc_list [DecidableEq α] (e1 : Exp (Outcome (Shr α))) (e2 : α → Exp (Outcome (Shr α))) (minSize : Nat) (x : α)
    (rest : List α) (hn1 : minSize ≤ rest.length + 1) (ps : List ℚ)
    (h2' : List.Forall₂ (fun (y : α × α) p => (e2 y.1).mean (hit fun t => decide (t.value = y.2)) = p) ((x :: rest).zip rest) ps) :
    (accExp e1 e2 minSize (rest.length + 1)).mean (hit fun t => decide (t.value = x :: rest)) =
      e1.mean (hit fun t => decide (t.value = x)) * ps.prod := by
  unfold accExp
  rw [if_neg (by omega), hit_eq, mean_andThen, mul_comm, ← mean_and]
  congr 2
  funext t
  rw [mean_andThen]
  by_cases ht : t.value = x
  · have hm := mean_steppers e2 x rest ps h2' t ht
    rw [if_pos (by simpa using ht), ← hm, hit_eq, Nat.add_sub_cancel]
    refine Exp.mean_congr (fun o ho => ?_) (sat_steppers e2 rest.length t)
    cases o with
    | ok ts =>
      have hl := ho ts rfl
      obtain ⟨r, hr⟩ := accList_ok (minSize := minSize) (ts := t :: ts) (by simp; omega)
      simp only [val, Exp.mean, hr, accList_value hr]
      simp [ht]
    | throws x => rfl
    | ub => rfl
    | diverges => rfl
  · rw [if_neg (by simpa using ht)]
    have h0' := mean_and (steppersExp e2 (rest.length + 1 - 1) t) (fun _ => true) 0
    simp only [if_true, zero_mul] at h0'
    refine Eq.trans ?_ h0'
    congr 2
    funext ts
    simp only [Exp.mean]
    cases hr : accList minSize (t :: ts) with
    | ok r => simp [val, accList_value hr, ht]
    | throws x => rfl
    | ub => rfl
    | diverges => rfl

/-- C147. `accumulate`: every size is equally likely, and given the size the probability of a list is that of its first
element times, for each later element, the probability of this element given the one before it. -/
theorem C147_accumulate [DecidableEq α] (g1 : Src (Shr α)) (g2 : α → Src (Shr α)) (o : ∀ σ : Type, Rng σ → σ → List Nat → σ)
    (minSize maxSize : Nat) (hmax : maxSize < 2 ^ 64 - 1) (x : α) (rest : List α) (hn1 : minSize ≤ rest.length + 1)
    (hn2 : rest.length + 1 ≤ maxSize) (p : ℚ) (ps : List ℚ) (h1 : Chance g1 (fun t => decide (t.value = x)) p)
    (h2 : List.Forall₂ (fun (y : α × α) p => Chance (g2 y.1) (fun t => decide (t.value = y.2)) p) ((x :: rest).zip rest) ps)
    (h3 : Chance g1 (fun _ => true) 1) (h4 : ∀ v, Chance (g2 v) (fun _ => true) 1) :
    Chance (valueOnly fun σ R s => accumulate R (g1 σ R) (fun v => g2 v σ R) minSize maxSize (o σ R s) s)
      (fun l => decide (l = x :: rest)) (p * ps.prod / (maxSize - minSize + 1)) := by
  obtain ⟨e1, he1, rfl⟩ := h1
  choose e2 he2 hm2 using h4
  have h2' : List.Forall₂ (fun (y : α × α) p => (e2 y.1).mean (hit fun t => decide (t.value = y.2)) = p) ((x :: rest).zip rest) ps :=
    h2.imp fun y p h => chance_unique ⟨_, he2 y.1, rfl⟩ h
  have := chance_accumulate he1 he2 o minSize maxSize (rest.length + 1) hmax hn1 hn2 (fun l => decide (l = x :: rest))
    (fun l hl => by rw [of_decide_eq_true hl]; rfl) (chance_unique ⟨_, he1, rfl⟩ h3) hm2
  rw [mean_acc_list e1 e2 minSize x rest hn1 ps h2'] at this
  exact this

/-- A walk of one to three steps in which each step is a throw of a die added to the last position: 6, 7, 13 in 1 of 648
cases. -/
example (o : ∀ σ : Type, Rng σ → σ → List Nat → σ) :
    Chance (valueOnly fun σ R s => accumulate R (die σ R) (fun v => transform (die σ R) (fun d => v + d)) 1 3 (o σ R s) s)
      (fun l => decide (l = [6, 7, 13])) (1 / 648) := by
  have hd : ∀ v w : Int, ((Finset.Icc 1 6).filter fun d => decide (v + d = w) = true).card = 1 →
      Chance (fun σ R s => transform (die σ R) (fun d => v + d) s) (fun t => decide (t.value = w)) (1 / 6) := by
    intro v w hvw
    have := C142_transform die (fun d => v + d) (fun x => decide (x = w)) _ (die_chance (fun d => decide (v + d = w)) 1 hvw)
    simpa using this
  have := C147_accumulate die (fun v σ R s => transform (die σ R) (fun d => v + d) s) o 1 3 (by norm_num) 6 [7, 13]
    (by simp) (by simp) _ [1 / 6, 1 / 6] (die_chance (fun v => decide (v = 6)) 1 (by decide))
    (.cons (hd 6 7 (by decide)) (.cons (hd 7 13 (by decide)) .nil))
    die_returns (fun v => C142_transform die (fun d => v + d) (fun _ => true) _ die_returns)
  norm_num at this ⊢
  exact this

/-- C147. The sizes of `accumulate` alone, for generators that always return. -/
theorem C147_sizes (g1 : Src (Shr α)) (g2 : α → Src (Shr α)) (o : ∀ σ : Type, Rng σ → σ → List Nat → σ)
    (minSize maxSize n : Nat) (hmax : maxSize < 2 ^ 64 - 1) (hn1 : minSize ≤ n) (hn2 : n ≤ maxSize)
    (h1 : Chance g1 (fun _ => true) 1) (h2 : ∀ v, Chance (g2 v) (fun _ => true) 1) :
    Chance (valueOnly fun σ R s => accumulate R (g1 σ R) (fun v => g2 v σ R) minSize maxSize (o σ R s) s)
      (fun l => decide (l.length = n)) (1 / (maxSize - minSize + 1)) := by
  obtain ⟨e1, he1, hm1⟩ := h1
  choose e2 he2 hm2 using h2
  have := chance_accumulate he1 he2 o minSize maxSize n hmax hn1 hn2 (fun l => decide (l.length = n))
    (fun l hl => of_decide_eq_true hl) hm1 hm2
  rw [mean_acc_one hm1 hm2 minSize n hn1] at this
  exact this

example (o : ∀ σ : Type, Rng σ → σ → List Nat → σ) :
    Chance (valueOnly fun σ R s => accumulate R (die σ R) (fun v => transform (die σ R) (fun d => v + d)) 0 3 (o σ R s) s)
      (fun l => decide (l.length = 2)) (1 / 4) := by
  have := C147_sizes die (fun v σ R s => transform (die σ R) (fun d => v + d) s) o 0 3 2 (by norm_num) (by norm_num) (by norm_num)
    die_returns (fun v => C142_transform die (fun d => v + d) (fun _ => true) _ die_returns)
  norm_num at this ⊢
  exact this

end Verif
