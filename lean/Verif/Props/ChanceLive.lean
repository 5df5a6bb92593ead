import Verif.Lemmas.ChanceLive
import Verif.Props.ChanceDep
import Verif.Props.Integral
/-
C185: how likely the values of nested dependent generators are.
-/
namespace Verif
namespace Live
variable {σ α β γ : Type}

/-- **C185, existence.** Every event has a chance, and values are always generated. -/
theorem C185_total {g : LSrc α} (h : Built g) : (∀ E, ∃ p, Chance (valueOf g) E p) ∧ Chance (valueOf g) (fun _ => true) 1 := by
  obtain ⟨e, he⟩ := h.made
  refine ⟨fun E => ⟨_, chance_of_made he E⟩, ?_⟩
  have := chance_of_made he fun _ => true
  simpa only [↓reduceIte, Prog.mean_const] using this

/-- **C185, `pairWith`.** The chance that the first value satisfies a condition and the second one another is the chance of the first
times that of the second, given such a first value: for generators that are dependent themselves, whose shrinks draw again
whenever they are looked at. -/
theorem C185_pairWith {g : LSrc α} {f : α → LSrc β} (hg : Built g) (hf : ∀ v, Built (f v)) (E : α → Bool) (F : β → Bool) (p q : ℚ)
    (h1 : Chance (valueOf g) E p) (h2 : ∀ v, E v = true → Chance (valueOf (f v)) F q) :
    Chance (valueOf fun σ R => dependency (g σ R) fun v => f v σ R) (fun x => E x.1 && F x.2) (p * q) :=
  chance_both hg hf Prod.mk _ E F (fun _ _ => rfl) p q h1 h2

/-- **C185, `tupleWith`.** The same for a component appended to a tuple. -/
theorem C185_tupleWith {g : LSrc α} {f : α → LSrc β} (hg : Built g) (hf : ∀ v, Built (f v)) (cat : α → β → γ) (G : γ → Bool)
    (E : α → Bool) (F : β → Bool) (hG : ∀ a b, G (cat a b) = (E a && F b)) (p q : ℚ) (h1 : Chance (valueOf g) E p)
    (h2 : ∀ v, E v = true → Chance (valueOf (f v)) F q) :
    Chance (valueOf fun σ R => chain cat (g σ R) fun v => f v σ R) G (p * q) :=
  chance_both hg hf cat G E F hG p q h1 h2

/-- **C185, `flatMap`.** If the first values fall into finitely many cases, the chance of a result is the sum, over the cases, of the
chance of the case times that of the result in this case. -/
theorem C185_flatMap {n : Nat} {g : LSrc α} {f : α → LSrc β} (hg : Built g) (hf : ∀ v, Built (f v)) (K : α → Fin n)
    (p q : Fin n → ℚ) (F : β → Bool) (h1 : ∀ i, Chance (valueOf g) (fun v => decide (K v = i)) (p i))
    (h2 : ∀ v, Chance (valueOf (f v)) F (q (K v))) :
    Chance (valueOf fun σ R => derive (g σ R) fun v => f v σ R) F (∑ i, p i * q i) := by
  obtain ⟨e, he⟩ := hg.made
  choose ef hf' using fun v => (hf v).made
  have := chance_of_made (made_both he hf' fun _ b => b) F
  rw [mean_both (fun _ b => b) e ef fun z => if F z then 1 else 0] at this
  have e1 : ∀ x : α × Plan α, ((ef x.1).mean fun y => if F y.1 then 1 else 0) =
      ∑ i, q i * if decide (K x.1 = i) then 1 else 0 := by
    intro x
    rw [chance_made (hf' x.1) (h2 x.1)]
    simp
  simp only [e1] at this
  have e2 : ∀ (t : Finset (Fin n)), (e.mean fun x => ∑ i ∈ t, q i * if decide (K x.1 = i) then 1 else 0) = ∑ i ∈ t, p i * q i := by
    intro t
    induction t using Finset.cons_induction with
    | empty => simp only [Finset.sum_empty]; exact Prog.mean_const 0 e
    | cons i t hi ih =>
      simp only [Finset.sum_cons]
      rw [← ih, mul_comm (p i), ← chance_made he (h1 i), ← mean_scale, ← mean_plus]
  rw [e2] at this
  exact this

/-- **C185, `map`.** A condition on the mapped value has the chance of the condition on the value. -/
theorem C185_map {g : LSrc α} (hg : Built g) (f : α → β) (F : β → Bool) (p : ℚ) (h : Chance (valueOf g) (fun v => F (f v)) p) :
    Chance (valueOf fun σ R => transform (g σ R) f) F p := by
  obtain ⟨e, he⟩ := hg.made
  have := chance_of_made (made_transform he f) F
  rw [Prog.mean_bind] at this
  rw [← chance_made he h]
  exact this

/-- **C185, associativity.** `g.flatMap(f).flatMap(h)` and `g.flatMap(a -> f(a).flatMap(h))` generate every value with the same
chance (although not from the same seed, `C184_assoc_violated`). -/
theorem C185_assoc {g : LSrc α} {f : α → LSrc β} {h : β → LSrc γ} (hg : Built g) (hf : ∀ v, Built (f v)) (hh : ∀ w, Built (h w))
    (G : γ → Bool) : ∃ p, Chance (valueOf fun σ R => derive (derive (g σ R) fun v => f v σ R) fun w => h w σ R) G p ∧
      Chance (valueOf fun σ R => derive (g σ R) fun v => derive (f v σ R) fun w => h w σ R) G p := by
  obtain ⟨e, he⟩ := hg.made
  choose ef hf' using fun v => (hf v).made
  choose eh hh' using fun w => (hh w).made
  have h1 := chance_of_made (made_both (made_both he hf' fun _ b => b) hh' fun _ b => b) G
  have h2 := chance_of_made (made_both he (fun v => made_both (hf' v) hh' fun _ b => b) fun _ b => b) G
  refine ⟨_, h1, ?_⟩
  rw [mean_both _ _ _ fun z => if G z then 1 else 0] at h1 h2 ⊢
  rw [mean_both _ _ _ fun z => (eh z).mean fun y => if G y.1 then 1 else 0]
  have : ∀ x : α × Plan α, ((bothP (fun _ b => b) (ef x.1) eh).mean fun y => if G y.1 then 1 else 0) =
      (ef x.1).mean fun y => (eh y.1).mean fun z => if G z.1 then 1 else 0 :=
    fun x => mean_both _ _ _ fun z => if G z then 1 else 0
  simp only [this] at h2
  exact h2

/-- **C185, tuples.** With `gen.tupleWith(f1)...tupleWith(fn)` the chance that all components satisfy given conditions is the product
of the chances of the components, given components before that satisfy theirs. -/
theorem C185_tuple (cs : List ((List α → LSrc α) × (α → Bool) × ℚ)) : ∀ (g : LSrc (List α)) (Es : List (α → Bool)) (p : ℚ),
    Built g → (∀ c ∈ cs, ∀ l, Built (c.1 l)) → Chance (valueOf g) (fits Es) p →
    (∀ pre c post, cs = pre ++ c :: post → ∀ l, fits (Es ++ pre.map fun c => c.2.1) l = true →
      Chance (valueOf (c.1 l)) c.2.1 c.2.2) →
    Chance (valueOf fun σ R => chains (g σ R) (cs.map fun c l => c.1 l σ R)) (fits (Es ++ cs.map fun c => c.2.1))
      (p * (cs.map fun c => c.2.2).prod) := by
  induction cs with
  | nil => intro g Es p _ _ hp _; simpa [chains] using hp
  | cons c cs ih =>
    intro g Es p hg hb hp hc
    have hb' : ∀ l, Built (c.1 l) := hb c (by simp)
    have h1 := C185_tupleWith hg hb' (fun l v => l ++ [v]) (fits (Es ++ [c.2.1])) (fits Es) c.2.1 (fun l v => fits_snoc _ v Es l) p c.2.2 hp
      (fun l hl => hc [] c cs rfl l (by simpa using hl))
    have h2 := ih _ (Es ++ [c.2.1]) _ (.tupleWith (fun l v => l ++ [v]) hg hb') (fun d hd => hb d (by simp [hd])) h1
      (fun pre d post he l hl => hc (c :: pre) d post (by simp [he]) l (by simpa using hl))
    simpa [chains, mul_assoc] using h2

/-- A die always shows a number. -/
theorem built_die : Built fun σ R => ofGen (die σ R) :=
  .gen die ⟨_, (die_chance (fun _ => true) 6 (by decide)).choose_spec.1⟩ fun _ R s => by
    obtain ⟨t, s', h, _⟩ := C17_interval R IntType.i32 (by decide) 1 6 s (by decide) (by decide) (by decide)
    exact ⟨_, h⟩

theorem die_six : Chance (valueOf fun σ R => ofGen (die σ R)) (fun v => decide (v = 6)) (1 / 6) :=
  chance_gen (by simpa using die_chance (fun v => decide (v = 6)) 1 (by decide))

/-- Three dice, thrown one after the other with `tupleWith`: three sixes in 1 of 216 cases, although the numbers are taken from 6
draws. -/
example : Chance (valueOf fun σ R => chains (transform (ofGen (die σ R)) fun v => [v])
    [fun _ => ofGen (die σ R), fun _ => ofGen (die σ R)]) (fits [fun v => decide (v = 6), fun v => decide (v = 6), fun v => decide (v = 6)])
    (1 / 216) := by
  have h0 : Chance (valueOf fun σ R => transform (ofGen (die σ R)) fun v => [v]) (fits [fun v => decide (v = 6)]) (1 / 6) :=
    C185_map built_die _ _ _ (by simpa [fits] using die_six)
  have := C185_tuple [(fun _ σ R => ofGen (die σ R), fun v => decide (v = 6), 1 / 6), (fun _ σ R => ofGen (die σ R), fun v => decide (v = 6), 1 / 6)]
    _ _ _ (.map (fun v => [v]) built_die) (by simp [built_die]) h0 (by
      intro pre c post h l _
      have hc : c ∈ pre ++ c :: post := by simp
      rw [← h] at hc
      simp only [List.mem_cons, List.not_mem_nil, or_false, or_self] at hc
      subst hc
      exact die_six)
  norm_num at this ⊢
  exact this

/-- A die in the function of a die in the function of a die. -/
example : ∃ p, Chance (valueOf fun σ R => derive (derive (ofGen (die σ R)) fun _ => ofGen (die σ R)) fun _ => ofGen (die σ R))
      (fun v => decide (v = 6)) p ∧
    Chance (valueOf fun σ R => derive (ofGen (die σ R)) fun _ => derive (ofGen (die σ R)) fun _ => ofGen (die σ R))
      (fun v => decide (v = 6)) p :=
  C185_assoc (f := fun _ σ R => ofGen (die σ R)) (h := fun _ σ R => ofGen (die σ R)) built_die (fun _ => built_die) (fun _ => built_die) _

/-- A pair of a die and a pair of dice. -/
example : Chance (valueOf fun σ R => dependency (ofGen (die σ R)) fun _ => dependency (ofGen (die σ R)) fun _ => ofGen (die σ R))
    (fun x => decide (x.1 = 6) && (decide (x.2.1 = 6) && decide (x.2.2 = 6))) (1 / 216) := by
  have h := C185_pairWith (f := fun _ σ R => ofGen (die σ R)) built_die (fun _ => built_die) (fun v => decide (v = 6))
    (fun v => decide (v = 6)) _ _ die_six fun _ _ => die_six
  have := C185_pairWith (f := fun _ σ R => dependency (ofGen (die σ R)) fun _ => ofGen (die σ R)) built_die
    (fun _ => .pairWith (f := fun _ σ R => ofGen (die σ R)) built_die fun _ => built_die) (fun v => decide (v = 6))
    (fun x => decide (x.1 = 6) && decide (x.2 = 6)) _ _ die_six fun _ _ => h
  norm_num at this ⊢
  exact this

/-- A die that is thrown again with `flatMap` if it does not show a six: a six in 11 of 36 cases. -/
example : Chance (valueOf fun σ R => derive (ofGen (die σ R)) fun v => if v = 6 then ofGen (Comb.just 6) else ofGen (die σ R))
    (fun v => decide (v = 6)) (11 / 36) := by
  have hj : Built fun σ R => (ofGen (Comb.just 6) : LGen σ Int) := .gen (fun σ R => Comb.just 6) ⟨_, Follows.pure (Shr.leaf 6)⟩ fun _ _ s => ⟨_, rfl⟩
  have hone : Chance (valueOf fun σ R => (ofGen (Comb.just 6) : LGen σ Int)) (fun v => decide (v = 6)) 1 :=
    ⟨_, Follows.pure 6, rfl⟩
  have hn : Chance (valueOf fun σ R => ofGen (die σ R)) (fun v => decide (¬ v = 6)) (5 / 6) :=
    chance_gen (by simpa using die_chance (fun v => decide (¬ v = 6)) 5 (by decide))
  have := C185_flatMap (n := 2) (g := fun σ R => ofGen (die σ R))
    (f := fun v => if v = 6 then fun σ R => ofGen (Comb.just 6) else fun σ R => ofGen (die σ R)) built_die
    (fun v => by split_ifs <;> [exact hj; exact built_die]) (fun v => if v = 6 then 0 else 1)
    (fun i => if i = 0 then 1 / 6 else 5 / 6) (fun i => if i = 0 then 1 else 1 / 6) (fun v => decide (v = 6))
    (fun i => by
      rcases (by omega : i = 0 ∨ i = 1) with rfl | rfl
      · have e : (fun v : Int => decide ((if v = 6 then (0 : Fin 2) else 1) = 0)) = fun v => decide (v = 6) := by
          funext v; by_cases h : v = 6 <;> simp [h]
        simpa [e] using die_six
      · have e : (fun v : Int => decide ((if v = 6 then (0 : Fin 2) else 1) = 1)) = fun v => decide (¬ v = 6) := by
          funext v; by_cases h : v = 6 <;> simp [h]
        simpa [e] using hn)
    (fun v => by
      by_cases h : v = 6
      · simpa [h] using hone
      · simpa [h] using die_six)
  have e : (∑ i : Fin 2, (if i = 0 then (1 / 6 : ℚ) else 5 / 6) * (if i = 0 then 1 else 1 / 6)) = 11 / 36 := by
    rw [Fin.sum_univ_two]; norm_num
  rw [e] at this
  convert this using 5
  funext v
  split_ifs <;> rfl

end Live
end Verif
