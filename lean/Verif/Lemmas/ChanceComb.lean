import Verif.Lemmas.ChanceGen
import Verif.Lemmas.Recursive
import Verif.Model.PairTuple
import Verif.Model.Containers
import Mathlib.Algebra.BigOperators.Fin
/-
Helpers for C141, C142: experiments for containers, tuples and filters, given those of
the generators they are built of.
-/
namespace Verif
open Shr Random ListLike Containers Comb
variable {α β : Type}

/-! ### Sequences of calls -/

/-- The experiment of calling a generator several times. -/
def manyExp (e : Exp (Outcome (Shr α))) : Nat → Exp (Outcome (List (Shr α)))
  | 0 => .ret (.ok [])
  | n + 1 => e.andThen fun x => (manyExp e n).andThen fun xs => .ret (.ok (x :: xs))

theorem follows_many {g : Src (Shr α)} {e : Exp (Outcome (Shr α))} (h : Follows g e) (n : Nat) :
    Follows (fun σ R s => drawMany (g σ R) n s) (manyExp e n) := by
  induction n with
  | zero => exact ⟨trivial, fun _ _ _ => rfl⟩
  | succ n ih =>
    exact h.bind fun x => ih.bind fun xs => Follows.pure (x :: xs)

theorem fits_length {Es : List (α → Bool)} {xs : List α} (h : fits Es xs = true) : xs.length = Es.length := by
  induction Es generalizing xs with
  | nil => cases xs with
    | nil => rfl
    | cons x xs => cases h
  | cons E Es ih => cases xs with
    | nil => cases h
    | cons x xs =>
      simp only [fits, Bool.and_eq_true] at h
      simp [ih h.2]

theorem mean_many (e : Exp (Outcome (Shr α))) (Es : List (α → Bool)) (n : Nat) :
    (manyExp e n).mean (val fun xs => if fits Es (xs.map Shr.value) then 1 else 0) =
      if n = Es.length then (Es.map fun E => e.mean (hit fun t => E t.value)).prod else 0 := by
  induction n generalizing Es with
  | zero =>
    cases Es with
    | nil => rfl
    | cons E Es => rfl
  | succ n ih =>
    rw [manyExp, mean_andThen]
    have h1 : ∀ x : Shr α, ((manyExp e n).andThen fun xs => .ret (.ok (x :: xs))).mean
        (val fun xs => if fits Es (xs.map Shr.value) then 1 else 0) =
        (manyExp e n).mean (val fun xs => if fits Es ((x :: xs).map Shr.value) then 1 else 0) := fun x => by
      rw [mean_andThen]; rfl
    simp only [h1]
    cases Es with
    | nil =>
      have h2 : ∀ x : Shr α, ((manyExp e n).mean (val fun xs => if fits [] ((x :: xs).map Shr.value) then 1 else 0)) = 0 := by
        intro x
        have : (val fun xs : List (Shr α) => if fits [] ((x :: xs).map Shr.value) then (1 : ℚ) else 0) = fun o => 0 * val (fun _ => 1) o := by
          funext o; cases o <;> simp [val, fits]
        rw [this, Exp.mean_mul, zero_mul]
      simp only [h2]
      have : (val fun _ : Shr α => (0 : ℚ)) = fun o => 0 * val (fun _ => 1) o := by
        funext o; cases o <;> simp [val]
      rw [this, Exp.mean_mul, zero_mul]
      simp
    | cons E Es =>
      have h2 : ∀ x : Shr α, ((manyExp e n).mean (val fun xs => if fits (E :: Es) ((x :: xs).map Shr.value) then 1 else 0)) =
          (if E x.value then 1 else 0) * (if n = Es.length then (Es.map fun E => e.mean (hit fun t => E t.value)).prod else 0) := by
        intro x
        rw [← ih Es, ← Exp.mean_mul]
        congr 1
        funext o
        cases o with
        | ok xs =>
          simp only [val, List.map_cons, fits, Bool.and_eq_true]
          by_cases hE : E x.value = true <;> simp [hE]
        | throws y => simp [val]
        | ub => simp [val]
        | diverges => simp [val]
      simp only [h2]
      have h3 : ∀ c : ℚ, (val fun x : Shr α => (if E x.value then (1 : ℚ) else 0) * c) = fun o => c * hit (fun t => E t.value) o := by
        intro c; funext o; cases o <;> simp [val, hit, mul_comm]
      rw [h3, Exp.mean_mul]
      simp only [List.length_cons, add_left_inj, List.map_cons, List.prod_cons]
      split_ifs <;> ring

/-- A size, a list of that many elements, and what is made of it. -/
theorem chance_sized {g : Src (Shr α)} (minSize maxSize : Nat) (hm : minSize ≤ maxSize) (hmax : maxSize < 2 ^ 32)
    (fin : List (Shr α) → Outcome (Shr (List α)))
    (hfin : ∀ xs : List (Shr α), minSize ≤ xs.length → ∃ t, fin xs = .ok t)
    (hval : ∀ xs t, fin xs = .ok t → t.value = xs.map Shr.value)
    (Es : List (α → Bool)) (ps : List ℚ) (h1 : minSize ≤ Es.length) (h2 : Es.length ≤ maxSize)
    (he : ∃ e, Follows g e)
    (hp : List.Forall₂ (fun E p => Chance g (fun t => E t.value) p) Es ps) :
    Chance (fun σ R s => do
      let (size, s) ← getRandomSize R minSize (maxSize + 1) s
      let (xs, s) ← drawMany (g σ R) size.toNat s
      let t ← fin xs
      pure (t, s)) (fun t => fits Es t.value) (ps.prod / (maxSize - minSize + 1)) := by
  obtain ⟨e, he⟩ := he
  have hps : ps = Es.map fun E => e.mean (hit fun t => E t.value) := by
    clear h1 h2
    induction hp with
    | nil => rfl
    | cons h _ ih =>
      rw [List.map_cons, ← ih]
      congr 1
      exact chance_unique h ⟨e, he, rfl⟩
  have hf : Follows (fun σ R s => (fun σ R s => (drawMany (g σ R) (R.draw s minSize maxSize).1.toNat (R.draw s minSize maxSize).2 >>=
      fun p => (fin p.1).bind fun a => .ok (a, p.2)) : Src (Shr (List α))) σ R s)
      (.draw minSize maxSize fun v => (manyExp e v.toNat).andThen fun xs => .ret (fin xs)) :=
    Follows.draw (g := fun v σ R s => drawMany (g σ R) v.toNat s >>= fun p => (fin p.1).bind fun a => .ok (a, p.2))
      (by omega) fun v => (follows_many he v.toNat).bind fun xs => Follows.const (fin xs)
  refine ⟨_, hf.congr fun σ R s => ?_, ?_⟩
  · rw [getRandomSize_eq R s (by omega) (by omega)]
    have : ((maxSize + 1 : Nat) : Int) - 1 = maxSize := by omega
    rw [this, Outcome.ok_bind]
    dsimp only
    cases drawMany (g σ R) (R.draw s minSize maxSize).1.toNat (R.draw s minSize maxSize).2 with
    | ok p =>
      simp only [Outcome.ok_bind]
      cases fin p.1 <;> rfl
    | throws x => rfl
    | ub => rfl
    | diverges => rfl
  · rw [Exp.mean, hit_eq]
    have key : ∀ v : Int, ((manyExp e v.toNat).andThen fun xs => .ret (fin xs)).mean
        (val fun t => if fits Es t.value then 1 else 0) = if v.toNat = Es.length then ps.prod else 0 := by
      intro v
      rw [hps, ← mean_many, mean_andThen]
      congr 1
      funext o
      cases o with
      | ok xs =>
        simp only [val, Exp.mean]
        by_cases hl : minSize ≤ xs.length
        · obtain ⟨t, e1⟩ := hfin xs hl
          rw [e1]
          simp only [hval _ _ e1]
        · have hno : fits Es (xs.map Shr.value) = false := by
            by_contra hc
            have := fits_length (by simpa using hc)
            rw [List.length_map] at this
            omega
          rw [hno]
          cases e1 : fin xs with
          | ok t => simp [hval _ _ e1, hno]
          | throws y => simp
          | ub => simp
          | diverges => simp
      | throws y => rfl
      | ub => rfl
      | diverges => rfl
    simp only [key]
    have hs : (∑ v ∈ Finset.Icc (minSize : Int) maxSize, if v.toNat = Es.length then ps.prod else 0) = ps.prod := by
      rw [Finset.sum_eq_single (Es.length : Int)]
      · simp
      · intro v hv hne
        rw [Finset.mem_Icc] at hv
        rw [if_neg (by omega)]
      · intro hc
        exact absurd (Finset.mem_Icc.2 ⟨by omega, by omega⟩) hc
    rw [hs]
    push_cast
    rfl


/-! ### Tuples -/

theorem mean_and (e : Exp (Outcome α)) (E : α → Bool) (c : ℚ) :
    e.mean (val fun x => if E x then c else 0) = c * e.mean (hit E) := by
  rw [← Exp.mean_mul]
  congr 1
  funext o
  cases o <;> simp [val, hit]

variable {n : Nat} {A : Fin n → Type}

/-- The experiment of drawing components in an order. -/
def intoExp (es : (i : Fin n) → Exp (Outcome (Shr (A i)))) :
    List (Fin n) → ((i : Fin n) → Option (Shr (A i))) → Exp (Outcome ((i : Fin n) → Option (Shr (A i))))
  | [], acc => .ret (.ok acc)
  | i :: is, acc => (es i).andThen fun t => intoExp es is (fun j => if h : i = j then some (h ▸ t) else acc j)

theorem follows_into {gens : (i : Fin n) → Src (Shr (A i))} {es : (i : Fin n) → Exp (Outcome (Shr (A i)))}
    (h : ∀ i, Follows (gens i) (es i)) (order : List (Fin n)) (acc : (i : Fin n) → Option (Shr (A i))) :
    Follows (fun σ R s => Gen.drawInto (fun i => gens i σ R) order acc s) (intoExp es order acc) := by
  induction order generalizing acc with
  | nil => exact ⟨trivial, fun _ _ _ => rfl⟩
  | cons i is ih => exact (h i).bind fun t => ih _

/-- The component is there and satisfies the condition. -/
def goodAt {γ : Type} (E : γ → Bool) : Option (Shr γ) → Bool
  | none => false
  | some t => E t.value

theorem mean_into (es : (i : Fin n) → Exp (Outcome (Shr (A i)))) (E : (i : Fin n) → A i → Bool) (order : List (Fin n))
    (hnd : order.Nodup) (acc : (i : Fin n) → Option (Shr (A i))) :
    (intoExp es order acc).mean (val fun a => if ∀ i, goodAt (E i) (a i) = true then 1 else 0) =
      if ∀ i, i ∉ order → goodAt (E i) (acc i) = true then
        (order.map fun i => (es i).mean (hit fun t => E i t.value)).prod else 0 := by
  induction order generalizing acc with
  | nil => simp [intoExp, Exp.mean, val]
  | cons i is ih =>
    rw [List.nodup_cons] at hnd
    rw [intoExp, mean_andThen]
    simp only [ih hnd.2]
    have hiff : ∀ t : Shr (A i), (∀ j, j ∉ is → goodAt (E j) (if h : i = j then some (h ▸ t) else acc j) = true) ↔
        ((∀ j, j ∉ i :: is → goodAt (E j) (acc j) = true) ∧ E i t.value = true) := by
      intro t
      constructor
      · intro hh
        refine ⟨fun j hj => ?_, ?_⟩
        · rw [List.mem_cons, not_or] at hj
          have := hh j hj.2
          rwa [dif_neg (Ne.symm hj.1)] at this
        · have := hh i hnd.1
          rwa [dif_pos rfl] at this
      · rintro ⟨h1, h2⟩ j hj
        by_cases hij : i = j
        · subst hij
          rw [dif_pos rfl]
          exact h2
        · rw [dif_neg hij]
          exact h1 j (by rw [List.mem_cons, not_or]; exact ⟨Ne.symm hij, hj⟩)
    simp only [hiff]
    by_cases hall : ∀ j, j ∉ i :: is → goodAt (E j) (acc j) = true
    · rw [if_pos hall, List.map_cons, List.prod_cons, mul_comm,
        ← mean_and (es i) (fun t => E i t.value) (is.map fun i => (es i).mean (hit fun t => E i t.value)).prod]
      congr 1
      funext o
      cases o with
      | ok t => simp only [val]; exact if_congr (and_iff_right hall) rfl rfl
      | throws x => rfl
      | ub => rfl
      | diverges => rfl
    · simp only [hall, false_and, if_false]
      have := mean_and (es i) (fun _ => true) 0
      simpa using this


/-! ### Filters -/

/-- The experiment of drawing until the condition holds. -/
def filterExp (e : Exp (Outcome (Shr α))) (c : α → Bool) : Nat → Exp (Outcome (Shr α))
  | 0 => .ret .diverges
  | m + 1 => e.andThen fun t => if c t.value then .ret (t.filterTol c 1) else filterExp e c m

theorem follows_filter {g : Src (Shr α)} {e : Exp (Outcome (Shr α))} (h : Follows g e) (c : α → Bool) (m : Nat) :
    Follows (fun σ R s => Comb.filter (g σ R) c m s) (filterExp e c m) := by
  induction m with
  | zero => exact ⟨trivial, fun _ _ _ => rfl⟩
  | succ m ih =>
    refine (h.bind (g := fun t σ R s => if c t.value then (t.filterTol c 1).bind fun a => .ok (a, s)
        else Comb.filter (g σ R) c m s) fun t => ?_).congr fun σ R s => ?_
    · by_cases hc : c t.value = true
      · simp only [if_pos hc]
        exact Follows.const _
      · simp only [if_neg hc]
        exact ih
    · rfl

theorem mean_filter (e : Exp (Outcome (Shr α))) (c E : α → Bool) (m : Nat) :
    (filterExp e c (m + 1)).mean (hit fun t => E t.value) =
      e.mean (hit fun t => E t.value && c t.value) +
        e.mean (hit fun t => !c t.value) * (filterExp e c m).mean (hit fun t => E t.value) := by
  rw [mul_comm, ← Exp.mean_mul, ← Exp.mean_add]
  conv_lhs => rw [hit_eq]
  rw [filterExp, mean_andThen]
  congr 1
  funext o
  cases o with
  | ok t =>
    simp only [val, hit]
    by_cases hc : c t.value = true
    · simp [hc, Exp.mean, Shr.filterTol, val]
    · simp [hc, hit_eq]
  | throws x => simp [val, hit]
  | ub => simp [val, hit]
  | diverges => simp [val, hit]

theorem limit_of_geometric' {f : Nat → Src α} {E : α → Bool} {p r : ℚ} (hr0 : 0 ≤ r) (hr1 : r < 1)
    (h : ∀ m, Chance (f m) E ((1 - r ^ m) * p)) : ChanceLimit f E p := by
  intro ε hε
  obtain ⟨N, hN⟩ := limit_of_geometric (f := fun m => f (m - 1)) hr0 hr1 (fun m => h m) ε hε
  exact ⟨N, fun n hn => hN (n + 1) (by omega)⟩

end Verif
