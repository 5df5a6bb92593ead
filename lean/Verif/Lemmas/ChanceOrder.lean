import Verif.Lemmas.ChanceTestLimit
import Verif.Lemmas.ChanceComb
import Mathlib.Algebra.BigOperators.Field
/-
Independent experiments can be done in any order, and one whose result is not used can be left out.
-/
namespace Verif
variable {α β : Type}

/-- Two experiments that do not depend on each other: the order does not matter for averages. -/
theorem Exp.mean_swap (e : Exp α) (e' : Exp β) (F : α → β → ℚ) :
    (e.mean fun a => e'.mean (F a)) = e'.mean fun b => e.mean fun a => F a b := by
  have sum : ∀ (s : Finset Int) (G : Int → β → ℚ) (c : ℚ),
      (∑ v ∈ s, e'.mean (G v)) / c = e'.mean fun b => (∑ v ∈ s, G v b) / c := by
    intro s G c
    induction e' with
    | ret x => rfl
    | draw a b next ih =>
      simp only [Exp.mean, ← ih, ← Finset.sum_div]
      rw [Finset.sum_comm, div_right_comm]
  induction e with
  | ret x => rfl
  | draw a b next ih => simp only [Exp.mean, ih, sum]

theorem mean_swap_val (e : Exp (Outcome α)) (e' : Exp (Outcome β)) (F : α → β → ℚ) :
    e.mean (val fun a => e'.mean (val (F a))) = e'.mean (val fun b => e.mean (val fun a => F a b)) := by
  have h1 : (val fun a => e'.mean (val (F a))) = fun o => e'.mean fun o' => val (fun a => val (F a) o') o := by
    funext o
    have zero : (e'.mean fun _ => (0 : ℚ)) = 0 := by simpa using Exp.mean_mul 0 (fun _ => (0 : ℚ)) e'
    cases o <;> first | rfl | exact zero.symm
  have h2 : (val fun b => e.mean (val fun a => F a b)) = fun o' => e.mean fun o => val (fun a => val (F a) o') o := by
    funext o'
    have zero : (e.mean fun _ => (0 : ℚ)) = 0 := by simpa using Exp.mean_mul 0 (fun _ => (0 : ℚ)) e
    cases o' with
    | ok b => congr 1
    | _ => refine zero.symm.trans (congrArg (fun g => Exp.mean g e) (funext fun o => ?_)); cases o <;> rfl
  rw [h1, h2, Exp.mean_swap]

theorem mean_val_const (e : Exp (Outcome α)) (c : ℚ) : e.mean (val fun _ => c) = c * e.mean (hit fun _ => true) := by
  rw [hit_eq, ← Exp.mean_mul]
  congr 1
  funext o
  cases o <;> simp [val]

section
variable {n : Nat} {A : Fin n → Type}

theorem mean_into_cons (es : (i : Fin n) → Exp (Outcome (Shr (A i)))) (i : Fin n) (is : List (Fin n))
    (acc : (i : Fin n) → Option (Shr (A i))) (F : ((i : Fin n) → Option (Shr (A i))) → ℚ) :
    (intoExp es (i :: is) acc).mean (val F) = (es i).mean (val fun t =>
      (intoExp es is (fun j => if h : i = j then some (h ▸ t) else acc j)).mean (val F)) := by
  rw [intoExp, mean_andThen]

theorem mean_into_perm (es : (i : Fin n) → Exp (Outcome (Shr (A i)))) (F : ((i : Fin n) → Option (Shr (A i))) → ℚ)
    {l l' : List (Fin n)} (hp : l.Perm l') : l.Nodup → ∀ acc : (i : Fin n) → Option (Shr (A i)),
    (intoExp es l acc).mean (val F) = (intoExp es l' acc).mean (val F) := by
  induction hp with
  | nil => intro _ _; rfl
  | cons i _ ih =>
    intro hnd acc
    rw [mean_into_cons, mean_into_cons]
    simp only [ih (List.nodup_cons.1 hnd).2]
  | swap i j l =>
    intro hnd acc
    have hij : i ≠ j := fun h => (List.nodup_cons.1 hnd).1 (h ▸ List.mem_cons_self)
    simp only [mean_into_cons]
    rw [mean_swap_val]
    congr 2
    funext t
    congr 2
    funext u
    congr 2
    funext k
    by_cases h1 : i = k
    · subst h1; simp [hij.symm]
    · by_cases h2 : j = k
      · subst h2; simp [hij]
      · simp [h1, h2]
  | trans h1 _ ih1 ih2 => intro hnd acc; rw [ih1 hnd, ih2 (h1.nodup_iff.1 hnd)]

theorem mean_into_append (es : (i : Fin n) → Exp (Outcome (Shr (A i)))) (F : ((i : Fin n) → Option (Shr (A i))) → ℚ)
    (l l' : List (Fin n)) (acc : (i : Fin n) → Option (Shr (A i))) :
    (intoExp es (l ++ l') acc).mean (val F) =
      (intoExp es l acc).mean (val fun a => (intoExp es l' a).mean (val F)) := by
  induction l generalizing acc with
  | nil => rfl
  | cons i is ih => simp only [List.cons_append, mean_into_cons, ih]

/-- The value of `F` at the components drawn, 0 if one is missing. -/
def atAll (F : ((i : Fin n) → A i) → ℚ) (a : (i : Fin n) → Option (Shr (A i))) : ℚ :=
  if h : ∀ i, (a i).isSome then F fun i => ((a i).get (h i)).value else 0

variable {m : Nat} {ι : Fin m → Fin n} (hι : Function.Injective ι)
include hι

theorem mean_into_map (es : (i : Fin n) → Exp (Outcome (Shr (A i))))
    (F : ((j : Fin m) → Option (Shr (A (ι j)))) → ℚ) (l : List (Fin m)) (acc : (i : Fin n) → Option (Shr (A i))) :
    (intoExp es (l.map ι) acc).mean (val fun a => F fun j => a (ι j)) =
      (intoExp (A := fun j => A (ι j)) (fun j => es (ι j)) l fun j => acc (ι j)).mean (val F) := by
  induction l generalizing acc with
  | nil => rfl
  | cons i is ih =>
    rw [List.map_cons, mean_into_cons, mean_into_cons]
    simp only [ih]
    congr 2
    funext t
    congr 2
    funext j
    by_cases h : i = j
    · subst h; simp
    · simp [h, hι.ne h]

omit hι in
theorem mean_into_rest (es : (i : Fin n) → Exp (Outcome (Shr (A i)))) (F : ((j : Fin m) → A (ι j)) → ℚ)
    (l : List (Fin n)) (hl : ∀ i ∈ l, ∀ j, ι j ≠ i)
    (acc : (i : Fin n) → Option (Shr (A i))) (hacc : ∀ i, i ∉ l → (∀ j, ι j ≠ i) → (acc i).isSome) :
    (intoExp es l acc).mean (val (atAll fun a => F fun j => a (ι j))) =
      (l.map fun i => (es i).mean (hit fun _ => true)).prod * atAll (A := fun j => A (ι j)) F fun j => acc (ι j) := by
  induction l generalizing acc with
  | nil =>
    simp only [intoExp, Exp.mean, val, List.map_nil, List.prod_nil, one_mul]
    unfold atAll
    by_cases h : ∀ j, (acc (ι j)).isSome
    · rw [dif_pos h, dif_pos]
      intro i
      by_cases hi : ∃ j, ι j = i
      · obtain ⟨j, rfl⟩ := hi; exact h j
      · exact hacc i (by simp) fun j hj => hi ⟨j, hj⟩
    · rw [dif_neg h, dif_neg fun h' => h fun j => h' (ι j)]
  | cons i is ih =>
    rw [mean_into_cons]
    have : ∀ t : Shr (A i), (intoExp es is (fun j => if h : i = j then some (h ▸ t) else acc j)).mean
        (val (atAll fun a => F fun j => a (ι j))) = (is.map fun i => (es i).mean (hit fun _ => true)).prod *
          atAll (A := fun j => A (ι j)) F fun j => acc (ι j) := by
      intro t
      rw [ih (fun k hk => hl k (List.mem_cons_of_mem _ hk))]
      · congr 2
        funext j
        rw [dif_neg (hl i List.mem_cons_self j).symm]
      · intro k hk hj
        by_cases hik : i = k
        · subst hik; simp
        · rw [dif_neg hik]
          exact hacc k (by simp [hk, Ne.symm hik]) hj
    simp only [this]
    rw [mean_val_const, List.map_cons, List.prod_cons]
    ring

/-- Drawing more components than are used, in any order. -/
theorem mean_into_pull (es : (i : Fin n) → Exp (Outcome (Shr (A i)))) (F : ((j : Fin m) → A (ι j)) → ℚ)
    {l : List (Fin n)} (hnd : l.Nodup) (hall : ∀ i, i ∈ l) {l' : List (Fin m)} (hnd' : l'.Nodup) (hall' : ∀ j, j ∈ l') :
    (intoExp es l fun _ => none).mean (val (atAll fun a => F fun j => a (ι j))) =
      ((l.filter fun i => decide (∀ j, ι j ≠ i)).map fun i => (es i).mean (hit fun _ => true)).prod *
        (intoExp (A := fun j => A (ι j)) (fun j => es (ι j)) l' fun _ => none).mean (val (atAll F)) := by
  classical
  let rest := l.filter fun i => decide (∀ j, ι j ≠ i)
  have hrest : ∀ i, i ∈ rest ↔ ∀ j, ι j ≠ i := fun i => by simp [rest, hall i]
  have hnd2 : (l'.map ι ++ rest).Nodup := by
    refine List.Nodup.append (hnd'.map hι) (hnd.filter _) fun i h2 h3 => ?_
    obtain ⟨j, -, rfl⟩ := List.mem_map.1 h2
    exact (hrest _).1 h3 j rfl
  have hperm : l.Perm (l'.map ι ++ rest) := by
    rw [List.perm_ext_iff_of_nodup hnd hnd2]
    intro i
    simp only [hall i, true_iff, List.mem_append, List.mem_map, hrest]
    by_cases hi : ∃ j, ι j = i
    · obtain ⟨j, hj⟩ := hi; exact .inl ⟨j, hall' j, hj⟩
    · exact .inr fun j hj => hi ⟨j, hj⟩
  rw [mean_into_perm es _ hperm hnd, mean_into_append, ← mean_into_map hι es (atAll F) l' fun _ => none]
  rw [← Exp.mean_mul]
  congr 1
  funext o
  cases o with
  | ok acc =>
    exact mean_into_rest es F rest (fun i hi => (hrest i).1 hi) acc fun i hi hj => absurd ((hrest i).2 hj) hi
  | _ => exact (mul_zero _).symm

end

namespace Engine
open PairTuple
variable {n m : Nat} {A : Fin n → Type} {B : Fin m → Type}

/-- The experiment of drawing the values of all arguments. -/
def argsExp (es : (i : Fin n) → Exp (Outcome (Shr (A i)))) (order : List (Fin n)) : Exp (Outcome (Args A)) :=
  (intoExp es order fun _ => none).andThen fun a =>
    .ret (if h : ∀ i, (a i).isSome then .ok fun i => ((a i).get (h i)).value else .ub)

theorem mean_argsExp (es : (i : Fin n) → Exp (Outcome (Shr (A i)))) (order : List (Fin n)) (F : Args A → ℚ) :
    (argsExp es order).mean (val F) = (intoExp es order fun _ => none).mean (val (atAll F)) := by
  rw [argsExp, mean_andThen]
  congr 2
  funext a
  unfold atAll
  by_cases h : ∀ i, (a i).isSome
  · rw [dif_pos h, dif_pos h]; rfl
  · rw [dif_neg h, dif_neg h]; rfl

theorem follows_args {c : AnyTest A} {order : List (Fin n)} {gens : (i : Fin n) → Src (Shr (A i))}
    (hc : ∀ σ R, (c σ R).orderRun = order ∧ (c σ R).gens = fun i => gens i σ R)
    {es : (i : Fin n) → Exp (Outcome (Shr (A i)))} (h : ∀ i, Follows (gens i) (es i)) :
    Follows (argsDraw c) (argsExp es order) := by
  refine ((follows_into h order _).bind (g := fun acc _ _ s =>
    (if h : ∀ i, (acc i).isSome then Outcome.ok (fun i => ((acc i).get (h i)).value) else .ub).bind fun a => .ok (a, s))
    fun acc => Follows.const _).congr fun σ R s => ?_
  unfold argsDraw
  rw [(hc σ R).1, (hc σ R).2, Gen.drawTuple]
  cases Gen.drawInto (fun i => gens i σ R) order (fun _ => none) s with
  | ok r =>
    obtain ⟨acc, s'⟩ := r
    simp only [Outcome.ok_bind]
    by_cases h : ∀ i, (acc i).isSome = true
    · rw [dif_pos h, dif_pos h]; rfl
    · rw [dif_neg h, dif_neg h]; rfl
  | throws x => rfl
  | ub => rfl
  | diverges => rfl

open Classical in
/-- A test sees of its arguments only what the function uses. -/
theorem mean_testExp_pull (f : Args B → Ev Bool) (π : Args A → Args B) {e : Exp (Outcome (Args A))}
    {e' : Exp (Outcome (Args B))} (he : ∀ F : Args B → ℚ, e.mean (val fun a => F (π a)) = e'.mean (val F)) (fuel : Nat)
    (left : Nat) : ∀ (i : Nat) (G : Option (Nat × Args B) → ℚ),
    (testExp (fun a => f (π a)) e fuel left i).mean (val fun r => G (r.map fun x => (x.1, π x.2))) =
      (testExp f e' fuel left i).mean (val G) := by
  have run : ∀ (F : Option (Args B) → ℚ), (runExp (fun a => f (π a)) e fuel).mean (val fun o => F (o.map π)) =
      (runExp f e' fuel).mean (val F) := by
    intro F
    rw [mean_runExp, mean_runExp, hit_eq, hit_eq]
    congr 1
    · exact he fun a => if (f a).discarded then 0 else if (f a).Fails then F (some a) else F none
    · congr 1
      exact he fun a => if (f a).discarded then 1 else 0
  induction left with
  | zero => intro i G; rfl
  | succ left ih =>
    intro i G
    rw [testExp, testExp, mean_andThen, mean_andThen]
    refine Eq.trans ?_ (run _)
    congr 2
    funext o
    cases o with
    | none => exact ih (i + 1) G
    | some a => rfl

end Engine
end Verif
