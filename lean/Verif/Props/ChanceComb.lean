import Verif.Lemmas.ChanceComb
import Verif.Props.Chance
import Verif.Props.PairTuple
import Verif.Props.ListLike
/-
C141, C142: how likely the results of containers, pairs, tuples, transformed and filtered generators are, given how
likely those of the generators they are built of are (Spec/Chance.lean).
-/
namespace Verif
open Shr Random ListLike Containers Comb PairTuple Integral IntType
variable {α β : Type}

/-- A die, `interval<int>(1, 6)`, for the examples below. -/
def die : Src (Shr Int) := fun _ R s => interval R i32 1 6 s

theorem die_chance (E : Int → Bool) (k : Nat) (hk : ((Finset.Icc 1 6).filter fun v => E v).card = k) :
    Chance die (fun t => E t.value) (k / 6) := by
  have := C138_interval i32 (by decide) 1 6 (by decide) (by decide) (by decide) (by decide) E
  rw [hk] at this
  norm_num at this ⊢
  exact this

theorem die_returns : Chance die (fun _ => true) 1 := by
  have := die_chance (fun _ => true) 6 (by decide)
  norm_num at this ⊢
  exact this

/-- C141. In a vector (or list) of a size from `minSize` to `maxSize` every size has the same probability, and the
elements are independent of the size and of each other: the probability that there are exactly as many elements
as conditions and each satisfies its condition is the product. -/
theorem C141_vector (g : Src (Shr α)) (minSize maxSize : Nat) (hmax : maxSize < 2 ^ 32)
    (Es : List (α → Bool)) (ps : List ℚ) (h1 : minSize ≤ Es.length) (h2 : Es.length ≤ maxSize)
    (hg : ∃ E p, Chance g E p)
    (hp : List.Forall₂ (fun E p => Chance g (fun t => E t.value) p) Es ps) :
    Chance (fun σ R s => arbiVector R (g σ R) minSize maxSize s) (fun t => fits Es t.value)
      (ps.prod / (maxSize - minSize + 1)) := by
  obtain ⟨_, _, e, he, -⟩ := hg
  refine chance_sized minSize maxSize (by omega) hmax (fun xs => listLike xs minSize true)
    (fun xs h => ?_) (fun xs t h => ?_) Es ps h1 h2 ⟨e, he⟩ hp
  · obtain ⟨t, h, -⟩ := Recursive.listLike_ok h
    exact ⟨t, h⟩
  · cases hm : membershipwise xs minSize with
    | ok r =>
      simp only [listLike, hm, if_true, Outcome.ok_bind, Outcome.pure_eq] at h
      cases h
      have := (C24_defined xs minSize).2 r hm
      rw [value_flatMap]
      simp [this]
    | throws x => simp [listLike, hm] at h
    | ub => simp [listLike, hm] at h
    | diverges => simp [listLike, hm] at h

/-- Up to three throws of a die: exactly two, first a six, then less than three, in 1 of 72 cases. -/
example : Chance (fun σ R s => arbiVector R (die σ R) 0 3 s) (fun t => fits [fun v => v = 6, fun v => v < 3] t.value)
    (1 / 72) := by
  have := C141_vector die 0 3 (by norm_num) [fun v => v = 6, fun v => v < 3] [(1 : Nat) / 6, (2 : Nat) / 6] (by simp) (by simp)
    ⟨_, _, die_returns⟩ (.cons (die_chance (fun v => v = 6) 1 (by decide))
      (.cons (die_chance (fun v => v < 3) 2 (by decide)) .nil))
  norm_num at this ⊢
  exact this

/-- C141. The same for strings, for what is drawn for their characters. -/
theorem C141_string (g : Src (Shr α)) (minSize maxSize : Nat) (hmax : maxSize < 2 ^ 32)
    (Es : List (α → Bool)) (ps : List ℚ) (h1 : minSize ≤ Es.length) (h2 : Es.length ≤ maxSize)
    (hg : ∃ E p, Chance g E p)
    (hp : List.Forall₂ (fun E p => Chance g (fun t => E t.value) p) Es ps) :
    Chance (fun σ R s => arbiString R (g σ R) minSize maxSize s) (fun t => fits Es t.value)
      (ps.prod / (maxSize - minSize + 1)) := by
  obtain ⟨_, _, e, he, -⟩ := hg
  refine chance_sized minSize maxSize (by omega) hmax (fun xs => .ok (shrinkString (xs.map Shr.value) minSize))
    (fun xs h => ⟨_, rfl⟩) (fun xs t h => ?_) Es ps h1 h2 ⟨e, he⟩ hp
  cases h
  rw [shrinkString, value_concat, shrinkRear, value_map]
  change List.take (((List.map Shr.value xs).length - minSize) + minSize) _ = _
  refine List.take_of_length_le ?_
  omega

/-- A string of exactly two letters of which the first is a six. -/
example : Chance (fun σ R s => arbiString R (die σ R) 2 2 s) (fun t => fits [fun v => v = 6, fun _ => true] t.value)
    (1 / 6) := by
  have := C141_string die 2 2 (by norm_num) [fun v => v = 6, fun _ => true] [(1 : Nat) / 6, 1] (by simp) (by simp)
    ⟨_, _, die_returns⟩ (.cons (die_chance (fun v => v = 6) 1 (by decide)) (.cons die_returns .nil))
  norm_num at this ⊢
  exact this

/-- C141. The sizes alone, for an element generator that always returns. -/
theorem C141_sizes (g : Src (Shr α)) (minSize maxSize n : Nat) (hmax : maxSize < 2 ^ 32) (h1 : minSize ≤ n)
    (h2 : n ≤ maxSize) (hg : Chance g (fun _ => true) 1) :
    Chance (fun σ R s => arbiVector R (g σ R) minSize maxSize s) (fun t => t.value.length = n)
      (1 / (maxSize - minSize + 1)) ∧
    Chance (fun σ R s => arbiString R (g σ R) minSize maxSize s) (fun t => t.value.length = n)
      (1 / (maxSize - minSize + 1)) := by
  have hf : ∀ l : List α, fits (List.replicate n fun _ => true) l = decide (l.length = n) := by
    clear h1 h2
    induction n with
    | zero => intro l; cases l <;> simp [fits]
    | succ n ih =>
      intro l
      cases l with
      | nil => simp [fits, List.replicate_succ]
      | cons x l => simp [fits, List.replicate_succ, ih]
  have h3 : List.Forall₂ (fun (E : α → Bool) p => Chance g (fun t => E t.value) p)
      (List.replicate n fun _ => true) (List.replicate n 1) := by
    clear h1 h2 hf
    induction n with
    | zero => exact .nil
    | succ n ih => exact .cons hg ih
  have a := C141_vector g minSize maxSize hmax _ _ (by simpa using h1) (by simpa using h2) ⟨_, _, hg⟩ h3
  have b := C141_string g minSize maxSize hmax _ _ (by simpa using h1) (by simpa using h2) ⟨_, _, hg⟩ h3
  simp only [hf, List.prod_replicate, one_pow] at a b
  exact ⟨a, b⟩

/-- The default sizes of vectors, 0 to 200: each has probability 1/201. -/
example : Chance (fun σ R s => arbiVector R (die σ R) 0 200 s) (fun t => t.value.length = 17) (1 / 201) := by
  have := (C141_sizes die 0 200 17 (by norm_num) (by norm_num) (by norm_num) die_returns).1
  norm_num at this ⊢
  exact this

/-- C141. The components of a pair are independent, in whichever order they are drawn. -/
theorem C141_pair (firstFirst : Bool) (g : Src (Shr α)) (h : Src (Shr β)) (E : α → Bool) (F : β → Bool) (p q : ℚ)
    (hg : Chance g (fun t => E t.value) p) (hh : Chance h (fun t => F t.value) q) :
    Chance (fun σ R s => pairOf firstFirst (g σ R) (h σ R) s) (fun t => E t.value.1 && F t.value.2) (p * q) := by
  obtain ⟨e, he, rfl⟩ := hg
  obtain ⟨f, hf, rfl⟩ := hh
  cases firstFirst with
  | true =>
    refine ⟨_, he.bind fun a => hf.bind fun b => Follows.pure (shrinkPair a b), ?_⟩
    rw [hit_eq, mean_andThen]
    have : ∀ a : Shr α, (f.andThen fun b => .ret (.ok (shrinkPair a b))).mean
        (val fun t : Shr (α × β) => if (E t.value.1 && F t.value.2) = true then 1 else 0) =
        if E a.value then f.mean (hit fun t => F t.value) else 0 := by
      intro a
      rw [mean_andThen]
      by_cases ha : E a.value = true
      · simp only [Exp.mean, val, C23_pair_value, ha, if_true, Bool.true_and, hit_eq]
      · simp only [Exp.mean, val, C23_pair_value, ha, Bool.false_and]
        simpa using mean_and f (fun _ => true) 0
    simp only [this]
    rw [mean_and e (fun a => E a.value), mul_comm]
  | false =>
    refine ⟨_, hf.bind fun b => he.bind fun a => Follows.pure (shrinkPair a b), ?_⟩
    rw [hit_eq, mean_andThen]
    have : ∀ b : Shr β, (e.andThen fun a => .ret (.ok (shrinkPair a b))).mean
        (val fun t : Shr (α × β) => if (E t.value.1 && F t.value.2) = true then 1 else 0) =
        if F b.value then e.mean (hit fun t => E t.value) else 0 := by
      intro b
      rw [mean_andThen]
      by_cases hb : F b.value = true
      · simp only [Exp.mean, val, C23_pair_value, hb, if_true, Bool.and_true, hit_eq]
      · simp only [Exp.mean, val, C23_pair_value, hb, Bool.and_false]
        simpa using mean_and e (fun _ => true) 0
    simp only [this]
    rw [mean_and f (fun b => F b.value)]

/-- Two dice: two sixes in 1 of 36 cases. -/
example : Chance (fun σ R s => pairOf false (die σ R) (die σ R) s)
    (fun t => decide (t.value.1 = 6) && decide (t.value.2 = 6)) (1 / 36) := by
  have := C141_pair false die die (fun v => v = 6) (fun v => v = 6) _ _ (die_chance (fun v => v = 6) 1 (by decide))
    (die_chance (fun v => v = 6) 1 (by decide))
  norm_num at this ⊢
  exact this

/-- C141. The components of a tuple are independent, in whichever order they are drawn. -/
theorem C141_tuple {n : Nat} {A : Fin n → Type} (order : List (Fin n)) (hnd : order.Nodup) (hall : ∀ i, i ∈ order)
    (gens : (i : Fin n) → Src (Shr (A i))) (E : (i : Fin n) → A i → Bool) (p : Fin n → ℚ)
    (hp : ∀ i, Chance (gens i) (fun t => E i t.value) (p i)) :
    Chance (fun σ R s => tupleOf order (fun i => gens i σ R) s) (fun t => decide (∀ i, E i (t.value i) = true)) (∏ i, p i) := by
  choose es hes hm using hp
  refine ⟨(intoExp es order fun _ => none).andThen fun acc =>
    .ret (if h : ∀ i, (acc i).isSome then .ok (shrinkTuple fun i => (acc i).get (h i)) else .ub), ?_, ?_⟩
  · refine ((follows_into hes order _).bind (g := fun acc _ _ s =>
      (if h : ∀ i, (acc i).isSome then Outcome.ok (shrinkTuple fun i => (acc i).get (h i)) else .ub).bind fun a => .ok (a, s))
      fun acc => Follows.const _).congr fun σ R s => ?_
    show (Gen.drawTuple _ order s >>= _) = _
    rw [Gen.drawTuple]
    cases Gen.drawInto (fun i => gens i σ R) order (fun _ => none) s with
    | ok r =>
      obtain ⟨acc, s'⟩ := r
      simp only [Outcome.ok_bind]
      by_cases h : ∀ i, (acc i).isSome = true
      · rw [dif_pos h, dif_pos h]; rfl
      · rw [dif_neg h, dif_neg h]; rfl
    | throws x => rfl
    | ub => rfl
    | diverges => rfl
  · rw [hit_eq, mean_andThen]
    have key := mean_into es E order hnd fun _ => none
    rw [if_pos fun i hi => absurd (hall i) hi] at key
    simp only [hm] at key
    have hprod : (order.map p).prod = ∏ i, p i := by
      rw [← List.prod_toFinset p hnd]
      congr 1
      ext i
      simp [hall i]
    rw [← hprod, ← key]
    congr 1
    funext o
    cases o with
    | ok acc =>
      simp only [val, Exp.mean]
      by_cases h : ∀ i, (acc i).isSome = true
      · rw [dif_pos h]
        simp only [C23_tuple_value, decide_eq_true_eq]
        refine if_congr (forall_congr' fun i => ?_) rfl rfl
        obtain ⟨t, ht⟩ := Option.isSome_iff_exists.1 (h i)
        simp [ht, goodAt]
      · rw [dif_neg h, if_neg]
        intro hc
        refine h fun i => ?_
        have := hc i
        cases ha : acc i with
        | none => rw [ha] at this; cases this
        | some t => rfl
    | throws x => rfl
    | ub => rfl
    | diverges => rfl

/-- Three dice, thrown last to first: three sixes in 1 of 216 cases. -/
example : Chance (fun σ R s => tupleOf (A := fun _ : Fin 3 => Int) [2, 1, 0] (fun _ => die σ R) s)
    (fun t => decide (∀ i, decide (t.value i = 6) = true)) (1 / 216) := by
  have := C141_tuple (A := fun _ : Fin 3 => Int) [2, 1, 0] (by decide) (by decide) (fun _ => die)
    (fun _ v => decide (v = 6)) _ (fun _ => die_chance (fun v => v = 6) 1 (by decide))
  norm_num at this ⊢
  exact this

/-- C142. `transform` and `map` carry probabilities over. -/
theorem C142_transform (g : Src (Shr α)) (f : α → β) (E : β → Bool) (p : ℚ) (hg : Chance g (fun t => E (f t.value)) p) :
    Chance (fun σ R s => transform (g σ R) f s) (fun t => E t.value) p := by
  obtain ⟨e, he, rfl⟩ := hg
  refine ⟨_, he.bind fun t => Follows.pure (t.map f), ?_⟩
  rw [hit_eq, mean_andThen, hit_eq]
  simp [Exp.mean, val]

/-- The parity of a die. -/
example : Chance (fun σ R s => transform (die σ R) (fun v => decide (v % 2 = 0)) s) (fun t => t.value) (1 / 2) := by
  have := C142_transform die (fun v => decide (v % 2 = 0)) (fun b => b) _
    (die_chance (fun v => decide (v % 2 = 0)) 3 (by decide))
  norm_num at this ⊢
  exact this

/-- C142. A filtered generator has the conditional probabilities: what is likely among the values that satisfy the
condition is equally likely after filtering. -/
theorem C142_filter (g : Src (Shr α)) (c E : α → Bool) (p q : ℚ) (hg : Chance g (fun _ => true) 1)
    (hc : Chance g (fun t => c t.value) p) (hE : Chance g (fun t => E t.value && c t.value) q) (hp : 0 < p) :
    ChanceLimit (fun m σ R s => filter (g σ R) c m s) (fun t => E t.value) (q / p) := by
  obtain ⟨e, he, h1⟩ := hg
  have h2 : e.mean (hit fun t => c t.value) = p := chance_unique ⟨e, he, rfl⟩ hc
  have h3 : e.mean (hit fun t => E t.value && c t.value) = q := chance_unique ⟨e, he, rfl⟩ hE
  have h4 : e.mean (hit fun t => !c t.value) = 1 - p := by
    rw [← h1, ← h2, eq_sub_iff_add_eq, ← Exp.mean_add]
    congr 1
    funext o
    cases o with
    | ok t => cases h : c t.value <;> simp [hit, h]
    | throws x => simp [hit]
    | ub => simp [hit]
    | diverges => simp [hit]
  have h5 : 0 ≤ 1 - p := by
    rw [← h4]
    have := Exp.mean_le (f := fun _ => 0) (g := hit fun t : Shr α => !c t.value) (fun o => by
      cases o with
      | ok t => simp only [hit]; split_ifs <;> norm_num
      | throws x => simp [hit]
      | ub => simp [hit]
      | diverges => simp [hit]) he.1
    rwa [Exp.mean_const 0 he.1] at this
  refine limit_of_geometric' h5 (by linarith) fun m => ⟨_, follows_filter he c m, ?_⟩
  induction m with
  | zero => simp [filterExp, Exp.mean, hit]
  | succ m ih =>
    rw [mean_filter, ih, h3, h4, pow_succ _ m]
    field_simp
    ring

/-- A die of which only even throws count shows a six in 1 of 3 cases. -/
example : ChanceLimit (fun m σ R s => filter (die σ R) (fun v => decide (v % 2 = 0)) m s) (fun t => decide (t.value = 6))
    (1 / 3) := by
  have := C142_filter die (fun v => decide (v % 2 = 0)) (fun v => decide (v = 6)) ((3 : Nat) / 6) ((1 : Nat) / 6) die_returns
    (die_chance (fun v => decide (v % 2 = 0)) 3 (by decide))
    (die_chance (fun v => decide (v = 6) && decide (v % 2 = 0)) 1 (by decide)) (by norm_num)
  norm_num at this ⊢
  exact this

/-- C139. `Arbi<Nullable<T>>`: not null with a probability of 0.95 (up to 2^-53), and then the value has the
probabilities of `Arbi<T>`. -/
theorem C139_nullable (arbi elemGen : Src (Shr α)) (E : α → Bool) (p : ℚ) (h : Chance arbi (fun t => E t.value) p) :
    ∃ q : ℚ, |q - 95 / 100| < 1 / 2 ^ 53 ∧
      Chance (fun σ R s => arbiNullable R (arbi σ R) (elemGen σ R) s) (fun t => t.value.any E) (q * p) ∧
      Chance (fun σ R s => arbiNullable R (arbi σ R) (elemGen σ R) s) (fun t => t.value.isNone) (1 - q) := by
  obtain ⟨e, he, rfl⟩ := h
  have hf : Follows (fun σ R s => arbiNullable R (arbi σ R) (elemGen σ R) s)
      (.draw 0 (2 ^ 64 - 1) fun w => if w ≤ 17524406870024073216 then
        e.andThen fun t => .ret (.ok (t.mapShrinkable fun shr => leaf (some shr.value))) else .ret (.ok (leaf none))) := by
    refine (Follows.draw (g := fun w σ R s => if w ≤ 17524406870024073216 then
        (arbi σ R s >>= fun r => .ok (r.1.mapShrinkable (fun shr => leaf (some shr.value)), r.2)) else .ok (leaf none, s))
      (by norm_num) fun w => ?_).congr fun σ R s => ?_
    · by_cases hw : w ≤ 17524406870024073216
      · simp only [if_pos hw]
        exact he.bind fun t => Follows.pure _
      · simp only [if_neg hw]
        exact Follows.pure _
    · have hb : getRandomBool R (some 17524406870024073216) s =
        (decide ((R.draw s 0 (2 ^ 64 - 1)).1 ≤ 17524406870024073216), (R.draw s 0 (2 ^ 64 - 1)).2) := rfl
      unfold arbiNullable
      rw [hb]
      by_cases hw : (R.draw s 0 (2 ^ 64 - 1)).1 ≤ 17524406870024073216
      · simp only [hw, decide_true, if_true]
        rfl
      · simp only [hw, decide_false, if_false, Bool.false_eq_true]
        rfl
  have hm : ∀ G : Option α → Bool, (Exp.draw 0 (2 ^ 64 - 1) fun w => if w ≤ 17524406870024073216 then
        e.andThen fun t => .ret (.ok (t.mapShrinkable fun shr => leaf (some shr.value))) else .ret (.ok (leaf none))).mean
        (hit fun t : Shr (Option α) => G t.value) =
      (17524406870024073217 * e.mean (hit fun t => G (some t.value)) +
        (2 ^ 64 - 17524406870024073217) * if G none then 1 else 0) / 2 ^ 64 := by
    intro G
    rw [Exp.mean]
    have : ∀ w : Int, (if w ≤ 17524406870024073216 then
        e.andThen fun t => .ret (.ok (t.mapShrinkable fun shr => leaf (some shr.value))) else .ret (.ok (leaf none)) : Exp (Outcome (Shr (Option α)))).mean
        (hit fun t : Shr (Option α) => G t.value) =
        if w ≤ 17524406870024073216 then e.mean (hit fun t => G (some t.value)) else if G none then 1 else 0 := by
      intro w
      split
      · rw [hit_eq, mean_andThen, hit_eq]
        congr 2
        funext t
        cases t
        rfl
      · rfl
    simp only [this]
    rw [Exp.mean_draw_le (by norm_num) (by norm_num)]
    norm_num
  refine ⟨17524406870024073217 / 2 ^ 64, by norm_num [abs_lt], ⟨_, hf, ?_⟩, ?_⟩
  · rw [hm fun v => v.any E]
    simp only [Option.any_some, Option.any_none, Bool.false_eq_true, if_false]
    ring
  · refine ⟨_, hf, ?_⟩
    rw [hm fun v => v.isNone]
    have : e.mean (hit fun t : Shr α => (some t.value).isNone) = 0 := by
      have h0 := mean_and e (fun _ => true) 0
      simp only [if_true, zero_mul] at h0
      refine Eq.trans ?_ h0
      rw [hit_eq]
      simp
    rw [this]
    norm_num

/-- A nullable throw of a die. -/
example : ∃ q : ℚ, |q - 95 / 100| < 1 / 2 ^ 53 ∧
    Chance (fun σ R s => arbiNullable R (die σ R) (die σ R) s) (fun t => t.value.any fun v => decide (v = 6)) (q * ((1 : Nat) / 6)) ∧
    Chance (fun σ R s => arbiNullable R (die σ R) (die σ R) s) (fun t => t.value.isNone) (1 - q) :=
  C139_nullable die die (fun v => decide (v = 6)) _ (die_chance (fun v => decide (v = 6)) 1 (by decide))

end Verif
