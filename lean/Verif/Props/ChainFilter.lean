import Verif.Props.ChanceDep
import Verif.Props.ChanceRounds
import Mathlib.Algebra.BigOperators.Field
/-
C180: values that depend on each other, made with `dependency` (or `chain`) and with `filter`,
/repo/docs/Combinators.md:205-254.
-/
namespace Verif
open Shr Random ListLike Comb Integral IntType PairTuple
variable {α : Type}

theorem mean_classes {n : Nat} (e : Exp (Outcome α)) (K : α → Fin n) (E : α → Bool) :
    e.mean (hit E) = ∑ i, e.mean (hit fun x => decide (K x = i) && E x) := by
  have h : hit E = fun o => ((List.finRange n).map fun i => hit (fun x => decide (K x = i) && E x) o).sum := by
    funext o
    cases o with
    | ok x =>
      have hs := sum_single (List.finRange n) (List.nodup_finRange n) (fun _ => if E x then (1 : ℚ) else 0) (K x)
      rw [if_pos (List.mem_finRange _)] at hs
      simp only [hit]
      rw [← hs]
      congr 1
      refine List.map_congr_left fun i _ => ?_
      by_cases h : K x = i <;> simp [h]
    | throws x => simp [hit]
    | ub => simp [hit]
    | diverges => simp [hit]
  rw [h, mean_list_sum, ← Fin.sum_univ_def]

theorem card_range {a b L H : Int} (h1 : L ≤ a) (h2 : a ≤ b) (h3 : b ≤ H) :
    ((((Finset.Icc L H).filter fun d => (decide (a ≤ d) && decide (d ≤ b)) = true).card : Nat) : ℚ) = b - a + 1 := by
  have : (Finset.Icc L H).filter (fun d => (decide (a ≤ d) && decide (d ≤ b)) = true) = Finset.Icc a b := by
    ext d
    simp only [Finset.mem_filter, Finset.mem_Icc, Bool.and_eq_true, decide_eq_true_eq]
    omega
  rw [this, Int.card_Icc]
  have : (((b + 1 - a).toNat : Nat) : Int) = b - a + 1 := by omega
  exact_mod_cast this

/-- **C180** `dependency(gen, v -> interval(lo(v), hi(v)))` and the filtered `pairOf(gen, interval(L, H))` generate the same
pairs: those with `lo(v) ≤ d ≤ hi(v)`, where `v` is as likely as in `gen` with `dependency`, whereas with `filter` it is the more
likely the more values `d` there are for it. A pair has probability `p(v) / l(v)` with `dependency` and `p(v) / m` with `filter`,
`l(v)` being the number of values for `v` and `m` its average; `filter` takes `(H - L + 1) / m` attempts on average. (The values
of `gen` fall into finitely many cases `K`, each with its range.) -/
theorem C180_chances [DecidableEq α] {n : Nat} (g : Src (Shr α)) (hg : Chance g (fun _ => true) 1) (K : α → Fin n) (w : Fin n → ℚ)
    (hw : ∀ i, Chance g (fun t => decide (K t.value = i)) (w i)) (T : IntType) (hT : T ∈ all) (L H : Int) (hL : T.lo ≤ L)
    (hH : H ≤ T.hi) (hp : ¬ (L = T.lo ∧ H = T.hi)) (lo hi : Fin n → Int) (h1 : ∀ i, L ≤ lo i) (h2 : ∀ i, lo i ≤ hi i)
    (h3 : ∀ i, hi i ≤ H) (o : ∀ σ : Type, Rng σ → σ → List Nat → σ) (first : Bool) :
    let dep : Src (α × Int) := valueOnly fun σ R s =>
      dependency (g σ R) (fun v s => interval R T (lo (K v)) (hi (K v)) s) (o σ R s) s
    let fil : Nat → Src (Shr (α × Int)) := fun m σ R s =>
      Comb.filter (pairOf first (g σ R) fun s => interval R T L H s) (fun x => lo (K x.1) ≤ x.2 ∧ x.2 ≤ hi (K x.1)) m s
    let mean : ℚ := ∑ i, w i * (hi i - lo i + 1)
    MeanRounds fil ((H - L + 1) / mean) ∧
    ∀ v d p, Chance g (fun t => t.value = v) p →
      (lo (K v) ≤ d → d ≤ hi (K v) →
        Chance dep (fun x => x = (v, d)) (p / (hi (K v) - lo (K v) + 1)) ∧
        ChanceLimit fil (fun t => t.value = (v, d)) (p / mean)) ∧
      (¬ (lo (K v) ≤ d ∧ d ≤ hi (K v)) →
        Chance dep (fun x => x = (v, d)) 0 ∧ ChanceLimit fil (fun t => t.value = (v, d)) 0) := by
  intro dep fil mean
  have hn : 0 < n := by
    by_contra h0
    obtain ⟨e, -, hm⟩ := hg
    rw [mean_classes e (fun t => K t.value)] at hm
    have : n = 0 := by omega
    subst this
    simp at hm
  have hLH : L ≤ H := (h1 ⟨0, hn⟩).trans ((h2 _).trans (h3 _))
  have hN : (0 : ℚ) < H - L + 1 := by
    have : (0 : Int) < H - L + 1 := by omega
    exact_mod_cast this
  have hlen : ∀ i, (1 : ℚ) ≤ hi i - lo i + 1 := fun i => by
    have : (1 : Int) ≤ hi i - lo i + 1 := by have := h2 i; omega
    exact_mod_cast this
  have hw0 : ∀ i, 0 ≤ w i := fun i => by
    obtain ⟨e, he, hm⟩ := hw i
    rw [← hm, ← Exp.mean_const 0 he.1]
    refine Exp.mean_le (fun x => ?_) he.1
    cases x <;> simp only [hit] <;> try split_ifs
    all_goals norm_num
  have hsum : ∑ i, w i = 1 := by
    obtain ⟨e, he, hm⟩ := hg
    rw [mean_classes e (fun t => K t.value)] at hm
    rw [← hm]
    refine Finset.sum_congr rfl fun i _ => ?_
    have := chance_unique (hw i) ⟨e, he, rfl⟩
    rw [this]
    congr 1
    simp
  have hmean : 1 ≤ mean := by
    rw [← hsum]
    refine Finset.sum_le_sum fun i _ => ?_
    have := mul_le_mul_of_nonneg_left (hlen i) (hw0 i)
    linarith
  have hint : ∀ E : Int → Bool, Chance (fun _ R s => interval R T L H s) (fun t => E t.value)
      (((Finset.Icc L H).filter fun v => E v).card / (H - L + 1)) := fun E =>
    C138_interval T hT L H hL hLH hH hp E
  have hint1 : Chance (fun _ R s => interval R T L H s) (fun _ => true) 1 := by
    have := hint fun _ => true
    rw [Finset.filter_true_of_mem (fun _ _ => rfl), Exp.card_Icc hLH, div_self hN.ne'] at this
    exact this
  have hpair : Chance (fun σ R s => pairOf first (g σ R) (fun s => interval R T L H s) s) (fun _ => true) 1 := by
    have := C141_pair first g (fun _ R s => interval R T L H s) (fun _ => true) (fun _ => true) 1 1 hg hint1
    simpa using this
  have hval : Chance (fun σ R s => pairOf first (g σ R) (fun s => interval R T L H s) s)
      (fun t => decide (lo (K t.value.1) ≤ t.value.2 ∧ t.value.2 ≤ hi (K t.value.1))) (mean / (H - L + 1)) := by
    obtain ⟨e, he, -⟩ := hpair
    refine ⟨e, he, ?_⟩
    rw [mean_classes e (fun t => K t.value.1), Finset.sum_div]
    refine Finset.sum_congr rfl fun i _ => ?_
    have := C141_pair first g (fun _ R s => interval R T L H s) (fun v => decide (K v = i))
      (fun d => decide (lo i ≤ d) && decide (d ≤ hi i)) (w i) _ (hw i)
      (hint fun d => decide (lo i ≤ d) && decide (d ≤ hi i))
    rw [card_range (h1 i) (h2 i) (h3 i)] at this
    rw [mul_div_assoc, ← chance_unique ⟨e, he, rfl⟩ this]
    congr 2
    funext t
    by_cases h : K t.value.1 = i
    · simp [h]
    · simp [h]
  have hgen : ∀ i (F : Int → Bool), Chance (fun _ R s => interval R T (lo i) (hi i) s) (fun t => F t.value)
      (((Finset.Icc (lo i) (hi i)).filter fun v => F v).card / (hi i - lo i + 1)) := fun i F =>
    C138_interval T hT _ _ (hL.trans (h1 i)) (h2 i) ((h3 i).trans hH) (fun h => hp (by have := h1 i; have := h3 i; omega)) F
  have hgen1 : ∀ i, Chance (fun _ R s => interval R T (lo i) (hi i) s) (fun _ => true) 1 := fun i => by
    have := hgen i fun _ => true
    rw [Finset.filter_true_of_mem (fun _ _ => rfl), Exp.card_Icc (h2 i), div_self (by linarith [hlen i])] at this
    exact this
  have hmain : ∀ v d p, Chance g (fun t => t.value = v) p → ∀ c : Nat,
      ((Finset.Icc (lo (K v)) (hi (K v))).filter fun x => decide (x = d) = true).card = c →
      Chance dep (fun x => x = (v, d)) (p * (c / (hi (K v) - lo (K v) + 1))) := by
    intro v d p hv c hc
    have := C147_dependency g (fun v _ R s => interval R T (lo (K v)) (hi (K v)) s) o (fun x => decide (x = v))
      (fun x => decide (x = d)) p _ hv (fun x hx => by
        obtain rfl : x = v := by simpa using hx
        have := hgen (K x) fun x => decide (x = d)
        rw [hc] at this
        exact this) (fun v => ⟨_, _, hgen1 (K v)⟩) (fun _ _ c _ => hgen1 (K c.value))
    simpa [dep, Prod.ext_iff] using this
  have hfil : ∀ v d p, Chance g (fun t => t.value = v) p → (lo (K v) ≤ d ∧ d ≤ hi (K v)) → Chance
      (fun σ R s => pairOf first (g σ R) (fun s => interval R T L H s) s) (fun t => decide (t.value = (v, d)) &&
        decide (lo (K t.value.1) ≤ t.value.2 ∧ t.value.2 ≤ hi (K t.value.1))) (p * (1 / (H - L + 1))) := by
    intro v d p hv hd
    have h := hint fun x => decide (x = d)
    have b1 := h1 (K v)
    have b3 := h3 (K v)
    rw [filter_single (hd.1.trans' b1) (hd.2.trans b3)] at h
    have := C141_pair first g (fun _ R s => interval R T L H s) (fun x => decide (x = v)) (fun x => decide (x = d)) p _ hv h
    obtain ⟨e, he, hm⟩ := this
    refine ⟨e, he, ?_⟩
    rw [Nat.cast_one] at hm
    rw [← hm]
    congr 2
    funext t
    rw [Bool.eq_iff_iff]
    simp only [Bool.and_eq_true, decide_eq_true_eq, Prod.ext_iff]
    constructor
    · exact fun h => h.1
    · rintro ⟨rfl, rfl⟩
      exact ⟨⟨rfl, rfl⟩, hd⟩
  refine ⟨?_, fun v d p hv => ⟨fun hd1 hd2 => ⟨?_, ?_⟩, fun hd => ⟨?_, ?_⟩⟩⟩
  · have := (C166_filter _ (fun x => decide (lo (K x.1) ≤ x.2 ∧ x.2 ≤ hi (K x.1))) _ hpair hval (div_pos (by linarith) hN)).1
    rw [one_div_div] at this
    exact this
  · have := hmain v d p hv 1 (filter_single hd1 hd2)
    rwa [Nat.cast_one, mul_one_div] at this
  · have := C142_filter _ (fun x => decide (lo (K x.1) ≤ x.2 ∧ x.2 ≤ hi (K x.1))) (fun x => decide (x = (v, d))) _ _ hpair hval (hfil v d p hv ⟨hd1, hd2⟩) (div_pos (by linarith) hN)
    have e : p * (1 / ((H : ℚ) - L + 1)) / (mean / (H - L + 1)) = p / mean := by
      have : mean ≠ 0 := by linarith
      have := hN.ne'
      field_simp
    rw [e] at this
    exact this
  · have := hmain v d p hv 0 (by
      rw [Finset.card_eq_zero, Finset.filter_eq_empty_iff]
      intro x hx h
      obtain rfl : x = d := by simpa using h
      exact hd (Finset.mem_Icc.1 hx))
    simpa using this
  · have h0 : Chance (fun σ R s => pairOf first (g σ R) (fun s => interval R T L H s) s) (fun t => decide (t.value = (v, d)) &&
        decide (lo (K t.value.1) ≤ t.value.2 ∧ t.value.2 ≤ hi (K t.value.1))) 0 := by
      obtain ⟨e, he, -⟩ := hpair
      refine ⟨e, he, ?_⟩
      rw [← Exp.mean_const 0 he.1]
      congr 1
      funext x
      cases x with
      | ok t =>
        simp only [hit]
        rw [if_neg]
        simp only [Bool.and_eq_true, decide_eq_true_eq]
        rintro ⟨h, h'⟩
        rw [h] at h'
        exact hd h'
      | _ => rfl
    have := C142_filter _ (fun x => decide (lo (K x.1) ≤ x.2 ∧ x.2 ≤ hi (K x.1))) (fun x => decide (x = (v, d))) _ _ hpair hval h0 (div_pos (by linarith) hN)
    rw [zero_div] at this
    exact this

/-- Leap years of the Gregorian calendar. -/
private def leap (y : Int) : Bool := (y % 4 == 0 && y % 100 != 0) || y % 400 == 0
/-- Months of 28, 29, 30 and 31 days. -/
private def kind (ym : Int × Int) : Fin 4 :=
  if ym.2 = 2 then (if leap ym.1 then 1 else 0) else if ym.2 = 4 ∨ ym.2 = 6 ∨ ym.2 = 9 ∨ ym.2 = 11 then 2 else 3

/-- How likely they are. -/
private def monthly : Fin 4 → ℚ
  | 0 => 7575 / 120000
  | 1 => 2425 / 120000
  | 2 => 40000 / 120000
  | 3 => 70000 / 120000

/-- The years and months of the documentation. -/
private def yearMonth : Src (Shr (Int × Int)) := fun _ R s =>
  pairOf true (fun s => interval R i32 0 9999 s) (fun s => interval R i32 1 12 s) s

private theorem yearMonth_chance (E F : Int → Bool) (k l : Nat) (hk : ((Finset.Icc 0 9999).filter fun v => E v).card = k)
    (hl : ((Finset.Icc 1 12).filter fun v => F v).card = l) :
    Chance yearMonth (fun t => E t.value.1 && F t.value.2) (k / 10000 * (l / 12)) := by
  have h1 := C138_interval i32 (by decide) 0 9999 (by decide) (by decide) (by decide) (by decide) E
  have h2 := C138_interval i32 (by decide) 1 12 (by decide) (by decide) (by decide) (by decide) F
  rw [hk] at h1
  rw [hl] at h2
  have := C141_pair true _ _ E F _ _ h1 h2
  norm_num at this ⊢
  exact this

private theorem leaps : ((Finset.Icc (0 : Int) 9999).filter fun v => leap v).card = 2425 := by
  decide +kernel

/-- The dates of /repo/docs/Combinators.md:210-254. With `chain` all months are equally likely, so that a day of February is more
likely than one of January; with `filter` all 3652425 dates of the years 0 to 9999 are equally likely, and 1.02 attempts are
needed on average. -/
example (o : ∀ σ : Type, Rng σ → σ → List Nat → σ) (y m d : Int) (hy : 0 ≤ y ∧ y ≤ 9999) (hm : 1 ≤ m ∧ m ≤ 12)
    (hd : 1 ≤ d ∧ d ≤ 28 + (kind (y, m)).val) :
    Chance (valueOnly fun σ R s => dependency (yearMonth σ R) (fun v s => interval R i32 1 (28 + (kind v).val) s) (o σ R s) s)
      (fun x => x = ((y, m), d)) (1 / 120000 / (28 + (kind (y, m)).val)) ∧
    ChanceLimit (fun n σ R s => Comb.filter (pairOf true (yearMonth σ R) fun s => interval R i32 1 31 s)
      (fun x => 1 ≤ x.2 ∧ x.2 ≤ 28 + (kind x.1).val) n s) (fun t => t.value = ((y, m), d)) (1 / 3652425) ∧
    MeanRounds (fun n σ R s => Comb.filter (pairOf true (yearMonth σ R) fun s => interval R i32 1 31 s)
      (fun x => 1 ≤ x.2 ∧ x.2 ≤ 28 + (kind x.1).val) n s) (3720000 / 3652425) := by
  have hone : Chance yearMonth (fun _ => true) 1 := by
    have := yearMonth_chance (fun _ => true) (fun _ => true) 10000 12 (by decide +kernel) (by decide)
    norm_num at this ⊢
    exact this
  have hw : ∀ i : Fin 4, Chance yearMonth (fun t => decide (kind t.value = i))
      (monthly i) := by
    intro i
    match i with
    | 0 =>
      have := yearMonth_chance (fun y => !leap y) (fun m => decide (m = 2)) 7575 1 (by decide +kernel) (by decide)
      obtain ⟨e, he, hm⟩ := this
      refine ⟨e, he, ?_⟩
      have e0 : (fun t : Shr (Int × Int) => decide (kind t.value = 0)) =
          fun t => !leap t.value.1 && decide (t.value.2 = 2) := by
        funext t
        unfold kind
        split_ifs <;> simp_all
      rw [e0, hm]
      norm_num [monthly]
    | 1 =>
      have := yearMonth_chance leap (fun m => decide (m = 2)) 2425 1 leaps (by decide)
      obtain ⟨e, he, hm⟩ := this
      refine ⟨e, he, ?_⟩
      have e0 : (fun t : Shr (Int × Int) => decide (kind t.value = 1)) =
          fun t => leap t.value.1 && decide (t.value.2 = 2) := by
        funext t
        unfold kind
        split_ifs <;> simp_all
      rw [e0, hm]
      norm_num [monthly]
    | 2 =>
      have := yearMonth_chance (fun _ => true) (fun m => decide (m = 4 ∨ m = 6 ∨ m = 9 ∨ m = 11)) 10000 4 (by decide +kernel)
        (by decide)
      obtain ⟨e, he, hm⟩ := this
      refine ⟨e, he, ?_⟩
      have e0 : (fun t : Shr (Int × Int) => decide (kind t.value = 2)) =
          fun t => true && decide (t.value.2 = 4 ∨ t.value.2 = 6 ∨ t.value.2 = 9 ∨ t.value.2 = 11) := by
        funext t
        unfold kind
        split_ifs <;> simp_all
      rw [e0, hm]
      norm_num [monthly]
    | 3 =>
      have := yearMonth_chance (fun _ => true) (fun m => decide (¬ m = 2 ∧ ¬ (m = 4 ∨ m = 6 ∨ m = 9 ∨ m = 11))) 10000 7
        (by decide +kernel) (by decide)
      obtain ⟨e, he, hm⟩ := this
      refine ⟨e, he, ?_⟩
      have e0 : (fun t : Shr (Int × Int) => decide (kind t.value = 3)) =
          fun t => true && decide (¬ t.value.2 = 2 ∧ ¬ (t.value.2 = 4 ∨ t.value.2 = 6 ∨ t.value.2 = 9 ∨ t.value.2 = 11)) := by
        funext t
        unfold kind
        split_ifs <;> simp_all
      rw [e0, hm]
      norm_num [monthly]
  have hv : Chance yearMonth (fun t => decide (t.value = (y, m))) (1 / 120000) := by
    have := yearMonth_chance (fun x => decide (x = y)) (fun x => decide (x = m)) 1 1 (filter_single hy.1 hy.2)
      (filter_single hm.1 hm.2)
    norm_num at this
    simpa [Prod.ext_iff] using this
  have key := C180_chances yearMonth hone kind _ hw i32 (by decide) 1 31 (by decide) (by decide) (by decide) (fun _ => 1)
    (fun i => 28 + (i.val : Int)) (fun _ => le_rfl) (fun i => by omega) (fun i => by omega) o true
  have hsum : ∑ i : Fin 4, monthly i *
      (((28 + (i.val : Int) : Int) : ℚ) - ((1 : Int) : ℚ) + 1) = 3652425 / 120000 := by
    simp only [Fin.sum_univ_four]
    norm_num [monthly]
  simp only [hsum] at key
  obtain ⟨k1, k2⟩ := key
  obtain ⟨k3, k4⟩ := (k2 (y, m) d _ hv).1 hd.1 hd.2
  refine ⟨?_, ?_, ?_⟩
  · have e : (1 : ℚ) / 120000 / (((28 + ((kind (y, m)).val : Int) : Int) : ℚ) - ((1 : Int) : ℚ) + 1) =
        1 / 120000 / (28 + (kind (y, m)).val) := by
      push_cast
      ring
    rw [e] at k3
    exact k3
  · have e : (1 : ℚ) / 120000 / (3652425 / 120000) = 1 / 3652425 := by norm_num
    rw [e] at k4
    exact k4
  · have e : (((31 : Int) : ℚ) - ((1 : Int) : ℚ) + 1) / (3652425 / 120000) = 3720000 / 3652425 := by norm_num
    rw [e] at k1
    exact k1

/-- **C180** Shrinking keeps the pairs valid, with `dependency` as well as with `filter`, whatever engine and whenever shrinks are
looked at. -/
theorem C180_shrinks {σ : Type} (R : Rng σ) (g : Gen σ α) (T : IntType) (hT : T ∈ all) (L H : Int) (lo hi : α → Int)
    (hL : ∀ v, T.lo ≤ lo v) (h : ∀ v, lo v ≤ hi v) (hH : ∀ v, hi v ≤ T.hi) (o : List Nat → σ) (first : Bool) (n : Nat) (s s' : σ)
    (r : Shr (α × Int))
    (hr : dependency g (fun v s => interval R T (lo v) (hi v) s) o s = .ok (r, s') ∨
      Comb.filter (pairOf first g fun s => interval R T L H s) (fun x => lo x.1 ≤ x.2 ∧ x.2 ≤ hi x.1) n s = .ok (r, s'))
    (v : α) (d : Int) (hx : Reach r (v, d)) : lo v ≤ d ∧ d ≤ hi v := by
  rcases hr with hr | hr
  · obtain ⟨_, _, _, _, _, _, _, key⟩ := C38_dependency g _ o s s' r hr
    obtain ⟨_, u, ⟨s1, s2, hu⟩, hd⟩ := key v d hx
    obtain ⟨t', s'', e, hg⟩ := C17_interval R T hT (lo v) (hi v) s1 (hL v) (h v) (hH v)
    rw [show interval R T (lo v) (hi v) s1 = _ from hu] at e
    cases e
    exact hg.1 d hd
  · obtain ⟨_, _, _, key⟩ := C36_sound _ _ n s s' r hr
    simpa using (key (v, d) hx).1

/-- A die, and a number up to what it shows: a shrink of (6, 5). -/
example : ∃ r s', dependency (interval script i32 1 6) (fun v s => interval script i32 1 (max 1 v) s) (fun _ => [2]) [6, 5, 1, 1] =
    .ok (r, s') ∧ r.value = (6, 5) ∧ ∃ p ∈ r.shrinks.map Shr.value, p ≠ (6, 5) ∧ p.2 ≤ p.1 :=
  ⟨_, _, rfl, by decide +kernel, by decide +kernel⟩

end Verif
