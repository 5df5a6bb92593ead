import Verif.Model.BinSearch
import Verif.Lemmas.Tree
import Verif.Spec.Greedy
namespace Verif
open Shr

namespace Shr
variable {α β : Type}
theorem valuesList_eq (ss : List (Shr α)) : valuesList ss = ss.flatMap values := by
  induction ss with
  | nil => rfl
  | cons s ss ih => simp [valuesList, ih]
@[simp] theorem values_node (v : α) (ss) : values (node v ss) = v :: ss.flatMap values := by
  simp [values, valuesList_eq]
@[simp] theorem values_leaf (v : α) : values (leaf v) = [v] := by simp [leaf]
theorem values_map (f : α → β) (t : Shr α) : (t.map f).values = t.values.map f := by
  induction t using ind with
  | h v ss ih =>
    simp only [map_node, values_node, List.map_cons, List.map_flatMap, List.flatMap_map]
    congr 1
    rw [List.flatMap_def, List.flatMap_def]
    congr 1
    exact List.map_congr_left ih
theorem mem_values {t : Shr α} {v : α} : v ∈ t.values ↔ Reach t v := by
  induction t using ind with
  | h x ss ih =>
    rw [reach_iff]
    simp only [values_node, List.mem_cons, List.mem_flatMap, value_node, shrinks_node]
    constructor
    · rintro (e | ⟨s, m, h⟩)
      · exact .inl e.symm
      · exact .inr ⟨s, m, (ih s m).mp h⟩
    · rintro (e | ⟨s, m, h⟩)
      · exact .inl e.symm
      · exact .inr ⟨s, m, (ih s m).mpr h⟩
end Shr

namespace BinSearch

/-- The machine gives the exact result for every number of `[lo, hi]`. -/
def Exact (norm : Norm) (lo hi : Int) : Prop := ∀ x, lo ≤ x → x ≤ hi → norm x = .ok x

theorem exact_S64 : Exact normS64 (-2^63) (2^63 - 1) := by
  intro x h1 h2; simp only [normS64]; rw [if_pos ⟨h1, by omega⟩]
theorem exact_U64 : Exact normU64 0 (2^64 - 1) := by
  intro x h1 h2; simp only [normU64]; rw [Int.emod_eq_of_lt h1 (by omega)]
theorem exact_U64Trap : Exact normU64Trap 0 (2^64 - 1) := by
  intro x h1 h2; simp only [normU64Trap]; rw [if_pos ⟨h1, by omega⟩]

/-- `mid` of `posTree`. -/
def midN (min max : Nat) : Nat := min / 2 + max / 2 + if min % 2 ≠ 0 ∧ max % 2 ≠ 0 then 1 else 0

theorem midN_eq (min max : Nat) : midN min max = (min + max) / 2 := by
  unfold midN; split <;> omega

theorem posTree_succ (fuel min max : Nat) :
    posTree (fuel + 1) min max =
      if min + 1 ≥ max then []
      else if min + 2 ≥ max then [leaf ((min + max) / 2)]
      else node ((min + max) / 2) (posTree fuel min ((min + max) / 2)) ::
        posTree fuel ((min + max) / 2) max := by
  have := midN_eq min max
  unfold midN at this
  simp only [posTree, this]

theorem genpos_eq {norm : Norm} {hi : Int} (hn : Exact norm 0 hi) (fuel min max : Nat)
    (hmm : min < max) (hhi : (max : Int) ≤ hi) (hf : max - min ≤ fuel) :
    genpos norm fuel min max = .ok ((posTree fuel min max).map (Shr.map Int.ofNat)) := by
  induction fuel generalizing min max with
  | zero => omega
  | succ fuel ih =>
    have h1 : ((min : Int).tdiv 2) = ((min / 2 : Nat) : Int) := by
      rw [Int.tdiv_eq_ediv_of_nonneg (by omega)]; omega
    have h2 : ((max : Int).tdiv 2) = ((max / 2 : Nat) : Int) := by
      rw [Int.tdiv_eq_ediv_of_nonneg (by omega)]; omega
    have h3 : ((min : Int).tmod 2) = ((min % 2 : Nat) : Int) := by
      rw [Int.tmod_eq_emod_of_nonneg (by omega)]; omega
    have h4 : ((max : Int).tmod 2) = ((max % 2 : Nat) : Int) := by
      rw [Int.tmod_eq_emod_of_nonneg (by omega)]; omega
    have hmid : (((min / 2 : Nat) : Int) + ((max / 2 : Nat) : Int) +
        if ((min % 2 : Nat) : Int) ≠ 0 ∧ ((max % 2 : Nat) : Int) ≠ 0 then 1 else 0) =
        (((min + max) / 2 : Nat) : Int) := by
      split <;> omega
    rw [posTree_succ]
    simp only [genpos, h1, h2, h3, h4]
    rw [hn _ (by omega) (by omega), Outcome.ok_bind, hmid, hn _ (by omega) (by omega), Outcome.ok_bind,
      hn _ (by omega) (by omega), Outcome.ok_bind]
    by_cases c1 : min + 1 ≥ max
    · rw [if_pos (by omega), if_pos c1]; rfl
    · rw [if_neg (by omega), if_neg c1, hn _ (by omega) (by omega), Outcome.ok_bind]
      by_cases c2 : min + 2 ≥ max
      · rw [if_pos (by omega), if_pos c2]; simp [leaf]
      · rw [if_neg (by omega), if_neg c2, ih _ _ (by omega) (by omega) (by omega),
          Outcome.ok_bind, ih _ _ (by omega) (by omega) (by omega)]
        simp [withShrinks]

/-- The negation of a natural number. -/
def negNat (n : Nat) : Int := -(n : Int)

theorem genneg_eq {norm : Norm} {lo : Int} (hn : Exact norm lo 0) (fuel min max : Nat)
    (hmm : min < max) (hlo : lo ≤ -(max : Int)) (hf : max - min ≤ fuel) :
    genneg norm fuel (-(max : Int)) (-(min : Int)) =
      .ok ((posTree fuel min max).map (Shr.map negNat)) := by
  induction fuel generalizing min max with
  | zero => omega
  | succ fuel ih =>
    have h1 : ((-(min : Int)).tdiv 2) = -((min / 2 : Nat) : Int) := by
      rw [Int.neg_tdiv, Int.tdiv_eq_ediv_of_nonneg (by omega)]; omega
    have h2 : ((-(max : Int)).tdiv 2) = -((max / 2 : Nat) : Int) := by
      rw [Int.neg_tdiv, Int.tdiv_eq_ediv_of_nonneg (by omega)]; omega
    have h3 : ((-(min : Int)).tmod 2) = -((min % 2 : Nat) : Int) := by
      rw [Int.neg_tmod, Int.tmod_eq_emod_of_nonneg (by omega)]; omega
    have h4 : ((-(max : Int)).tmod 2) = -((max % 2 : Nat) : Int) := by
      rw [Int.neg_tmod, Int.tmod_eq_emod_of_nonneg (by omega)]; omega
    have hmid : (-((max / 2 : Nat) : Int) + -((min / 2 : Nat) : Int) +
        if -((max % 2 : Nat) : Int) ≠ 0 ∧ -((min % 2 : Nat) : Int) ≠ 0 then -1 else 0) =
        -(((min + max) / 2 : Nat) : Int) := by
      split <;> omega
    rw [posTree_succ]
    simp only [genneg, h1, h2, h3, h4]
    have hm1 : norm (-(max : Int) + 1) = .ok (-(max : Int) + 1) := hn _ (by omega) (by omega)
    rw [hn _ (by omega) (by omega), Outcome.ok_bind, hmid, hn _ (by omega) (by omega), Outcome.ok_bind,
      hm1, Outcome.ok_bind]
    by_cases c1 : min + 1 ≥ max
    · rw [if_pos (by omega), if_pos c1]; rfl
    · rw [if_neg (by omega), if_neg c1]
      have hm2 : norm (-(max : Int) + 2) = .ok (-(max : Int) + 2) := hn _ (by omega) (by omega)
      rw [hm2, Outcome.ok_bind]
      by_cases c2 : min + 2 ≥ max
      · rw [if_pos (by omega), if_pos c2]; simp [leaf, negNat]
      · rw [if_neg (by omega), if_neg c2, ih _ _ (by omega) (by omega) (by omega),
          Outcome.ok_bind, ih _ _ (by omega) (by omega) (by omega)]
        simp [withShrinks, negNat]

/-- More fuel changes nothing. -/
theorem posTree_fuel (fuel fuel' min max : Nat) (h : max - min ≤ fuel) (h' : max - min ≤ fuel') :
    posTree fuel min max = posTree fuel' min max := by
  induction fuel generalizing fuel' min max with
  | zero =>
    cases fuel' with
    | zero => rfl
    | succ f => rw [posTree_succ, if_pos (by omega)]; rfl
  | succ fuel ih =>
    cases fuel' with
    | zero => rw [posTree_succ, if_pos (by omega)]; rfl
    | succ f =>
      rw [posTree_succ, posTree_succ]
      split
      · rfl
      · split
        · rfl
        · rw [ih f _ _ (by omega) (by omega), ih f _ _ (by omega) (by omega)]

theorem tree_pos {norm : Norm} {hi : Int} (hn : Exact norm 0 hi) (n : Nat) (h : (n : Int) ≤ hi) :
    tree norm n = .ok ((bsNat n).map Int.ofNat) := by
  unfold tree bsNat
  by_cases h0 : n = 0
  · subst h0; simp [leaf]
  · rw [if_neg (by omega), if_pos (by omega), if_neg h0]
    have := genpos_eq hn (n + 1) 0 n (by omega) h (by omega)
    simp only [Int.natAbs_natCast] at this ⊢
    rw [show ((0 : Nat) : Int) = 0 from rfl] at this
    rw [this, posTree_fuel (n + 1) n 0 n (by omega) (by omega)]
    simp [withShrinks]

theorem tree_neg {norm : Norm} {lo : Int} (hn : Exact norm lo 0) (n : Nat)
    (h : lo ≤ -(n : Int)) : tree norm (-(n : Int)) = .ok ((bsNat n).map negNat) := by
  unfold tree bsNat
  by_cases h0 : n = 0
  · subst h0; simp [leaf, negNat]
  · rw [if_neg (by omega), if_neg (by omega), if_neg h0]
    have := genneg_eq hn (n + 1) 0 n (by omega) h (by omega)
    simp only [Int.natAbs_neg, Int.natAbs_natCast] at this ⊢
    rw [show -((0 : Nat) : Int) = 0 from rfl] at this
    rw [this, posTree_fuel (n + 1) n 0 n (by omega) (by omega)]
    simp [withShrinks, negNat]

/-- Every tree of `posTree` has values strictly between the bounds, with strictly decreasing steps. -/
theorem posTree_desc (fuel min max : Nat) {s u : Shr Nat} (hs : s ∈ posTree fuel min max)
    (hu : Desc s u) : min < u.value ∧ u.value < max ∧ ∀ c ∈ u.shrinks, c.value < u.value := by
  induction fuel generalizing min max s u with
  | zero => simp [posTree] at hs
  | succ fuel ih =>
    rw [posTree_succ] at hs
    split at hs
    · simp at hs
    · split at hs
      · simp at hs; subst hs
        rw [desc_iff] at hu
        rcases hu with rfl | ⟨s, m, _⟩
        · simp; omega
        · simp at m
      · rw [List.mem_cons] at hs
        rcases hs with rfl | hs
        · rw [desc_iff] at hu
          rcases hu with rfl | ⟨s, m, hd⟩
          · refine ⟨by simp; omega, by simp; omega, fun c hc => ?_⟩
            simp at hc ⊢
            exact (ih _ _ hc (.refl c)).2.1
          · simp at m
            have := ih _ _ m hd
            exact ⟨this.1, by omega, this.2.2⟩
        · have := ih _ _ hs hu
          exact ⟨by omega, this.2.1, this.2.2⟩

/-- `posTree` contains every number strictly between the bounds exactly once, and nothing else. -/
theorem posTree_count (fuel min max : Nat) (h : max - min ≤ fuel) (w : Nat) :
    ((posTree fuel min max).flatMap values).count w = if min < w ∧ w < max then 1 else 0 := by
  induction fuel generalizing min max with
  | zero => rw [if_neg (by omega)]; simp [posTree]
  | succ fuel ih =>
    rw [posTree_succ]
    split
    · rw [if_neg (by omega)]; simp
    · split
      · simp only [List.flatMap_cons, values_leaf, List.flatMap_nil, List.append_nil,
          List.count_cons, List.count_nil, beq_iff_eq]
        split <;> split <;> omega
      · rw [List.flatMap_cons, List.count_append, values_node, List.count_cons,
          ih _ _ (by omega), ih _ _ (by omega)]
        simp only [beq_iff_eq]
        repeat' split
        all_goals omega

/-- The number of candidates is logarithmic. -/
theorem posTree_length (k fuel min max : Nat) (h : max - min ≤ 2 ^ k) :
    (posTree fuel min max).length ≤ k := by
  induction fuel generalizing k min max with
  | zero => simp [posTree]
  | succ fuel ih =>
    rw [posTree_succ]
    split
    · simp
    · cases k with
      | zero => simp at h; omega
      | succ k =>
        split
        · simp
        · rw [Nat.pow_succ] at h
          have := ih k ((min + max) / 2) max (by omega)
          simp; omega

/-- All positions of `posTree` have logarithmic depth and width. -/
theorem posTree_at (k fuel min max : Nat) (h : max - min ≤ 2 ^ k) {s u : Shr Nat} {p : List Nat}
    (hs : s ∈ posTree fuel min max) (hp : s.at? p = some u) :
    p.length + 1 ≤ k ∧ p.length + 1 + u.shrinks.length ≤ k := by
  induction fuel generalizing k min max s p with
  | zero => simp [posTree] at hs
  | succ fuel ih =>
    rw [posTree_succ] at hs
    split at hs
    · simp at hs
    · cases k with
      | zero => simp at h; omega
      | succ k =>
        rw [Nat.pow_succ] at h
        split at hs
        · simp at hs; subst hs
          cases p with
          | nil => simp at hp; subst hp; simp
          | cons i p => simp [at?_cons] at hp
        · rw [List.mem_cons] at hs
          rcases hs with rfl | hs
          · cases p with
            | nil =>
              simp at hp; subst hp
              have := posTree_length k fuel min ((min + max) / 2) (by omega)
              simp; omega
            | cons i p =>
              rw [at?_cons] at hp
              simp only [shrinks_node] at hp
              cases hi : (posTree fuel min ((min + max) / 2))[i]? with
              | none => simp [hi] at hp
              | some c =>
                simp [hi] at hp
                have := ih k _ _ (by omega) (List.mem_of_getElem? hi) hp
                simp; omega
          · have := ih k _ _ (by omega) hs hp
            omega

theorem greedyList_posTree (fails : Nat → Bool) (k fuel min max : Nat) (h : max - min ≤ fuel)
    (hmin : min < k) (hmax : k ≤ max) (hf : ∀ w, min < w → w < max → (fails w = true ↔ k ≤ w)) :
    greedyList fails max (posTree fuel min max) = k ∧ ∀ cur, k < max →
      greedyList fails cur (posTree fuel min max) = k := by
  induction fuel generalizing min max with
  | zero => omega
  | succ fuel ih =>
    rw [posTree_succ]
    by_cases c1 : min + 1 ≥ max
    · rw [if_pos c1]
      exact ⟨by simp [greedyList]; omega, fun _ _ => by omega⟩
    · rw [if_neg c1]
      by_cases c2 : min + 2 ≥ max
      · rw [if_pos c2]
        have hw := hf ((min + max) / 2) (by omega) (by omega)
        by_cases hk : k ≤ (min + max) / 2
        · have : fails ((min + max) / 2) = true := hw.mpr hk
          simp [greedyList, this, greedy, leaf]; omega
        · have : fails ((min + max) / 2) = false := by
            rw [← Bool.not_eq_true, hw]; exact hk
          simp only [greedyList, this, leaf, value_node]
          exact ⟨by simp; omega, fun cur hc => by omega⟩
      · rw [if_neg c2]
        have hw := hf ((min + max) / 2) (by omega) (by omega)
        by_cases hk : k ≤ (min + max) / 2
        · have h1 : fails ((min + max) / 2) = true := hw.mpr hk
          have := (ih min ((min + max) / 2) (by omega) hmin hk
            (fun w a b => hf w a (by omega))).1
          simp [greedyList, h1, greedy, this]
        · have h1 : fails ((min + max) / 2) = false := by
            rw [← Bool.not_eq_true, hw]; exact hk
          have := ih ((min + max) / 2) max (by omega) (by omega) hmax
            (fun w a b => hf w (by omega) b)
          simp only [greedyList, value_node, h1]
          exact ⟨by simpa using this.1, fun cur hc => by simpa using this.2 cur hc⟩

theorem bsNat_value (n : Nat) : (bsNat n).value = n := rfl

theorem bsNat_desc (n : Nat) {u : Shr Nat} (h : Desc (bsNat n) u) :
    u.value ≤ n ∧ ∀ c ∈ u.shrinks, c.value < u.value := by
  rw [desc_iff] at h
  rcases h with rfl | ⟨s, m, hd⟩
  · refine ⟨Nat.le_refl _, fun c hc => ?_⟩
    unfold bsNat at hc ⊢
    simp only [shrinks_node, value_node] at hc ⊢
    split at hc
    · simp at hc
    · rw [List.mem_cons] at hc
      rcases hc with rfl | hc
      · simp; omega
      · exact (posTree_desc n 0 n hc (.refl c)).2.1
  · unfold bsNat at m
    simp only [shrinks_node] at m
    split at m
    · simp at m
    · rw [List.mem_cons] at m
      rcases m with rfl | m
      · rw [desc_iff] at hd
        rcases hd with rfl | ⟨s, m, _⟩
        · simp
        · simp at m
      · have := posTree_desc n 0 n m hd
        exact ⟨by omega, this.2.2⟩

theorem bsNat_count (n w : Nat) : (bsNat n).values.count w = if w ≤ n then 1 else 0 := by
  unfold bsNat
  rw [values_node]
  by_cases h0 : n = 0
  · subst h0; simp [List.count_cons]; split <;> split <;> omega
  · rw [if_neg h0, List.flatMap_cons, List.count_cons, List.count_append, posTree_count _ _ _ (by omega)]
    simp only [values_leaf, List.count_cons, List.count_nil, beq_iff_eq]
    repeat' split
    all_goals omega

theorem bsNat_reach (n w : Nat) : Reach (bsNat n) w ↔ w ≤ n := by
  rw [← mem_values, ← List.count_pos_iff, bsNat_count]
  split <;> omega

theorem bsNat_at (k n : Nat) (h : n ≤ 2 ^ k) (hk : 0 < k) {u : Shr Nat} {p : List Nat}
    (hp : (bsNat n).at? p = some u) : p.length ≤ k ∧ p.length + u.shrinks.length ≤ k + 1 := by
  cases p with
  | nil =>
    simp at hp; subst hp
    unfold bsNat
    have := posTree_length k n 0 n (by omega)
    refine ⟨by simp, ?_⟩
    simp only [shrinks_node]
    split
    · simp
    · simp; omega
  | cons i p =>
    rw [at?_cons] at hp
    unfold bsNat at hp
    simp only [shrinks_node] at hp
    split at hp
    · simp at hp
    · cases i with
      | zero =>
        simp at hp
        cases p with
        | nil => simp at hp; subst hp; simp; omega
        | cons j p => simp [at?_cons] at hp
      | succ i =>
        simp only [List.getElem?_cons_succ] at hp
        cases hi : (posTree n 0 n)[i]? with
        | none => simp [hi] at hp
        | some c =>
          simp [hi] at hp
          have := posTree_at k n 0 n (by omega) (List.mem_of_getElem? hi) hp
          simp; omega

theorem bsNat_greedy (fails : Nat → Bool) (k n : Nat) (hk : k ≤ n)
    (hf : ∀ w, w < n → (fails w = true ↔ k ≤ w)) : (bsNat n).greedy fails = k := by
  unfold bsNat
  rw [greedy]
  by_cases h0 : n = 0
  · subst h0; simp [greedyList]; omega
  · rw [if_neg h0, greedyList]
    have hw := hf 0 (by omega)
    by_cases hk0 : k = 0
    · subst hk0
      have : fails 0 = true := hw.mpr (by omega)
      simp [this, leaf, greedy, greedyList]
    · have : fails 0 = false := by rw [← Bool.not_eq_true, hw]; omega
      simp only [value_leaf, this]
      have := (greedyList_posTree fails k n 0 n (by omega) (by omega) hk (fun w _ b => hf w b)).1
      simpa using this

end BinSearch

namespace Shr
variable {α β : Type}
theorem greedy_map (f : α → β) (fails : β → Bool) (t : Shr α) :
    (t.map f).greedy fails = f (t.greedy (fun a => fails (f a))) := by
  induction t using ind with
  | h v ss ih =>
    rw [map_node, greedy, greedy]
    induction ss with
    | nil => simp [greedyList]
    | cons c cs ihc =>
      simp only [List.map_cons, greedyList, value_map]
      split
      · exact ih c (by simp)
      · exact ihc (fun s hs => ih s (by simp [hs]))

theorem at?_map (f : α → β) (t : Shr α) (p : List Nat) : (t.map f).at? p = (t.at? p).map (map f) := by
  induction p generalizing t with
  | nil => simp
  | cons i p ih =>
    rw [at?_cons, at?_cons]
    simp only [shrinks_map, List.getElem?_map]
    cases t.shrinks[i]? <;> simp [ih]
end Shr
end Verif
