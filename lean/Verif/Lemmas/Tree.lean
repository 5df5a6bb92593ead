import Verif.Spec.Tree
namespace Verif
variable {α β γ : Type}
namespace Shr

@[simp] theorem value_node (v : α) (ss) : (node v ss).value = v := rfl
@[simp] theorem shrinks_node (v : α) (ss) : (node v ss).shrinks = ss := rfl
@[simp] theorem value_leaf (v : α) : (leaf v).value = v := rfl
@[simp] theorem shrinks_leaf (v : α) : (leaf v).shrinks = [] := rfl
@[simp] theorem value_withShrinks (t : Shr α) (ss) : (t.withShrinks ss).value = t.value := rfl
@[simp] theorem shrinks_withShrinks (t : Shr α) (ss) : (t.withShrinks ss).shrinks = ss := rfl
theorem eta (t : Shr α) : node t.value t.shrinks = t := by cases t; rfl

@[simp] theorem mapList_eq (f : α → β) (ss) : mapList f ss = ss.map (map f) := by
  induction ss with
  | nil => rfl
  | cons s ss ih => simp [mapList, ih]
@[simp] theorem map_node (f : α → β) (v ss) : map f (node v ss) = node (f v) (ss.map (map f)) := by
  simp [map]
@[simp] theorem map_leaf (f : α → β) (v) : map f (leaf v) = leaf (f v) := by
  simp [leaf]
@[simp] theorem value_map (f : α → β) (t) : (map f t).value = f t.value := by cases t; simp
@[simp] theorem shrinks_map (f : α → β) (t) : (map f t).shrinks = t.shrinks.map (map f) := by
  cases t; simp

@[simp] theorem flatMapList_eq (f : α → Shr β) (ss) : flatMapList f ss = ss.map (flatMap f) := by
  induction ss with
  | nil => rfl
  | cons s ss ih => simp [flatMapList, ih]
@[simp] theorem value_flatMap (f : α → Shr β) (t) : (flatMap f t).value = (f t.value).value := by
  cases t; simp [flatMap]
@[simp] theorem shrinks_flatMap (f : α → Shr β) (t) :
    (flatMap f t).shrinks = t.shrinks.map (flatMap f) := by
  cases t; simp [flatMap]
theorem flatMap_eq_map (f : α → Shr β) (t) : flatMap f t = map (fun v => (f v).value) t := by
  induction t using ind with
  | h v ss ih =>
    simp only [flatMap, withShrinks, map_node, flatMapList_eq]
    congr 1
    exact List.map_congr_left ih

@[simp] theorem mapShrinkableList_eq (f : Shr α → Shr β) (ss) :
    mapShrinkableList f ss = ss.map (mapShrinkable f) := by
  induction ss with
  | nil => rfl
  | cons s ss ih => simp [mapShrinkableList, ih]
@[simp] theorem value_mapShrinkable (f : Shr α → Shr β) (t) :
    (mapShrinkable f t).value = (f t).value := by
  cases t; simp [mapShrinkable]
@[simp] theorem shrinks_mapShrinkable (f : Shr α → Shr β) (t) :
    (mapShrinkable f t).shrinks = t.shrinks.map (mapShrinkable f) := by
  cases t; simp [mapShrinkable]

@[simp] theorem filterKeptList_eq (c : α → Bool) (ss) :
    filterKeptList c ss = (ss.filter (fun s => c s.value)).map (filterKept c) := by
  induction ss with
  | nil => rfl
  | cons s ss ih =>
    simp only [filterKeptList, ih, List.filter_cons]
    split <;> simp
@[simp] theorem value_filterKept (c : α → Bool) (t) : (filterKept c t).value = t.value := by
  cases t; simp [filterKept]
@[simp] theorem shrinks_filterKept (c : α → Bool) (t) :
    (filterKept c t).shrinks = (t.shrinks.filter (fun s => c s.value)).map (filterKept c) := by
  cases t; simp [filterKept]

@[simp] theorem value_filterTolKept (c : α → Bool) (n t) : (filterTolKept c n t).value = t.value := by
  unfold filterTolKept; simp
@[simp] theorem shrinks_filterTolKept (c : α → Bool) (n t) :
    (filterTolKept c n t).shrinks = (filterStream c n t.shrinks).map (filterTolKept c n) := by
  rw [filterTolKept]; simp

@[simp] theorem concatList_eq (k : Shr α → List (Shr α)) (ss) :
    concatList k ss = ss.map (concat k) := by
  induction ss with
  | nil => rfl
  | cons s ss ih => simp [concatList, ih]
@[simp] theorem value_concat (k : Shr α → List (Shr α)) (t) : (concat k t).value = t.value := by
  cases t; simp [concat]
@[simp] theorem shrinks_concat (k : Shr α → List (Shr α)) (t) :
    (concat k t).shrinks = t.shrinks.map (concat k) ++ k t := by
  cases t; simp [concat]

@[simp] theorem andThenList_eq (k : Shr α → List (Shr α)) (ss) :
    andThenList k ss = ss.map (andThen k) := by
  induction ss with
  | nil => rfl
  | cons s ss ih => simp [andThenList, ih]
@[simp] theorem value_andThen (k : Shr α → List (Shr α)) (t) : (andThen k t).value = t.value := by
  cases t; simp only [andThen]; split <;> simp
theorem shrinks_andThen_nil (k : Shr α → List (Shr α)) {t} (h : t.shrinks = []) :
    (andThen k t).shrinks = k t := by
  cases t with
  | node v ss => simp at h; subst h; simp [andThen]
theorem shrinks_andThen_ne (k : Shr α → List (Shr α)) {t} (h : t.shrinks ≠ []) :
    (andThen k t).shrinks = t.shrinks.map (andThen k) := by
  cases t with
  | node v ss => cases ss <;> simp_all [andThen]

@[simp] theorem takeInt_nat {δ : Type} (n : Nat) (l : List δ) : takeInt n l = l.take n := by
  induction l generalizing n with
  | nil => simp [takeInt]
  | cons x xs ih =>
    cases n with
    | zero => simp [takeInt]
    | succ n =>
      rw [takeInt, if_neg (by omega), List.take_succ_cons]
      have : ((n + 1 : Nat) : Int) - 1 = (n : Int) := by omega
      rw [this, ih]
theorem takeInt_neg {δ : Type} (n : Int) (h : n < 0) (l : List δ) : takeInt n l = l := by
  induction l generalizing n with
  | nil => simp [takeInt]
  | cons x xs ih => rw [takeInt, if_neg (by omega), ih _ (by omega)]
theorem takeInt_sublist {δ : Type} (n : Int) (l : List δ) : (takeInt n l).Sublist l := by
  rcases (show n < 0 ∨ 0 ≤ n by omega) with h | h
  · rw [takeInt_neg n h]; exact List.Sublist.refl _
  · obtain ⟨m, rfl⟩ := Int.eq_ofNat_of_zero_le h
    rw [takeInt_nat]; exact List.take_sublist _ _

theorem takeList_eq (n k : Int) (ss : List (Shr α)) :
    takeList n k ss = (takeInt k ss).map (take n) := by
  induction ss generalizing k with
  | nil => simp [takeList, takeInt]
  | cons s ss ih => simp only [takeList, takeInt, ih]; split <;> simp
@[simp] theorem value_take (n : Int) (t : Shr α) : (take n t).value = t.value := by
  cases t; simp [take]
@[simp] theorem shrinks_take (n : Int) (t : Shr α) :
    (take n t).shrinks = (takeInt n t.shrinks).map (take n) := by
  cases t; simp [take, takeList_eq]

theorem historiesList_eq (ss : List (Shr α)) : historiesList ss = ss.flatMap histories := by
  induction ss with
  | nil => rfl
  | cons s ss ih => simp [historiesList, ih]
theorem histories_node (v : α) (ss) :
    histories (node v ss) = [v] :: (ss.flatMap histories).map (v :: ·) := by
  simp [histories, historiesList_eq]

@[simp] theorem at?_nil (t : Shr α) : t.at? [] = some t := by cases t; rfl
theorem at?_cons (t : Shr α) (i p) : t.at? (i :: p) = t.shrinks[i]?.bind (fun s => s.at? p) := by
  rw [Shr.at?]
  cases h : t.shrinks[i]? <;> simp
end Shr

open Shr

theorem Desc.trans {t s u : Shr α} (h : Desc t s) (h' : Desc s u) : Desc t u := by
  induction h with
  | refl => exact h'
  | step m _ ih => exact .step m (ih h')

theorem Desc.child {t s : Shr α} (h : s ∈ t.shrinks) : Desc t s := .step h (.refl s)

theorem Reach.self (t : Shr α) : Reach t t.value := ⟨t, .refl t, rfl⟩
theorem Reach.child {t s : Shr α} {v : α} (h : s ∈ t.shrinks) (hv : Reach s v) : Reach t v := by
  obtain ⟨u, hu, e⟩ := hv
  exact ⟨u, .step h hu, e⟩
theorem Reach.desc {t s : Shr α} {v : α} (h : Desc t s) (hv : Reach s v) : Reach t v := by
  obtain ⟨u, hu, e⟩ := hv
  exact ⟨u, h.trans hu, e⟩

theorem desc_iff {t u : Shr α} : Desc t u ↔ u = t ∨ ∃ s ∈ t.shrinks, Desc s u := by
  constructor
  · intro h
    cases h with
    | refl => exact .inl rfl
    | step m h => exact .inr ⟨_, m, h⟩
  · rintro (rfl | ⟨s, m, h⟩)
    · exact .refl _
    · exact .step m h

theorem reach_iff {t : Shr α} {v : α} : Reach t v ↔ t.value = v ∨ ∃ s ∈ t.shrinks, Reach s v := by
  constructor
  · rintro ⟨u, h, e⟩
    cases h with
    | refl => exact .inl e
    | step m h => exact .inr ⟨_, m, _, h, e⟩
  · rintro (e | ⟨s, m, h⟩)
    · exact ⟨t, .refl t, e⟩
    · exact .child m h

@[simp] theorem reach_leaf {v w : α} : Reach (leaf v) w ↔ v = w := by
  rw [reach_iff]; simp

/-- A position is a descendant and vice versa. -/
theorem desc_iff_at? {t u : Shr α} : Desc t u ↔ ∃ p, t.at? p = some u := by
  constructor
  · intro h
    induction h with
    | refl t => exact ⟨[], by simp⟩
    | @step t s u m _ ih =>
      obtain ⟨p, hp⟩ := ih
      obtain ⟨i, hi⟩ := List.mem_iff_getElem?.mp m
      exact ⟨i :: p, by simp [at?_cons, hi, hp]⟩
  · rintro ⟨p, hp⟩
    induction p generalizing t with
    | nil => simp at hp; subst hp; exact .refl _
    | cons i p ih =>
      rw [at?_cons] at hp
      cases h : t.shrinks[i]? with
      | none => simp [h] at hp
      | some s =>
        simp [h] at hp
        exact .step (List.mem_of_getElem? h) (ih hp)

theorem desc_map {f : α → β} {t : Shr α} {u : Shr β} :
    Desc (t.map f) u ↔ ∃ s, Desc t s ∧ u = s.map f := by
  constructor
  · intro h
    generalize e : t.map f = t' at h
    induction h generalizing t with
    | refl => exact ⟨t, .refl t, e.symm⟩
    | step m _ ih =>
      subst e
      simp only [shrinks_map, List.mem_map] at m
      obtain ⟨s, ms, rfl⟩ := m
      obtain ⟨w, hw, e⟩ := ih rfl
      exact ⟨w, .step ms hw, e⟩
  · rintro ⟨s, h, rfl⟩
    induction h with
    | refl => exact .refl _
    | @step t s u m _ ih => exact .step (by simpa using ⟨s, m, rfl⟩) ih

theorem reach_map {f : α → β} {t : Shr α} {w : β} :
    Reach (t.map f) w ↔ ∃ v, Reach t v ∧ w = f v := by
  constructor
  · rintro ⟨u, h, rfl⟩
    obtain ⟨s, hs, rfl⟩ := desc_map.mp h
    exact ⟨s.value, ⟨s, hs, rfl⟩, by simp⟩
  · rintro ⟨v, ⟨s, hs, rfl⟩, rfl⟩
    exact ⟨s.map f, desc_map.mpr ⟨s, hs, rfl⟩, by simp⟩

theorem reach_concat {k : Shr α → List (Shr α)} {t : Shr α} {v : α} :
    Reach (t.concat k) v ↔ ∃ s, Desc t s ∧ (s.value = v ∨ ∃ u ∈ k s, Reach u v) := by
  induction t using Shr.ind with
  | h x ss ih =>
    rw [reach_iff]
    simp only [value_concat, value_node, shrinks_concat, shrinks_node, List.mem_append, List.mem_map]
    constructor
    · rintro (e | ⟨s, (⟨s', m, rfl⟩ | m), h⟩)
      · exact ⟨_, .refl _, .inl e⟩
      · obtain ⟨w, hw, h⟩ := (ih _ m).mp h
        exact ⟨w, .step (by simpa using m) hw, h⟩
      · exact ⟨_, .refl _, .inr ⟨s, m, h⟩⟩
    · rintro ⟨s, hs, h⟩
      rw [desc_iff] at hs
      rcases hs with rfl | ⟨s', m, hd⟩
      · rcases h with h | ⟨u, m, h⟩
        · exact .inl h
        · exact .inr ⟨u, .inr m, h⟩
      · simp at m
        exact .inr ⟨_, .inl ⟨s', m, rfl⟩, (ih _ m).mpr ⟨s, hd, h⟩⟩

theorem reach_andThen {k : Shr α → List (Shr α)} {t : Shr α} {v : α} :
    Reach (t.andThen k) v ↔
      ∃ s, Desc t s ∧ (s.value = v ∨ (s.shrinks = [] ∧ ∃ u ∈ k s, Reach u v)) := by
  induction t using Shr.ind with
  | h x ss ih =>
    rw [reach_iff]
    simp only [value_andThen, value_node]
    constructor
    · rintro (e | ⟨s, m, h⟩)
      · exact ⟨_, .refl _, .inl e⟩
      · by_cases hs : ss = []
        · rw [shrinks_andThen_nil _ (by simpa)] at m
          exact ⟨_, .refl _, .inr ⟨by simpa, s, m, h⟩⟩
        · rw [shrinks_andThen_ne _ (by simpa)] at m
          obtain ⟨s', m', rfl⟩ := List.mem_map.mp m
          obtain ⟨w, hw, h⟩ := (ih _ m').mp h
          exact ⟨w, .step (by simpa using m') hw, h⟩
    · rintro ⟨s, hs, h⟩
      rw [desc_iff] at hs
      rcases hs with rfl | ⟨s', m, hd⟩
      · rcases h with h | ⟨e, u, m, h⟩
        · exact .inl h
        · exact .inr ⟨u, by rw [shrinks_andThen_nil _ e]; exact m, h⟩
      · simp at m
        have hne : (node x ss).shrinks ≠ [] := by intro e; simp at e; simp [e] at m
        exact .inr ⟨s'.andThen k, by rw [shrinks_andThen_ne _ hne]; exact List.mem_map.mpr ⟨s', m, rfl⟩,
          (ih _ m).mpr ⟨s, hd, h⟩⟩

end Verif
