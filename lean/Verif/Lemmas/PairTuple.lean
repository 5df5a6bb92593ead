import Verif.Spec.Draws
import Verif.Lemmas.Tree
import Verif.Model.PairTuple
namespace Verif
open Shr
variable {σ α β : Type}

/-- Every step in the tree `t` relates the value before to the value after by `E`. -/
def AllEdges (E : α → α → Prop) (t : Shr α) : Prop :=
  ∀ s, Desc t s → ∀ c ∈ s.shrinks, E s.value c.value

theorem desc_concat {k : Shr α → List (Shr α)} {t u : Shr α} :
    Desc (t.concat k) u ↔
      (∃ s, Desc t s ∧ u = s.concat k) ∨ ∃ s, Desc t s ∧ ∃ w ∈ k s, Desc w u := by
  constructor
  · intro h
    generalize e : t.concat k = t' at h
    induction h generalizing t with
    | refl => exact .inl ⟨t, .refl t, e.symm⟩
    | @step t₁ s u m hd ih =>
      subst e
      rw [shrinks_concat, List.mem_append, List.mem_map] at m
      rcases m with ⟨s', m', rfl⟩ | m
      · rcases ih rfl with ⟨w, hw, e⟩ | ⟨w, hw, x, hx, hd'⟩
        · exact .inl ⟨w, .step m' hw, e⟩
        · exact .inr ⟨w, .step m' hw, x, hx, hd'⟩
      · exact .inr ⟨t, .refl t, s, m, hd⟩
  · have lift : ∀ {t s : Shr α}, Desc t s → Desc (t.concat k) (s.concat k) := by
      intro t s h
      induction h with
      | refl => exact .refl _
      | @step t s u m _ ih =>
        exact .step (by rw [shrinks_concat]; exact List.mem_append_left _ (List.mem_map.mpr ⟨s, m, rfl⟩)) ih
    rintro (⟨s, h, rfl⟩ | ⟨s, h, w, hw, hd⟩)
    · exact lift h
    · exact (lift h).trans (.step (by rw [shrinks_concat]; exact List.mem_append_right _ hw) hd)

theorem AllEdges.concat {E : α → α → Prop} {k : Shr α → List (Shr α)} {t : Shr α}
    (h : AllEdges E t) (hk : ∀ s, Desc t s → ∀ w ∈ k s, E s.value w.value ∧ AllEdges E w) :
    AllEdges E (t.concat k) := by
  intro s hs c hc
  rcases desc_concat.mp hs with ⟨s', h', rfl⟩ | ⟨s', h', w, hw, hd⟩
  · rw [shrinks_concat, List.mem_append, List.mem_map] at hc
    rcases hc with ⟨c', hc', rfl⟩ | hc
    · simpa using h s' h' c' hc'
    · simpa using (hk s' h' c hc).1
  · exact (hk s' h' w hw).2 s hd c hc

theorem AllEdges.map {E : β → β → Prop} {f : α → β} {t : Shr α} :
    AllEdges E (t.map f) ↔ AllEdges (fun x y => E (f x) (f y)) t := by
  constructor
  · intro h s hs c hc
    have := h (s.map f) (desc_map.mpr ⟨s, hs, rfl⟩) (c.map f) (by simpa using ⟨c, hc, rfl⟩)
    simpa using this
  · intro h s hs c hc
    obtain ⟨s', hs', rfl⟩ := desc_map.mp hs
    rw [shrinks_map, List.mem_map] at hc
    obtain ⟨c', hc', rfl⟩ := hc
    simpa using h s' hs' c' hc'

theorem AllEdges.mono {E F : α → α → Prop} {t : Shr α} (h : AllEdges E t) (i : ∀ x y, E x y → F x y) :
    AllEdges F t := fun s hs c hc => i _ _ (h s hs c hc)

theorem AllEdges.leaf {E : α → α → Prop} {v : α} : AllEdges E (Shr.leaf v) := by
  intro s hs c hc
  rw [desc_iff] at hs
  simp at hs
  subst hs
  simp at hc

namespace PairTuple
variable {n : Nat} {A : Fin n → Type}

theorem genStream_eq (N : Fin n) (p : Shr (Tup A)) :
    genStream N p = (p.value N).shrinks.map
      (fun c => c.map (fun v => Function.update p.value N (leaf v))) := by
  unfold genStream
  rw [flatMap_eq_map, shrinks_map]
  rfl

/-- State after the components below `N` have been added. -/
structure Stage (comps : Tup A) (N : Nat) (t : Shr (Tup A)) : Prop where
  sound : ∀ s, Desc t s → ∀ i : Fin n,
    (i.val < N → Reach (comps i) (s.value i).value) ∧ (N ≤ i.val → s.value i = comps i)
  complete : ∀ v : (i : Fin n) → A i, (∀ i, Reach (comps i) (v i)) →
    ∃ s, Desc t s ∧ (∀ i : Fin n, i.val < N → (s.value i).value = v i)

theorem Stage.next {comps : Tup A} {N : Nat} (h : N < n) {t : Shr (Tup A)} (st : Stage comps N t) :
    Stage comps (N + 1) (t.concat (genStream ⟨N, h⟩)) := by
  constructor
  · intro s hs i
    rcases desc_concat.mp hs with ⟨s', hs', rfl⟩ | ⟨s', hs', w, hw, hd⟩
    · have := st.sound s' hs' i
      rw [value_concat]
      refine ⟨fun hi => ?_, fun hi => this.2 (by omega)⟩
      by_cases e : i.val = N
      · rw [this.2 (by omega)]; exact Reach.self _
      · exact this.1 (by omega)
    · have := st.sound s' hs' i
      rw [genStream_eq, List.mem_map] at hw
      obtain ⟨c, hc, rfl⟩ := hw
      obtain ⟨d, hd', rfl⟩ := desc_map.mp hd
      rw [value_map]
      have hN := (st.sound s' hs' ⟨N, h⟩).2 (Nat.le_refl _)
      by_cases e : i = ⟨N, h⟩
      · subst e
        rw [Function.update_self]
        refine ⟨fun _ => ?_, fun hi => by simp at hi; omega⟩
        exact ⟨d, .step (by rw [← hN]; exact hc) hd', rfl⟩
      · have e' : i.val ≠ N := fun h' => e (Fin.ext h')
        rw [Function.update_of_ne e]
        exact ⟨fun hi => this.1 (by omega), fun hi => this.2 (by omega)⟩
  · intro v hv
    obtain ⟨s, hs, hsv⟩ := st.complete v hv
    have hN := (st.sound s hs ⟨N, h⟩).2 (Nat.le_refl _)
    rcases reach_iff.mp (hv ⟨N, h⟩) with e | ⟨c, hc, d, hd, e⟩
    · refine ⟨s.concat _, desc_concat.mpr (.inl ⟨s, hs, rfl⟩), fun i hi => ?_⟩
      rw [value_concat]
      by_cases ei : i = ⟨N, h⟩
      · subst ei; rw [hN]; exact e
      · exact hsv i (by have : i.val ≠ N := fun h' => ei (Fin.ext h'); omega)
    · refine ⟨d.map (fun v => Function.update s.value ⟨N, h⟩ (leaf v)),
        desc_concat.mpr (.inr ⟨s, hs, _, ?_, desc_map.mpr ⟨d, hd, rfl⟩⟩), fun i hi => ?_⟩
      · rw [genStream_eq]; exact List.mem_map.mpr ⟨c, by rw [hN]; exact hc, rfl⟩
      · rw [value_map]
        by_cases ei : i = ⟨N, h⟩
        · subst ei; rw [Function.update_self]; exact e
        · rw [Function.update_of_ne ei]
          exact hsv i (by have : i.val ≠ N := fun h' => ei (Fin.ext h'); omega)

theorem Stage.final {comps : Tup A} {N : Nat} {t : Shr (Tup A)} (hN : N ≤ n) (st : Stage comps N t) :
    Stage comps n (concatHelper N t) := by
  induction hk : n - N generalizing N t with
  | zero =>
    have : N = n := by omega
    subst this
    rw [concatHelper, dif_neg (by omega)]; exact st
  | succ k ih =>
    rw [concatHelper, dif_pos (by omega)]
    exact ih (by omega) (st.next (by omega)) (by omega)

theorem stage_final (comps : Tup A) : Stage comps n (concatHelper 0 (leaf comps)) := by
  refine Stage.final (Nat.zero_le _) ⟨?_, ?_⟩
  · intro s hs i
    rw [desc_iff] at hs
    simp at hs
    subst hs
    exact ⟨fun h => by omega, fun _ => rfl⟩
  · intro v _
    exact ⟨_, .refl _, fun i hi => by omega⟩

/-- Only component `i` changes, by a step in its own tree. -/
def TStep (comps : Tup A) (x y : Tup A) : Prop :=
  ∃ i : Fin n, (∀ j, j ≠ i → (y j).value = (x j).value) ∧
    ∃ a, Desc (comps i) a ∧ a.value = (x i).value ∧ ∃ b ∈ a.shrinks, b.value = (y i).value

theorem edges_next {comps : Tup A} {N : Nat} (h : N < n) {t : Shr (Tup A)} (st : Stage comps N t)
    (he : AllEdges (TStep comps) t) : AllEdges (TStep comps) (t.concat (genStream ⟨N, h⟩)) := by
  refine he.concat fun s hs w hw => ?_
  have hN := (st.sound s hs ⟨N, h⟩).2 (Nat.le_refl _)
  rw [genStream_eq, List.mem_map] at hw
  obtain ⟨c, hc, rfl⟩ := hw
  constructor
  · refine ⟨⟨N, h⟩, fun j hj => by rw [value_map, Function.update_of_ne hj], s.value ⟨N, h⟩, ?_, rfl, c,
      hc, by rw [value_map, Function.update_self]; rfl⟩
    rw [hN]; exact .refl _
  · intro d hd e he'
    obtain ⟨d', hd', rfl⟩ := desc_map.mp hd
    rw [shrinks_map, List.mem_map] at he'
    obtain ⟨e', he', rfl⟩ := he'
    refine ⟨⟨N, h⟩, fun j hj => by simp [Function.update_of_ne hj], d', ?_, by simp, e', he', by simp⟩
    rw [← hN]; exact .step hc hd'

theorem edges_final {comps : Tup A} {N : Nat} {t : Shr (Tup A)} (hN : N ≤ n) (st : Stage comps N t)
    (he : AllEdges (TStep comps) t) : AllEdges (TStep comps) (concatHelper N t) := by
  induction hk : n - N generalizing N t with
  | zero =>
    have : N = n := by omega
    subst this
    rw [concatHelper, dif_neg (by omega)]; exact he
  | succ k ih =>
    rw [concatHelper, dif_pos (by omega)]
    exact ih (by omega) (st.next (by omega)) (edges_next _ st he) (by omega)

theorem shrinks_concatHelper_leaf (N : Nat) (hN : N ≤ n) (t : Shr (Tup A)) :
    ((concatHelper N t).shrinks.map Shr.value) =
      t.shrinks.map Shr.value ++ ((List.finRange n).drop N).flatMap
        (fun i => (t.value i).shrinks.map (fun c => Function.update t.value i (leaf c.value))) := by
  induction hk : n - N generalizing N t with
  | zero =>
    have : N = n := by omega
    subst this
    rw [concatHelper, dif_neg (by omega), List.drop_eq_nil_of_le (by simp)]; simp
  | succ k ih =>
    have h : N < n := by omega
    rw [concatHelper, dif_pos h, ih _ (by omega) _ (by omega),
      List.drop_eq_getElem_cons (i := N) (by simpa using h)]
    simp [genStream_eq, Function.comp_def]

end PairTuple

namespace Gen
variable {n : Nat} {A : Fin n → Type}

theorem drawInto_ok (gens : (i : Fin n) → Gen σ (A i)) (order : List (Fin n)) :
    ∀ (acc : (i : Fin n) → Option (Shr (A i))) (s : σ) (acc') (s' : σ),
      drawInto gens order acc s = .ok (acc', s') →
      ∀ i, (i ∉ order ∧ acc' i = acc i) ∨ (i ∈ order ∧ ∃ t, acc' i = some t ∧ (gens i).Makes t) := by
  induction order with
  | nil =>
    intro acc s acc' s' h i
    simp [drawInto] at h
    exact .inl ⟨by simp, by rw [h.1]⟩
  | cons j js ih =>
    intro acc s acc' s' h i
    rw [drawInto, Outcome.bind_eq_ok] at h
    obtain ⟨⟨t, s1⟩, h1, h2⟩ := h
    rcases ih _ _ _ _ h2 i with ⟨hn, e⟩ | ⟨hm, r⟩
    · by_cases e' : j = i
      · subst e'
        exact .inr ⟨by simp, t, by simpa using e, s, s1, h1⟩
      · refine .inl ⟨by simp [hn, Ne.symm e'], ?_⟩
        simpa [e'] using e
    · exact .inr ⟨by simp [hm], r⟩

/-- Every drawn component comes from its own generator. -/
theorem drawTuple_ok (gens : (i : Fin n) → Gen σ (A i)) (order : List (Fin n)) (s : σ) (c) (s' : σ)
    (h : drawTuple gens order s = .ok (c, s')) : ∀ i, (gens i).Makes (c i) := by
  rw [drawTuple, Outcome.bind_eq_ok] at h
  obtain ⟨⟨acc, s1⟩, h1, h2⟩ := h
  simp only at h2
  split at h2
  case isFalse => cases h2
  case isTrue hs =>
    simp at h2
    obtain ⟨rfl, rfl⟩ := h2
    intro i
    rcases drawInto_ok gens order _ _ _ _ h1 i with ⟨_, e⟩ | ⟨_, t, e, m⟩
    · have := hs i; rw [e] at this; simp at this
    · simpa [e] using m

theorem drawInto_draws (gens : (i : Fin n) → Gen σ (A i)) (c : (i : Fin n) → Shr (A i)) (order : List (Fin n))
    (hn : order.Nodup) : ∀ (acc : (i : Fin n) → Option (Shr (A i))) (s : σ) (acc') (s' : σ),
      drawInto gens order acc s = .ok (acc', s') → (∀ i ∈ order, acc' i = some (c i)) →
      DrawsTuple gens c order s s' := by
  induction order with
  | nil =>
    intro acc s acc' s' h _
    simp [drawInto] at h
    rw [← h.2]
    exact .nil s
  | cons j js ih =>
    intro acc s acc' s' h hc
    rw [drawInto, Outcome.bind_eq_ok] at h
    obtain ⟨⟨t, s1⟩, h1, h2⟩ := h
    obtain ⟨hj, hn⟩ := List.nodup_cons.mp hn
    have e : t = c j := by
      rcases drawInto_ok gens js _ _ _ _ h2 j with ⟨_, e⟩ | ⟨hm, _⟩
      · rw [hc j (by simp)] at e; simpa using e.symm
      · exact absurd hm hj
    subst e
    exact .cons h1 (ih hn _ _ _ _ h2 fun i hi => hc i (by simp [hi]))

/-- The generators are called one after the other, each in the state its predecessor left. -/
theorem drawTuple_draws (gens : (i : Fin n) → Gen σ (A i)) (order : List (Fin n)) (hn : order.Nodup) (s : σ) (c)
    (s' : σ) (h : drawTuple gens order s = .ok (c, s')) :
    DrawsTuple gens c order s s' ∧ ∀ i, i ∈ order := by
  rw [drawTuple, Outcome.bind_eq_ok] at h
  obtain ⟨⟨acc, s1⟩, h1, h2⟩ := h
  simp only at h2
  split at h2
  case isFalse => cases h2
  case isTrue hs =>
    simp at h2
    obtain ⟨rfl, rfl⟩ := h2
    refine ⟨drawInto_draws gens _ order hn _ _ _ _ h1 fun i _ => by simp, fun i => ?_⟩
    rcases drawInto_ok gens order _ _ _ _ h1 i with ⟨_, e⟩ | ⟨hm, _⟩
    · have := hs i; rw [e] at this; simp at this
    · exact hm

/-- If every generator returns in every state then a complete order returns. -/
theorem drawTuple_total (gens : (i : Fin n) → Gen σ (A i)) (order : List (Fin n))
    (ho : ∀ i, i ∈ order) (hg : ∀ i s, ∃ r, gens i s = .ok r) (s : σ) :
    ∃ r, drawTuple gens order s = .ok r := by
  have key : ∀ (l : List (Fin n)) (acc) (s : σ), ∃ r, drawInto gens l acc s = .ok r := by
    intro l
    induction l with
    | nil => intro acc s; exact ⟨_, rfl⟩
    | cons j js ih =>
      intro acc s
      obtain ⟨⟨t, s1⟩, e⟩ := hg j s
      obtain ⟨r, hr⟩ := ih (fun k => if h : j = k then some (h ▸ t) else acc k) s1
      exact ⟨r, by rw [drawInto, e]; simpa using hr⟩
  obtain ⟨⟨acc, s1⟩, e⟩ := key order (fun _ => none) s
  have hs : ∀ i, (acc i).isSome := by
    intro i
    rcases drawInto_ok gens order _ _ _ _ e i with ⟨hn, _⟩ | ⟨_, t, e, m⟩
    · exact absurd (ho i) hn
    · simp [e]
  exact ⟨((fun i => (acc i).get (hs i)), s1), by rw [drawTuple, e]; simp [hs]⟩

end Gen
end Verif
