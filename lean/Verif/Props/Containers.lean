import Verif.Lemmas.Containers
import Verif.Props.ListLike
/-
C29-C31, C80, C81 and the set, map and string parts of C28.
-/
namespace Verif
open Shr BinSearch ListLike Containers
variable {σ α β κ : Type}

/-! ### C29 sets -/

theorem shrinkSet_eq [LinearOrder α] {xs : List (Shr α)} {m : Nat} {t : Shr (List α)}
    (hs : (xs.map Shr.value).Pairwise (· < ·)) (h : shrinkSet xs m = .ok t) :
    ∃ t0, membershipwise xs m = .ok t0 ∧ t = t0.map fun v => v.map Shr.value := by
  unfold shrinkSet at h
  rw [Outcome.bind_eq_ok] at h
  obtain ⟨t0, h0, h1⟩ := h
  simp at h1
  refine ⟨t0, h0, ?_⟩
  rw [← h1, flatMap_eq_map]
  refine Shr.map_congr_reach fun v hv => ?_
  have := (C24_sound xs m t0 h0 v hv).1
  simp only [value_leaf]
  refine insertAll_sorted ?_
  exact (hs.sublist (this.map Shr.value))

/-- Subsets of a `std::set`, as sorted lists. -/
theorem sublist_iff_subset [LinearOrder α] {ys zs : List α} (hz : zs.Pairwise (· < ·)) :
    ys.Sublist zs ↔ ys.Pairwise (· < ·) ∧ ∀ y ∈ ys, y ∈ zs := by
  constructor
  · intro h; exact ⟨hz.sublist h, fun y hy => h.subset hy⟩
  · rintro ⟨h1, h2⟩
    refine List.sublist_of_subperm_of_pairwise (r := (· < ·)) ?_ h1 hz
    exact List.subperm_of_subset (h1.imp fun h => ne_of_lt h) h2

/-- C29. The sets reachable by shrinking a set are exactly its subsets with at least `minSize` elements
(a set is its strictly increasing list of elements). -/
theorem C29_set [LinearOrder α] (xs : List (Shr α)) (hs : (xs.map Shr.value).Pairwise (· < ·)) (minSize : Nat)
    (t : Shr (List α)) (h : shrinkSet xs minSize = .ok t) (ys : List α) :
    Reach t ys ↔ ys.Pairwise (· < ·) ∧ (∀ y ∈ ys, y ∈ xs.map Shr.value) ∧ minSize ≤ ys.length := by
  obtain ⟨t0, h0, rfl⟩ := shrinkSet_eq hs h
  rw [reach_map]
  constructor
  · rintro ⟨v, hv, rfl⟩
    obtain ⟨h1, h2⟩ := C24_sound xs minSize t0 h0 v hv
    have := (sublist_iff_subset hs).mp (h1.map Shr.value)
    exact ⟨this.1, this.2, by simpa using h2⟩
  · rintro ⟨h1, h2, h3⟩
    have := (sublist_iff_subset hs).mpr ⟨h1, h2⟩
    obtain ⟨v, hv, rfl⟩ := List.sublist_map_iff.mp this
    exact ⟨v, C25_complete xs minSize t0 h0 v hv (by simpa using h3), rfl⟩

/-- C29. No subset is offered twice in the whole shrink tree, and every step removes elements. -/
theorem C29_set_once [LinearOrder α] (xs : List (Shr α)) (hs : (xs.map Shr.value).Pairwise (· < ·)) (minSize : Nat)
    (t : Shr (List α)) (h : shrinkSet xs minSize = .ok t) :
    t.values.Nodup ∧ ∀ s c, Desc t s → c ∈ s.shrinks →
      (∀ y ∈ c.value, y ∈ s.value) ∧ c.value.length < s.value.length := by
  obtain ⟨t0, h0, rfl⟩ := shrinkSet_eq hs h
  constructor
  · rw [values_map]
    have hp := (C25_exactly_once xs minSize t0 h0).map (List.map Shr.value)
    rw [hp.nodup_iff]
    refine List.Nodup.sublist (List.Sublist.map _ List.filter_sublist) ?_
    rw [← List.sublists_map]
    exact List.nodup_sublists.mpr (hs.imp fun h => ne_of_lt h)
  · intro s c hd hc
    obtain ⟨s', hs', rfl⟩ := desc_map.mp hd
    rw [shrinks_map, List.mem_map] at hc
    obtain ⟨c', hc', rfl⟩ := hc
    obtain ⟨h1, h2⟩ := C24_step xs minSize t0 h0 s' c' hs' hc'
    simp only [value_map, List.length_map]
    exact ⟨fun y hy => (h1.map Shr.value).subset hy, h2⟩

/-- C29. A generated set (a strictly increasing list) has as many elements as drawn uniformly from
`minSize..maxSize`. Its elements are the values of consecutive draws `ds` from the element generator, which stop
with the draw that gives the last new element. The reachable sets are exactly its subsets with at least `minSize`
elements. -/
theorem C29_generated [LinearOrder α] (R : Rng σ) (g : Gen σ α) (minSize maxSize fuel : Nat)
    (h : minSize ≤ maxSize) (hb : maxSize < 2^32) (s s' : σ) (t : Shr (List α))
    (e : arbiSet R g minSize maxSize fuel s = .ok (t, s')) :
    t.value.Pairwise (· < ·) ∧ minSize ≤ t.value.length ∧ t.value.length ≤ maxSize ∧
    (∃ s₁ ds, R.draw s minSize maxSize = ((t.value.length : Int), s₁) ∧ g.Draws s₁ ds s' ∧
      (∀ v, v ∈ t.value ↔ v ∈ ds.map Shr.value) ∧
      ∀ pre x, ds = pre ++ [x] → x.value ∉ pre.map Shr.value) ∧
    ∀ ys, Reach t ys ↔ ys.Pairwise (· < ·) ∧ (∀ y ∈ ys, y ∈ t.value) ∧ minSize ≤ ys.length := by
  unfold arbiSet at e
  obtain ⟨v, s1, e1, h1, h2, hdr⟩ := getRandomSize_draw R s h hb
  rw [e1] at e
  simp only [Outcome.ok_bind, Outcome.bind_eq_ok] at e
  obtain ⟨⟨xs, s2⟩, e2, t0, e3, e4⟩ := e
  simp at e4
  obtain ⟨rfl, rfl⟩ := e4
  obtain ⟨hl, hs⟩ := fillSet_ok g _ _ _ _ _ _ e2 (by simp [SortedBy]) (by simp)
  obtain ⟨ds, hd, -, h4, h5⟩ := fillSet_draws g _ _ _ _ _ _ e2 (by simp [SortedBy]) (by simp)
  have hs' : (xs.map Shr.value).Pairwise (· < ·) := List.pairwise_map.mpr hs
  have hv : t0.value = xs.map Shr.value := by
    obtain ⟨t1, h4, rfl⟩ := shrinkSet_eq hs' e3
    rw [value_map, (C24_defined _ _).2 t1 h4]
  rw [hv]
  refine ⟨hs', by simp; omega, by simp; omega, ⟨s1, ds, ?_, hd, by simpa using h4, fun pre x e => (h5 pre x e).2⟩,
    C29_set xs hs' minSize t0 e3⟩
  rw [hdr, List.length_map]
  simp only [Prod.mk.injEq, and_true]; omega

example : ∃ t s', arbiSet Random.script (fun | x :: s => .ok (leaf x, s) | [] => .throws .runtimeError)
    0 4 9 [2, 7, 7, 3, 9] = .ok (t, s') ∧ t.value = [3, 7] ∧ s' = [9] := ⟨_, _, rfl, rfl, rfl⟩

/-- C28. Sets: every chain of shrink steps ends after at most `size - minSize` steps. -/
theorem C28_set [LinearOrder α] (xs : List (Shr α)) (hs : (xs.map Shr.value).Pairwise (· < ·)) (minSize : Nat)
    (t u : Shr (List α)) (h : shrinkSet xs minSize = .ok t) (p : List Nat) (hp : t.at? p = some u) :
    p.length + minSize ≤ xs.length := by
  have hE : AllEdges (fun x y : List α => y.length - minSize < x.length - minSize) t := by
    intro s hd c hc
    have h1 := ((C29_set_once xs hs minSize t h).2 s c hd hc).2
    have h2 := ((C29_set xs hs minSize t h c.value).mp ⟨c, hd.trans (.step hc (.refl _)), rfl⟩).2.2
    show _ < _
    omega
  have h1 := height_measure hE
  have h2 := at?_length hp
  have h3 : t.value = xs.map Shr.value := by
    obtain ⟨t1, h4, rfl⟩ := shrinkSet_eq hs h
    rw [value_map, (C24_defined _ _).2 t1 h4]
  have h4 := ((C29_set xs hs minSize t h t.value).mp (.self t)).2.2
  rw [h3] at h1 h4
  simp at h1 h4
  omega

/-! ### C80 generation of sets and maps terminates -/

/-- C80 is violated: if the element generator has fewer different values than the chosen size, the loop
never ends. -/
theorem C80_set_diverges [LinearOrder α] (g : Gen σ α) (dom : List α) (size : Nat)
    (hdom : ∀ x, g.Makes x → x.value ∈ dom) (hsize : dom.length < size) (hg : ∀ s, ∃ r, g s = .ok r)
    (fuel : Nat) (s : σ) : fillSet g size fuel [] s = .diverges := by
  have key : ∀ (fuel : Nat) (acc : List (Shr α)) (s : σ), SortedBy Shr.value acc →
      (∀ x ∈ acc, x.value ∈ dom) → fillSet g size fuel acc s = .diverges := by
    intro fuel
    induction fuel with
    | zero =>
      intro acc s hs hm
      rw [fillSet, if_pos]
      have h1 : (acc.map Shr.value).Nodup :=
        (List.pairwise_map.mpr hs : (acc.map Shr.value).Pairwise (· < ·)).imp fun h => ne_of_lt h
      have := (List.subperm_of_subset h1 (l₂ := dom) (by
        intro v hv; obtain ⟨x, hx, rfl⟩ := List.mem_map.mp hv; exact hm x hx)).length_le
      simp at this; omega
    | succ fuel ih =>
      intro acc s hs hm
      rw [fillSet, if_pos]
      · obtain ⟨⟨x, s1⟩, e⟩ := hg s
        rw [e, Outcome.ok_bind]
        refine ih _ _ (sorted_insertBy hs) ?_
        intro y hy
        rcases mem_insertBy hy with rfl | hy
        · exact hdom _ ⟨s, s1, e⟩
        · exact hm y hy
      · have h1 : (acc.map Shr.value).Nodup :=
          (List.pairwise_map.mpr hs : (acc.map Shr.value).Pairwise (· < ·)).imp fun h => ne_of_lt h
        have := (List.subperm_of_subset h1 (l₂ := dom) (by
          intro v hv; obtain ⟨x, hx, rfl⟩ := List.mem_map.mp hv; exact hm x hx)).length_le
        simp at this; omega
  exact key fuel [] s (by simp [SortedBy]) (by simp)

/-- C80 is violated: `Arbi<set<bool>>` with its default maximum size 200 never returns once it has chosen a
size of 3 or more, whatever the random engine delivers and however long it runs. -/
theorem C80_violated (R : Rng σ) (thr : Option Nat) (s s1 : σ) (v : Int)
    (h : Random.getRandomSize R 0 201 s = .ok (v, s1)) (hv : 3 ≤ v) (fuel : Nat) :
    arbiSet R (Integral.arbiBool R thr) 0 200 fuel s = .diverges := by
  have := C80_set_diverges (Integral.arbiBool R thr) [false, true] v.toNat (by intro x _; simp)
    (by simp; omega) (fun s => ⟨_, rfl⟩) fuel s1
  unfold arbiSet
  rw [h, Outcome.ok_bind]
  simp only [this]
  rfl

example : Random.getRandomSize Random.script 0 201 [3, 0, 1, 1] = .ok (3, [0, 1, 1]) := by decide

theorem fillSet_fresh [LinearOrder α] (g : Gen σ α) (size : Nat) (acc : List (Shr α))
    (hs : SortedBy Shr.value acc) (hl : acc.length < size) : ∀ (n : Nat) (s s' : σ) (xs : List (Shr α)),
    drawMany g n s = .ok (xs, s') → (∃ x ∈ xs, x.value ∉ acc.map Shr.value) →
    ∃ i acc' s'', i ≤ n ∧ SortedBy Shr.value acc' ∧ acc'.length = acc.length + 1 ∧
      ∀ fuel, fillSet g size (fuel + i) acc s = fillSet g size fuel acc' s'' := by
  intro n
  induction n with
  | zero => intro s s' xs h hx; cases h; simp at hx
  | succ n ih =>
    intro s s' xs h hx
    rw [drawMany] at h
    simp only [Outcome.bind_eq_ok] at h
    obtain ⟨⟨x, s1⟩, h1, ⟨xs1, s2⟩, h2, h3⟩ := h
    simp at h3
    obtain ⟨rfl, rfl⟩ := h3
    have step : ∀ fuel, fillSet g size (fuel + 1) acc s = fillSet g size fuel (insertBy Shr.value x acc) s1 := by
      intro fuel
      rw [fillSet, if_pos hl, h1]; rfl
    by_cases hp : ∃ y ∈ acc, y.value = x.value
    · rw [insertBy_present hs hp] at step
      obtain ⟨y, hy, e⟩ := hp
      obtain ⟨z, hz, hz'⟩ := hx
      have hz1 : z ∈ xs1 := by
        rcases List.mem_cons.mp hz with rfl | h
        · exact absurd (List.mem_map.mpr ⟨y, hy, e⟩) hz'
        · exact h
      obtain ⟨i, acc', s'', h4, h5, h6, h7⟩ := ih s1 s2 xs1 h2 ⟨z, hz1, hz'⟩
      refine ⟨i + 1, acc', s'', by omega, h5, h6, fun fuel => ?_⟩
      rw [← Nat.add_assoc, step, h7]
    · exact ⟨1, _, s1, by omega, sorted_insertBy hs, (insertBy_absent (by simpa using hp)).1, step⟩

theorem fillSet_more [LinearOrder α] (g : Gen σ α) (size : Nat) : ∀ (fuel k : Nat) (acc : List (Shr α)) (s : σ)
    (r : List (Shr α) × σ), fillSet g size fuel acc s = .ok r → fillSet g size (fuel + k) acc s = .ok r := by
  intro fuel
  induction fuel with
  | zero =>
    intro k acc s r h
    rw [fillSet] at h
    split at h
    · cases h
    · rename_i hn
      cases k with
      | zero => rw [fillSet, if_neg hn]; exact h
      | succ k => rw [show 0 + (k + 1) = k + 1 by omega, fillSet, if_neg hn]; exact h
  | succ fuel ih =>
    intro k acc s r h
    rw [show fuel + 1 + k = (fuel + k) + 1 by omega, fillSet]
    rw [fillSet] at h
    split
    · rename_i hl
      rw [if_pos hl, Outcome.bind_eq_ok] at h
      obtain ⟨⟨x, s1⟩, h1, h2⟩ := h
      rw [h1]
      exact ih k _ _ _ h2
    · rename_i hl
      rw [if_neg hl] at h
      exact h

/-- C80, the part that holds: if from every state and for every set of fewer than `size` values some value
outside that set appears within `K` calls of the element generator, the loop ends after at most `size * K`
calls. Missing: generators that do not offer `size` different values, for which it never ends
(`C80_set_diverges`). -/
theorem C80_set_terminates_partial [LinearOrder α] (g : Gen σ α) (size K : Nat)
    (hfresh : ∀ (seen : List α) (s : σ), seen.length < size → ∃ (n : Nat) (xs : List (Shr α)) (s' : σ),
      n ≤ K ∧ drawMany g n s = .ok (xs, s') ∧ ∃ x ∈ xs, x.value ∉ seen) (s : σ) :
    ∃ r, fillSet g size (size * K) [] s = .ok r := by
  have key : ∀ (d : Nat) (acc : List (Shr α)) (s : σ), SortedBy Shr.value acc → size - acc.length = d →
      ∃ r, fillSet g size (d * K) acc s = .ok r := by
    intro d
    induction d with
    | zero =>
      intro acc s _ h
      rw [Nat.zero_mul, fillSet, if_neg (by omega)]
      exact ⟨_, rfl⟩
    | succ d ih =>
      intro acc s hs h
      obtain ⟨n, xs, s', hn, hd, hx⟩ := hfresh (acc.map Shr.value) s (by simp; omega)
      obtain ⟨i, acc', s'', h4, h5, h6, h7⟩ := fillSet_fresh g size acc hs (by omega) n s s' xs hd hx
      obtain ⟨r, hr⟩ := ih acc' s'' h5 (by omega)
      refine ⟨r, ?_⟩
      rw [show (d + 1) * K = (d * K + i) + (K - i) by rw [Nat.succ_mul]; omega]
      refine fillSet_more g size _ _ _ _ _ ?_
      rw [h7, hr]
  exact key size [] s (by simp [SortedBy]) (by simp)

/-- A counter offers a new value with every call. -/
example : ∃ (g : Gen Nat Nat), ∀ (seen : List Nat) (s : Nat), seen.length < 3 → ∃ n xs s',
    n ≤ 4 ∧ drawMany g n s = .ok (xs, s') ∧ ∃ x ∈ xs, x.value ∉ seen := by
  refine ⟨fun s => .ok (leaf (s % 3), s + 1), fun seen s h => ?_⟩
  refine ⟨3, [leaf (s % 3), leaf ((s + 1) % 3), leaf ((s + 2) % 3)], s + 3, by omega, rfl, ?_⟩
  by_contra hc
  simp only [not_exists, not_and, not_not] at hc
  have h1 := hc (leaf (s % 3)) (by simp)
  have h2 := hc (leaf ((s + 1) % 3)) (by simp)
  have h3 := hc (leaf ((s + 2) % 3)) (by simp)
  simp only [value_leaf] at h1 h2 h3
  have hn : [s % 3, (s + 1) % 3, (s + 2) % 3].Nodup := by simp; omega
  have := (List.subperm_of_subset hn (l₂ := seen) (by simp [h1, h2, h3])).length_le
  simp at this; omega

/-! ### C30 maps -/

theorem shrinkMap_eq [LinearOrder κ] {xs : List (Shr κ × Shr β)} {m : Nat}
    (hs : (xs.map fun e => e.1.value).Pairwise (· < ·)) :
    shrinkMap xs m = (mapSizes xs.length m).map fun k => (xs.map fun e => (e.1.value, e.2.value)).take k := by
  unfold shrinkMap
  rw [flatMap_eq_map, flatMap_eq_map, Shr.map_map]
  congr 1
  funext k
  simp only [Function.comp, value_leaf]
  have e : (if k = 0 then leaf ([] : List (Shr κ × Shr β)) else leaf (xs.take k)).value = xs.take k := by
    split
    · subst k; simp
    · simp
  rw [e, List.map_take]
  refine insertAll_sorted ?_
  unfold SortedBy
  refine List.Pairwise.sublist (List.take_sublist _ _) ?_
  rw [List.pairwise_map] at hs ⊢
  exact hs

theorem sizeRange_reach {lo hi k : Nat} (h : lo ≤ hi) : Reach (sizeRange lo hi) k ↔ lo ≤ k ∧ k ≤ hi := by
  unfold sizeRange
  rw [reach_map]
  constructor
  · rintro ⟨j, hj, rfl⟩; rw [bsNat_reach] at hj; omega
  · rintro ⟨h1, h2⟩; exact ⟨k - lo, by rw [bsNat_reach]; omega, by omega⟩

/-- C30. The maps reachable by shrinking a map are exactly its first `k` entries in key order, for
`minSize ≤ k ≤ size`, with unchanged values. -/
theorem C30_map [LinearOrder κ] (xs : List (Shr κ × Shr β))
    (hs : (xs.map fun e => e.1.value).Pairwise (· < ·)) (minSize : Nat) (hm : minSize ≤ xs.length)
    (ys : List (κ × β)) :
    Reach (shrinkMap xs minSize) ys ↔
      ∃ k, minSize ≤ k ∧ k ≤ xs.length ∧ ys = (xs.map fun e => (e.1.value, e.2.value)).take k := by
  rw [shrinkMap_eq hs, reach_map]
  unfold mapSizes
  rw [if_pos hm]
  simp only [sizeRange_reach hm]
  constructor
  · rintro ⟨k, ⟨h1, h2⟩, rfl⟩; exact ⟨k, h1, h2, rfl⟩
  · rintro ⟨k, h1, h2, rfl⟩; exact ⟨k, ⟨h1, h2⟩, rfl⟩

theorem sizeRange_step {lo hi : Nat} : AllEdges (fun x y => lo ≤ y ∧ y < x) (sizeRange lo hi) := by
  unfold sizeRange
  intro s hs c hc
  obtain ⟨s', hs', rfl⟩ := desc_map.mp hs
  rw [shrinks_map, List.mem_map] at hc
  obtain ⟨c', hc', rfl⟩ := hc
  have := (bsNat_desc _ hs').2 c' hc'
  simp only [value_map]; omega

/-- C30. Every step removes entries. -/
theorem C30_map_step [LinearOrder κ] (xs : List (Shr κ × Shr β))
    (hs : (xs.map fun e => e.1.value).Pairwise (· < ·)) (minSize : Nat) (hm : minSize ≤ xs.length)
    (s c : Shr (List (κ × β))) (hd : Desc (shrinkMap xs minSize) s) (hc : c ∈ s.shrinks) :
    c.value.length < s.value.length := by
  rw [shrinkMap_eq hs] at hd
  unfold mapSizes at hd
  rw [if_pos hm] at hd
  obtain ⟨s', hs', rfl⟩ := desc_map.mp hd
  rw [shrinks_map, List.mem_map] at hc
  obtain ⟨c', hc', rfl⟩ := hc
  have h1 := sizeRange_step s' hs' c' hc'
  have h2 := (sizeRange_reach hm).mp ⟨s', hs', rfl⟩
  simp only [value_map, List.length_take, List.length_map]
  omega

/-- C28. Maps: every chain of shrink steps ends after at most `size - minSize` steps. -/
theorem C28_map [LinearOrder κ] (xs : List (Shr κ × Shr β))
    (hs : (xs.map fun e => e.1.value).Pairwise (· < ·)) (minSize : Nat) (hm : minSize ≤ xs.length)
    (u : Shr (List (κ × β))) (p : List Nat) (hp : (shrinkMap xs minSize).at? p = some u) :
    p.length + minSize ≤ xs.length := by
  have h1 := at?_length hp
  rw [shrinkMap_eq hs, height_map] at h1
  unfold mapSizes at h1
  rw [if_pos hm, sizeRange, height_map] at h1
  have h2 : (bsNat (xs.length - minSize)).height ≤ xs.length - minSize := by
    have : AllEdges (fun x y => y < x) (bsNat (xs.length - minSize)) := fun s hs c hc => (bsNat_desc _ hs).2 c hc
    simpa [bsNat_value] using height_measure (μ := id) this
  omega

/-- C30. A generated map has as many entries as drawn uniformly from `minSize..maxSize`. Its keys, strictly
increasing, are the values of consecutive draws `ks` from the key generator, which stop with the draw that gives
the last new key; then the values of the entries are drawn one after the other, in the order of the keys. The
reachable maps are its first `k` entries. -/
theorem C30_generated [LinearOrder κ] (R : Rng σ) (keyGen : Gen σ κ) (elemGen : Gen σ β)
    (minSize maxSize fuel : Nat) (h : minSize ≤ maxSize) (hb : maxSize < 2^32) (s s' : σ) (t : Shr (List (κ × β)))
    (e : arbiMap R keyGen elemGen minSize maxSize fuel s = .ok (t, s')) :
    (t.value.map Prod.fst).Pairwise (· < ·) ∧ minSize ≤ t.value.length ∧ t.value.length ≤ maxSize ∧
    (∃ s₁ s₂ ks es, R.draw s minSize maxSize = ((t.value.length : Int), s₁) ∧ keyGen.Draws s₁ ks s₂ ∧
      elemGen.Draws s₂ es s' ∧ (∀ k, k ∈ t.value.map Prod.fst ↔ k ∈ ks.map Shr.value) ∧
      (∀ pre x, ks = pre ++ [x] → x.value ∉ pre.map Shr.value) ∧ t.value.map Prod.snd = es.map Shr.value) ∧
    ∀ ys, Reach t ys ↔ ∃ k, minSize ≤ k ∧ k ≤ t.value.length ∧ ys = t.value.take k := by
  unfold arbiMap at e
  obtain ⟨v, s1, e1, h1, h2, hdr⟩ := getRandomSize_draw R s h hb
  rw [e1] at e
  simp only [Outcome.ok_bind, Outcome.bind_eq_ok] at e
  obtain ⟨⟨keys, s2⟩, e2, ⟨elems, s3⟩, e3, e4⟩ := e
  simp only at e3 e4
  obtain ⟨hl, hs⟩ := fillSet_ok keyGen _ _ _ _ _ _ e2 (by simp [SortedBy]) (by simp)
  obtain ⟨ks, hd, -, h4, h5⟩ := fillSet_draws keyGen _ _ _ _ _ _ e2 (by simp [SortedBy]) (by simp)
  obtain ⟨hl2, hme⟩ := drawMany_ok elemGen _ _ _ _ e3
  have hz : ((keys.zip elems).map fun e => e.1.value) = keys.map Shr.value := by
    rw [show (fun e : Shr κ × Shr β => e.1.value) = Shr.value ∘ Prod.fst from rfl, ← List.map_map,
      List.map_fst_zip (by omega)]
  have hsz : ((keys.zip elems).map fun e => e.1.value).Pairwise (· < ·) := by
    rw [hz]; exact List.pairwise_map.mpr hs
  rw [insertAll_sorted (List.pairwise_map.mp hsz)] at e4
  simp at e4
  obtain ⟨rfl, rfl⟩ := e4
  have hlz : (keys.zip elems).length = v.toNat := by simp; omega
  have hv : (shrinkMap (keys.zip elems) minSize).value =
      (keys.zip elems).map fun e => (e.1.value, e.2.value) := by
    rw [shrinkMap_eq hsz, value_map]
    unfold mapSizes
    rw [if_pos (by omega), sizeRange, value_map, bsNat_value, List.take_of_length_le]
    simp; omega
  rw [hv]
  refine ⟨?_, by rw [List.length_map]; omega, by rw [List.length_map]; omega, ?_, ?_⟩
  · rw [List.map_map]; exact hsz
  · refine ⟨s1, s2, ks, elems, ?_, hd, hme, ?_, fun pre x e => (h5 pre x e).2, ?_⟩
    · rw [hdr, List.length_map, hlz]
      simp only [Prod.mk.injEq, and_true]; omega
    · rw [List.map_map, show (Prod.fst ∘ fun e : Shr κ × Shr β => (e.1.value, e.2.value)) =
        fun e => e.1.value from rfl, hz]
      simpa using h4
    · rw [List.map_map, show (Prod.snd ∘ fun e : Shr κ × Shr β => (e.1.value, e.2.value)) =
        Shr.value ∘ Prod.snd from rfl, ← List.map_map, List.map_snd_zip (by omega)]
  · intro ys
    rw [C30_map _ hsz minSize (by omega), List.length_map]

example : ∃ t s', arbiMap Random.script (fun | x :: s => .ok (leaf x, s) | [] => .throws .runtimeError)
    (fun s => .ok (leaf s.length, s)) 0 4 9 [2, 7, 7, 3, 9] = .ok (t, s') ∧ t.value = [(3, 1), (7, 1)] :=
  ⟨_, _, rfl, rfl⟩

/-! ### C31, C81 strings -/

theorem bsNat_shrinks_reach (n w : Nat) : (∃ c ∈ (bsNat n).shrinks, Reach c w) ↔ w < n := by
  constructor
  · rintro ⟨c, hc, u, hu, rfl⟩
    have h1 := (bsNat_desc n (.refl _)).2 c hc
    rw [bsNat_value] at h1
    have dec : ∀ {a b : Shr Nat}, Desc (bsNat n) a → Desc a b → b.value ≤ a.value := by
      intro a b ha hab
      induction hab with
      | refl => exact Nat.le_refl _
      | step m _ ih =>
        have := (bsNat_desc n ha).2 _ m
        have := ih (ha.trans (.step m (.refl _)))
        omega
    have := dec (.step hc (.refl _)) hu
    omega
  · intro h
    have := (bsNat_reach n w).mpr (by omega)
    rw [reach_iff, bsNat_value] at this
    rcases this with h' | h'
    · omega
    · exact h'

theorem drop_take_self (str : List α) (j : Nat) : (str.drop j).take (str.length - j) = str.drop j :=
  List.take_of_length_le (by simp)

/-- C31, exact: the strings reachable by shrinking are the prefixes with at least `minSize` characters, and
what remains of such a prefix of length `k` when its first `minSize + v` characters are removed, for
`minSize + v < k`. -/
theorem C31_reachable (str : List α) (minSize : Nat) (hm : minSize ≤ str.length) (ys : List α) :
    Reach (shrinkString str minSize) ys ↔ ∃ k, minSize ≤ k ∧ k ≤ str.length ∧
      (ys = str.take k ∨ ∃ v, minSize + v < k ∧ ys = (str.take k).drop (minSize + v)) := by
  unfold shrinkString
  rw [reach_concat]
  have rear : ∀ s, Desc (shrinkRear str minSize) s →
      ∃ k, minSize ≤ k ∧ k ≤ str.length ∧ s.value = str.take k := by
    intro s hs
    obtain ⟨s', hs', rfl⟩ := desc_map.mp hs
    have := (bsNat_desc _ hs').1
    exact ⟨s'.value + minSize, by omega, by omega, by simp⟩
  have rear' : ∀ k, minSize ≤ k → k ≤ str.length → ∃ s, Desc (shrinkRear str minSize) s ∧ s.value = str.take k := by
    intro k h1 h2
    obtain ⟨u, hu, e⟩ := (bsNat_reach (str.length - minSize) (k - minSize)).mpr (by omega)
    exact ⟨_, desc_map.mpr ⟨u, hu, rfl⟩, by rw [value_map, e]; congr 1; omega⟩
  have front : ∀ w ys : List α, (∃ u ∈ shrinkFront minSize w, Reach u ys) → minSize ≤ w.length →
      ∃ v, minSize + v < w.length ∧ ys = w.drop (minSize + v) := by
    rintro w ys ⟨u, hu, hr⟩ hw
    unfold shrinkFront at hu
    split at hu
    · simp at hu
    · rw [shrinks_map, List.mem_map] at hu
      obtain ⟨c, hc, rfl⟩ := hu
      obtain ⟨v, hv, rfl⟩ := reach_map.mp hr
      have := (bsNat_shrinks_reach _ v).mp ⟨c, hc, hv⟩
      exact ⟨v, by omega, drop_take_self _ _⟩
  have front' : ∀ (w : List α) (v : Nat), minSize + v < w.length →
      ∃ u ∈ shrinkFront minSize w, Reach u (w.drop (minSize + v)) := by
    intro w v h
    obtain ⟨c, hc, hr⟩ := (bsNat_shrinks_reach (w.length - minSize) v).mpr (by omega)
    unfold shrinkFront
    rw [if_neg (by omega)]
    refine ⟨_, by rw [shrinks_map]; exact List.mem_map.mpr ⟨c, hc, rfl⟩, reach_map.mpr ⟨v, hr, ?_⟩⟩
    exact (drop_take_self _ _).symm
  constructor
  · rintro ⟨s, hs, h⟩
    obtain ⟨k, h1, h2, h3⟩ := rear s hs
    refine ⟨k, h1, h2, ?_⟩
    rcases h with rfl | h
    · exact .inl h3
    · right
      rw [h3] at h
      obtain ⟨v, hv, rfl⟩ := front _ _ h (by simp; omega)
      exact ⟨v, by simp at hv; omega, rfl⟩
  · rintro ⟨k, h1, h2, h⟩
    obtain ⟨s, hs, hv⟩ := rear' k h1 h2
    refine ⟨s, hs, ?_⟩
    rcases h with rfl | ⟨v, h3, rfl⟩
    · exact .inl hv
    · right
      rw [hv]
      exact front' _ v (by simp; omega)

/-- C31, the part that holds: everything reachable is a contiguous substring of the generated string.
Missing: at least `minSize` characters, and shorter than its parent (see `C31_violated_minSize`,
`C31_violated_same`, `C31_violated_longer`). -/
theorem C31_substring_partial (str : List α) (minSize : Nat) (hm : minSize ≤ str.length) (ys : List α)
    (h : Reach (shrinkString str minSize) ys) : ∃ l r, str = l ++ ys ++ r := by
  obtain ⟨k, _, _, h⟩ := (C31_reachable str minSize hm ys).mp h
  rcases h with rfl | ⟨v, _, rfl⟩
  · exact ⟨[], str.drop k, by simp⟩
  · exact ⟨(str.take k).take (minSize + v), str.drop k, by rw [List.take_append_drop, List.take_append_drop]⟩

/-- C31, the part that holds for `minSize ≤ 1`: no reachable string has fewer than `minSize` characters. -/
theorem C31_minSize_partial (str : List α) (minSize : Nat) (hm : minSize ≤ str.length) (h1 : minSize ≤ 1)
    (ys : List α) (h : Reach (shrinkString str minSize) ys) : minSize ≤ ys.length := by
  obtain ⟨k, _, _, h⟩ := (C31_reachable str minSize hm ys).mp h
  rcases h with rfl | ⟨v, _, rfl⟩ <;> simp <;> omega

/-- C31 is violated: for every `minSize ≥ 2` and every string with more than `minSize` characters a string of
a single character is reachable. -/
theorem C31_violated_minSize (str : List α) (minSize : Nat) (h1 : 2 ≤ minSize) (hm : minSize < str.length) :
    ∃ ys, Reach (shrinkString str minSize) ys ∧ ys.length = 1 ∧ ys.length < minSize := by
  refine ⟨(str.take (minSize + 1)).drop (minSize + 0), (C31_reachable str minSize (by omega) _).mpr
      ⟨minSize + 1, by omega, by omega, .inr ⟨0, by omega, rfl⟩⟩, ?_, ?_⟩ <;> simp <;> omega

theorem bsNat_zero_first (n : Nat) (h : n ≠ 0) : ∃ l, (bsNat n).shrinks = leaf 0 :: l := by
  unfold bsNat
  rw [shrinks_node, if_neg h]
  exact ⟨_, rfl⟩

/-- The first candidate that removes characters at the front, for `minSize = 0`: the string itself, with no
shrinks. -/
theorem shrinkFront_zero (str : List α) (h : str ≠ []) : ∃ l, shrinkFront 0 str = leaf str :: l := by
  have h0 : str.length ≠ 0 := by simpa using h
  obtain ⟨l, hl⟩ := bsNat_zero_first (str.length - 0) (by omega)
  unfold shrinkFront
  rw [if_neg h0, shrinks_map, hl]
  exact ⟨l.map (map fun value => (str.drop (0 + value)).take (str.length - (0 + value))),
    by simp [leaf, map_node]⟩

/-- C31 is violated: with `minSize = 0` every non-empty string is offered as a candidate for itself. -/
theorem C31_violated_same (str : List α) (h : str ≠ []) :
    ∃ c ∈ (shrinkString str 0).shrinks, c.value = (shrinkString str 0).value := by
  unfold shrinkString
  have e : (shrinkRear str 0).value = str := by simp [shrinkRear, bsNat_value]
  obtain ⟨l, hl⟩ := shrinkFront_zero str h
  refine ⟨leaf str, ?_, by simp [e]⟩
  rw [shrinks_concat, e, hl]
  simp

/-- C31 is violated: a shrink step can make the string longer. -/
theorem C31_violated_longer : ∃ (s c : Shr (List Char)), Desc (shrinkString ['a', 'b', 'c', 'd'] 0) s ∧
    c ∈ s.shrinks ∧ s.value = ['c', 'd'] ∧ c.value = ['b', 'c', 'd'] := by
  refine ⟨_, _, desc_iff_at?.mpr ⟨[4], rfl⟩, List.mem_of_getElem? (i := 0) rfl, rfl, rfl⟩

/-- C28. Strings: every chain of shrink steps ends after at most `2 * (size - minSize)` steps. -/
theorem C28_string (str : List α) (minSize : Nat) (u : Shr (List α)) (p : List Nat)
    (hp : (shrinkString str minSize).at? p = some u) : p.length ≤ 2 * (str.length - minSize) := by
  have hb : ∀ n, (bsNat n).height ≤ n := by
    intro n
    have : AllEdges (fun x y => y < x) (bsNat n) := fun s hs c hc => (bsNat_desc _ hs).2 c hc
    simpa [bsNat_value] using height_measure (μ := id) this
  have h1 := at?_length hp
  have h2 : (shrinkString str minSize).height ≤ (shrinkRear str minSize).height + (str.length - minSize) := by
    unfold shrinkString
    refine height_concat fun s hs w hw => ?_
    have hl : s.value.length ≤ str.length := by
      obtain ⟨s', hs', rfl⟩ := desc_map.mp hs
      simp
    unfold shrinkFront at hw
    split at hw
    · simp at hw
    · rw [shrinks_map, List.mem_map] at hw
      obtain ⟨c, hc, rfl⟩ := hw
      have := height_lt_of_mem hc
      have := hb (s.value.length - minSize)
      rw [height_map]
      omega
  have h3 : (shrinkRear str minSize).height ≤ str.length - minSize := by
    unfold shrinkRear; rw [height_map]; exact hb _
  omega

/-- C31. A generated string has as many characters as drawn uniformly from `minSize..maxSize`; they are the values
of consecutive draws from the element generator. -/
theorem C31_generated (R : Rng σ) (g : Gen σ α) (minSize maxSize : Nat) (h : minSize ≤ maxSize)
    (hb : maxSize < 2^32) (s s' : σ) (t : Shr (List α)) (e : arbiString R g minSize maxSize s = .ok (t, s')) :
    minSize ≤ t.value.length ∧ t.value.length ≤ maxSize ∧
    (∃ s₁ xs, R.draw s minSize maxSize = ((t.value.length : Int), s₁) ∧ g.Draws s₁ xs s' ∧
      t.value = xs.map Shr.value) ∧
    t = shrinkString t.value minSize := by
  unfold arbiString at e
  obtain ⟨v, s1, e1, h1, h2, hdr⟩ := getRandomSize_draw R s h hb
  rw [e1] at e
  simp only [Outcome.ok_bind, Outcome.bind_eq_ok] at e
  obtain ⟨⟨xs, s2⟩, e2, e4⟩ := e
  simp at e4
  obtain ⟨rfl, rfl⟩ := e4
  obtain ⟨hl, hg⟩ := drawMany_ok g _ _ _ _ e2
  have hv : (shrinkString (xs.map Shr.value) minSize).value = xs.map Shr.value := by
    simp only [shrinkString, value_concat, shrinkRear, value_map, bsNat_value]
    rw [List.take_of_length_le]; simp; omega
  rw [hv]
  refine ⟨by simp; omega, by simp; omega, ⟨s1, xs, ?_, hg, rfl⟩, rfl⟩
  rw [hdr, List.length_map, hl]
  simp only [Prod.mk.injEq, and_true]; omega

theorem greedy_fails (fails : α → Bool) (t : Shr α) (h : fails t.value = true) : fails (t.greedy fails) = true := by
  induction t using Shr.ind with
  | h v ss ih =>
    rw [greedy]
    simp only [value_node] at h
    induction ss with
    | nil => exact h
    | cons c cs ihc =>
      rw [greedyList]
      split
      · rename_i hc; exact ih c (by simp) hc
      · exact ihc fun s hs => ih s (by simp [hs])

/-- C81 is violated: with the default `minSize = 0`, greedy shrinking of any failing string always ends at a
prefix of it: leading characters are never removed, whatever the property. -/
theorem C81_string_prefix (str : List α) (fails : List α → Bool) (h : fails str = true) :
    ∃ k, (shrinkString str 0).greedy fails = str.take k := by
  unfold shrinkString
  rw [greedy_concat fails (shrinkFront 0)]
  have hr : ∃ k, (shrinkRear str 0).greedy fails = str.take k := by
    unfold shrinkRear; rw [greedy_map]; exact ⟨_, rfl⟩
  have hf : fails ((shrinkRear str 0).greedy fails) = true :=
    greedy_fails _ _ (by simpa [shrinkRear, bsNat_value] using h)
  generalize (shrinkRear str 0).greedy fails = w at hr hf
  obtain ⟨k, rfl⟩ := hr
  by_cases hn : str.take k = []
  · rw [hn]; exact ⟨0, by simp [shrinkFront, greedyList]⟩
  · obtain ⟨l, hl⟩ := shrinkFront_zero _ hn
    rw [hl, greedyList, value_leaf, if_pos hf]
    exact ⟨k, by simp [leaf, greedy, greedyList]⟩

/-- C81 is violated: the failing string "aab" of a property failing for strings containing 'b' is not shrunk
at all, although "b" and "ab" fail too. -/
theorem C81_violated : ∃ fails : List Char → Bool,
    (shrinkString ['a', 'a', 'b'] 0).greedy fails = ['a', 'a', 'b'] ∧ fails ['b'] = true ∧
    fails ['a', 'b'] = true ∧ Reach (shrinkString ['a', 'a', 'b'] 0) ['b'] := by
  refine ⟨fun l => l.contains 'b', by decide, by decide, by decide, ?_⟩
  exact (C31_reachable _ 0 (by simp) _).mpr ⟨3, by simp, by simp, .inr ⟨2, by simp, rfl⟩⟩

/-- C81, the part that holds: trailing characters are removed. If the failing prefixes are those with at least
`k` characters, greedy shrinking with `minSize = 0` ends at the first `k` characters. Missing: leading
characters. -/
theorem C81_trailing_partial (str : List α) (fails : List α → Bool) (k : Nat) (hk : k ≤ str.length)
    (h : ∀ j, j ≤ str.length → (fails (str.take j) = true ↔ k ≤ j)) :
    (shrinkString str 0).greedy fails = str.take k := by
  unfold shrinkString
  rw [greedy_concat fails (shrinkFront 0)]
  have hr : (shrinkRear str 0).greedy fails = str.take k := by
    unfold shrinkRear
    rw [greedy_map, bsNat_greedy _ k _ (by omega)]
    · simp
    · intro w hw; simpa using h w (by omega)
  rw [hr]
  by_cases hn : str.take k = []
  · rw [hn]; simp [shrinkFront, greedyList]
  · obtain ⟨l, hl⟩ := shrinkFront_zero _ hn
    rw [hl, greedyList, value_leaf, if_pos ((h k hk).mpr (Nat.le_refl _))]
    simp [leaf, greedy, greedyList]

example : (shrinkString ['x', 'a', 'y', 'z'] 0).greedy (fun l => l.contains 'a') = ['x', 'a'] := by decide

end Verif
