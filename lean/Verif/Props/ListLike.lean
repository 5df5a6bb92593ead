import Verif.Spec.Draws
import Mathlib.Data.Nat.Find
import Verif.Lemmas.Height
import Verif.Lemmas.Integral
/-
C24-C28, C78: shrinking and generation of lists (vector, list).
-/
namespace Verif
open Shr ListLike
variable {σ α δ : Type}

/-! ### C24 membership shrinking is sound -/

/-- C24. Length shrinking is defined exactly for containers with at least `minSize` elements; it starts
at the given list. -/
theorem C24_defined (xs : List δ) (minSize : Nat) :
    ((∃ t, membershipwise xs minSize = .ok t) ↔ minSize ≤ xs.length) ∧
    ∀ t, membershipwise xs minSize = .ok t → t.value = xs := by
  unfold membershipwise
  by_cases h : xs.length < minSize
  · rw [if_pos h]; simp; omega
  · rw [if_neg h]
    refine ⟨⟨fun _ => by omega, fun _ => ⟨_, rfl⟩⟩, ?_⟩
    rintro t ⟨⟩
    exact value_fam (by omega) (by omega)

theorem membershipwise_eq {xs : List δ} {m : Nat} {t : Shr (List δ)} (h : membershipwise xs m = .ok t) :
    m ≤ xs.length ∧ t = frontAndMid m xs.length 0 xs := by
  unfold membershipwise at h
  split at h
  · cases h
  · cases h; exact ⟨by omega, rfl⟩

/-- C25. Length shrinking offers every selection of at least `minSize` elements exactly once: the values
found in the whole shrink tree are, up to order, the sub-lists with at least `minSize` elements
(`List.sublists` lists the sub-lists for every set of positions). -/
theorem C25_exactly_once (xs : List δ) (minSize : Nat) (t : Shr (List δ))
    (h : membershipwise xs minSize = .ok t) :
    t.values.Perm (xs.sublists.filter fun ys => decide (minSize ≤ ys.length)) := by
  obtain ⟨hm, rfl⟩ := membershipwise_eq h
  simpa using values_fam minSize xs.length 0 xs hm (Nat.zero_le _) (by omega)

/-- C24. Every list reachable by length shrinking arises from the generated list by deleting elements
and has at least `minSize` elements. -/
theorem C24_sound (xs : List δ) (minSize : Nat) (t : Shr (List δ)) (h : membershipwise xs minSize = .ok t)
    (ys : List δ) (hy : Reach t ys) : ys.Sublist xs ∧ minSize ≤ ys.length := by
  have := (C25_exactly_once xs minSize t h).mem_iff.mp (mem_values.mpr hy)
  simpa using this

/-- C25. Every way of deleting elements that leaves at least `minSize` elements is reachable. -/
theorem C25_complete (xs : List δ) (minSize : Nat) (t : Shr (List δ)) (h : membershipwise xs minSize = .ok t)
    (ys : List δ) (hs : ys.Sublist xs) (hm : minSize ≤ ys.length) : Reach t ys := by
  rw [← mem_values]
  exact (C25_exactly_once xs minSize t h).mem_iff.mpr (by simpa using ⟨hs, hm⟩)

/-- C24. Every single step deletes at least one element and only deletes. -/
theorem C24_step (xs : List δ) (minSize : Nat) (t : Shr (List δ)) (h : membershipwise xs minSize = .ok t)
    (s c : Shr (List δ)) (hs : Desc t s) (hc : c ∈ s.shrinks) :
    c.value.Sublist s.value ∧ c.value.length < s.value.length := by
  obtain ⟨hm, rfl⟩ := membershipwise_eq h
  exact edges_fam minSize _ 0 xs hm (Nat.zero_le _) s hs c hc

example : membershipwise ['a', 'b', 'c'] 1 = .ok (frontAndMid 1 3 0 ['a', 'b', 'c']) := rfl
example : (frontAndMid 1 3 0 ['a', 'b', 'c']).values =
    [['a', 'b', 'c'], ['a'], ['a', 'b'], ['b'], ['c'], ['a', 'c'], ['b', 'c']] := by decide

/-! ### C26 element-wise shrinking -/

/-- C26. Element-wise shrinking keeps the number of elements, and each element of a reachable list is
reachable from the corresponding original element. -/
theorem C26_elements (xs : List (Shr α)) (s : Shr (List (Shr α))) (hs : s ∈ elementwise (leaf xs))
    (ys : List (Shr α)) (hy : Reach s ys) : ys.length = xs.length ∧ List.Forall₂ Desc xs ys := by
  rw [elementwise_leaf] at hs
  have := reach_bulkTree (v := xs) (.child (by simpa [bulkTree] using hs) hy)
  exact ⟨this.length_eq.symm, this⟩

/-- C26. In each step every element either stays or becomes one of its own direct shrinks, and at least
one element becomes one of its own direct shrinks. -/
theorem C26_step (xs : List (Shr α)) (s u c : Shr (List (Shr α))) (hs : s ∈ elementwise (leaf xs))
    (hu : Desc s u) (hc : c ∈ u.shrinks) :
    List.Forall₂ (fun a b => b = a ∨ b ∈ a.shrinks) u.value c.value ∧
      ∃ (i : Nat) (a b : Shr α), u.value[i]? = some a ∧ c.value[i]? = some b ∧ b ∈ a.shrinks := by
  rw [elementwise_leaf] at hs
  exact edges_bulkTree xs u (.step (by simpa [bulkTree] using hs) hu) c hc

theorem bulkRound_getD (anc : List (Shr α)) (n : Nat) :
    bulkRound anc (anc.map fun a => a.shrinks.drop n) = anc.map fun a => (a.shrinks[n]?).getD a := by
  induction anc with
  | nil => rfl
  | cons a anc ih =>
    simp only [List.map_cons]
    cases h : a.shrinks.drop n with
    | nil =>
      have : a.shrinks[n]? = none := by
        rw [List.getElem?_eq_none_iff]; exact List.drop_eq_nil_iff.mp h
      simp [bulkRound, ih, this]
    | cons b bs =>
      have : a.shrinks[n]? = some b := by
        have := congrArg List.head? h
        simpa [List.head?_drop] using this
      simp [bulkRound, ih, this]

/-- The largest number of candidates any of the elements has. -/
def mostShrinks (xs : List (Shr α)) : Nat := (xs.map fun a => a.shrinks.length).foldr max 0

theorem mostShrinks_le (n : Nat) (l : List (Shr α)) :
    (∀ a ∈ l, a.shrinks.length ≤ n) ↔ mostShrinks l ≤ n := by
  unfold mostShrinks
  induction l with
  | nil => simp
  | cons a l ih =>
    simp only [List.mem_cons, forall_eq_or_imp, List.map_cons, List.foldr_cons]
    rw [ih]; omega

theorem bulkRounds_eq (anc : List (Shr α)) (n : Nat) :
    bulkRounds anc (anc.map fun a => a.shrinks.drop n) =
      (List.range (mostShrinks anc - n)).map
        fun r => anc.map fun a => (a.shrinks[n + r]?).getD a := by
  generalize hd : mostShrinks anc - n = d
  induction d generalizing n with
  | zero =>
    rw [bulkRounds, dif_pos]
    · simp
    · have := (mostShrinks_le n anc).mpr (by omega)
      simpa using this
  | succ d ih =>
    rw [bulkRounds, dif_neg]
    · rw [bulkRound_getD, List.range_succ_eq_map, List.map_cons]
      congr 1
      have e : bulkTails (anc.map fun a => a.shrinks.drop n) = anc.map fun a => a.shrinks.drop (n + 1) := by
        simp [bulkTails, Function.comp_def]
      rw [e, ih (n + 1) (by omega)]
      simp only [List.map_map]
      refine List.map_congr_left fun r _ => ?_
      simp only [Function.comp]
      refine List.map_congr_left fun a _ => ?_
      congr 2
      rw [Nat.add_assoc, Nat.add_comm 1]
    · intro h
      have := (mostShrinks_le n anc).mp (by simpa using h)
      omega

/-- C26. Candidate number `r` replaces, all at once, every element by its own candidate number `r`;
elements with fewer candidates are kept. There are as many candidates as the element with the most
candidates has. -/
theorem C26_candidates (xs : List (Shr α)) :
    (elementwise (leaf xs)).map Shr.value =
      (List.range (mostShrinks xs)).map fun r => xs.map fun a => (a.shrinks[r]?).getD a := by
  rw [elementwise_leaf, bulk]
  have := bulkRounds_eq xs 0
  simp only [List.drop_zero, Nat.sub_zero, Nat.zero_add] at this
  rw [← this, List.map_map]
  conv => rhs; rw [← List.attach_map_subtype_val (bulkRounds xs _)]
  rfl

example : ((elementwise (leaf [node 2 [leaf 0, leaf 1], node 5 [leaf 4]])).map
    fun s => s.value.map Shr.value) = [[0, 4], [1, 5]] := by
  rw [show (fun s : Shr (List (Shr Nat)) => s.value.map Shr.value) = List.map Shr.value ∘ Shr.value from rfl,
    ← List.map_map, C26_candidates]
  rfl

/-! ### C27 vector and list generators -/

/-- What is reachable from the shrinkable of a list. -/
theorem reach_listLike {xs : List (Shr α)} {m : Nat} {ew : Bool} {t : Shr (List α)}
    (h : listLike xs m ew = .ok t) {ys : List α} (hy : Reach t ys) :
    ∃ zs : List (Shr α), zs.Sublist xs ∧ m ≤ zs.length ∧ List.Forall₂ Reach zs ys := by
  unfold listLike at h
  rw [Outcome.bind_eq_ok] at h
  obtain ⟨t0, h0, h1⟩ := h
  simp at h1
  subst h1
  rw [flatMap_eq_map, reach_map] at hy
  obtain ⟨v, hv, rfl⟩ := hy
  simp only [value_leaf]
  have self : ∀ l : List (Shr α), List.Forall₂ Reach l (l.map Shr.value) := by
    intro l
    induction l with
    | nil => exact .nil
    | cons a l ih => exact .cons (.self a) ih
  cases ew with
  | false =>
    have := C24_sound xs m t0 h0 v (by simpa using hv)
    exact ⟨v, this.1, this.2, self v⟩
  | true =>
    rw [if_pos rfl, reach_andThen] at hv
    obtain ⟨s, hs, hv⟩ := hv
    have hsv := C24_sound xs m t0 h0 s.value ⟨s, hs, rfl⟩
    rcases hv with rfl | ⟨he, u, hu, hr⟩
    · exact ⟨s.value, hsv.1, hsv.2, self _⟩
    · have e : s = leaf s.value := by rw [← eta s, he]; rfl
      rw [e] at hu
      have := (C26_elements _ u hu v hr).2
      refine ⟨s.value, hsv.1, hsv.2, ?_⟩
      clear hu hr hs hsv
      generalize s.value = w at this
      induction this with
      | nil => exact .nil
      | cons h _ ih => exact .cons ⟨_, h, rfl⟩ ih

theorem listLike_complete {xs : List (Shr α)} {m : Nat} {ew : Bool} {t : Shr (List α)}
    (h : listLike xs m ew = .ok t) {zs : List (Shr α)} (hz : zs.Sublist xs) (hm : m ≤ zs.length) :
    Reach t (zs.map Shr.value) := by
  unfold listLike at h
  rw [Outcome.bind_eq_ok] at h
  obtain ⟨t0, h0, h1⟩ := h
  simp at h1
  subst h1
  rw [flatMap_eq_map, reach_map]
  refine ⟨zs, ?_, rfl⟩
  have := C25_complete xs m t0 h0 zs hz hm
  cases ew with
  | false => simpa using this
  | true =>
    rw [if_pos rfl, reach_andThen]
    obtain ⟨s, hs, e⟩ := this
    exact ⟨s, hs, .inl e⟩

theorem drawMany_ok (g : Gen σ α) : ∀ (n : Nat) (s : σ) (xs : List (Shr α)) (s' : σ),
    drawMany g n s = .ok (xs, s') → xs.length = n ∧ g.Draws s xs s' := by
  intro n
  induction n with
  | zero => intro s xs s' h; cases h; exact ⟨rfl, .nil s⟩
  | succ n ih =>
    intro s xs s' h
    rw [drawMany] at h
    simp only [Outcome.bind_eq_ok] at h
    obtain ⟨⟨x, s1⟩, h1, ⟨xs1, s2⟩, h2, h3⟩ := h
    simp at h3
    obtain ⟨rfl, rfl⟩ := h3
    have := ih _ _ _ h2
    exact ⟨by simp [this.1], .cons h1 this.2⟩

/-- C27. A generated vector or list has as many elements as drawn uniformly from `minSize..maxSize`; the elements
are the results of that many calls of the element generator, one after the other, in this order; every list reachable by shrinking has at least `minSize` and at most as many elements as
generated, is obtained by keeping some of the elements and moving each within its own shrink tree, and
all selections of at least `minSize` elements are reachable. -/
theorem C27_vector (R : Rng σ) (g : Gen σ α) (minSize maxSize : Nat) (h : minSize ≤ maxSize)
    (hb : maxSize < 2^32) (s s' : σ) (t : Shr (List α))
    (e : arbiVector R g minSize maxSize s = .ok (t, s')) :
    ∃ (xs : List (Shr α)) (s₁ : σ), R.draw s minSize maxSize = ((xs.length : Int), s₁) ∧ g.Draws s₁ xs s' ∧
      minSize ≤ xs.length ∧ xs.length ≤ maxSize ∧ t.value = xs.map Shr.value ∧
      (∀ ys, Reach t ys → minSize ≤ ys.length ∧ ys.length ≤ xs.length ∧
        ∃ zs, zs.Sublist xs ∧ List.Forall₂ Reach zs ys) ∧
      (∀ zs : List (Shr α), zs.Sublist xs → minSize ≤ zs.length → Reach t (zs.map Shr.value)) := by
  unfold arbiVector at e
  obtain ⟨v, s1, e1, h1, h2, hd⟩ := getRandomSize_draw R s h hb
  rw [e1] at e
  simp only [Outcome.ok_bind, Outcome.bind_eq_ok] at e
  obtain ⟨⟨xs, s2⟩, e2, t0, e3, e4⟩ := e
  simp at e4
  obtain ⟨rfl, rfl⟩ := e4
  obtain ⟨hl, hg⟩ := drawMany_ok g _ _ _ _ e2
  refine ⟨xs, s1, by rw [hd]; simp only [Prod.mk.injEq, and_true]; omega, hg, by omega, by omega, ?_, ?_, fun zs hz hm => listLike_complete e3 hz hm⟩
  · unfold listLike at e3
    rw [Outcome.bind_eq_ok] at e3
    obtain ⟨t1, e5, e6⟩ := e3
    simp at e6
    subst e6
    have := (C24_defined xs minSize).2 t1 e5
    rw [value_flatMap]
    simp [this]
  · intro ys hy
    obtain ⟨zs, hz, hm, hr⟩ := reach_listLike e3 hy
    have := hr.length_eq
    exact ⟨by omega, by have := hz.length_le; dsimp only at this ⊢; omega, zs, hz, hr⟩

/-- C27. Generation of a vector or list returns whenever the element generator does. -/
theorem C27_vector_total (R : Rng σ) (g : Gen σ α) (minSize maxSize : Nat) (h : minSize ≤ maxSize)
    (hb : maxSize < 2^32) (hg : ∀ s, ∃ r, g s = .ok r) (s : σ) :
    ∃ r, arbiVector R g minSize maxSize s = .ok r := by
  have many : ∀ n s, ∃ r, drawMany g n s = .ok r := by
    intro n
    induction n with
    | zero => intro s; exact ⟨_, rfl⟩
    | succ n ih =>
      intro s
      obtain ⟨⟨x, s1⟩, e1⟩ := hg s
      obtain ⟨⟨xs, s2⟩, e2⟩ := ih s1
      exact ⟨(x :: xs, s2), by simp [drawMany, e1, e2]⟩
  obtain ⟨v, s1, e1, h1, h2⟩ := getRandomSize_ok R (a := minSize) (b := maxSize + 1) s
    (by omega) (by omega)
  obtain ⟨⟨xs, s2⟩, e2⟩ := many v.toNat s1
  obtain ⟨hl, _⟩ := drawMany_ok g _ _ _ _ e2
  obtain ⟨t, e3⟩ := (C24_defined xs minSize).1.mpr (by omega)
  refine ⟨((t.andThen elementwise).flatMap fun v => leaf (v.map Shr.value), s2), ?_⟩
  simp [arbiVector, listLike, e1, e2, e3]

example : ∃ t s', arbiVector Random.script (fun s => .ok (node 1 [leaf 0], s)) 1 3 [2]
    = .ok (t, s') ∧ t.value = [1, 1] := ⟨_, _, rfl, rfl⟩

/-! ### C28 shrinking terminates -/

/-- Length plus the heights of the elements' trees. -/
def listMeasure (xs : List (Shr α)) : Nat := xs.length + (xs.map Shr.height).sum

theorem sum_height_sublist {x y : List (Shr α)} (h : y.Sublist x) :
    (y.map Shr.height).sum ≤ (x.map Shr.height).sum := by
  induction h with
  | slnil => simp
  | cons a _ ih => simp; omega
  | cons_cons a _ ih => simp; omega

theorem elemStep_measure {x y : List (Shr α)} (h : ElemStep x y) : listMeasure y < listMeasure x := by
  obtain ⟨h1, h2⟩ := h
  have hl := h1.length_eq
  have hs : (y.map Shr.height).sum < (x.map Shr.height).sum := by
    have le : ∀ {x y : List (Shr α)}, List.Forall₂ (fun a b => b = a ∨ b ∈ a.shrinks) x y →
        (y.map Shr.height).sum ≤ (x.map Shr.height).sum := by
      intro x y h
      induction h with
      | nil => simp
      | cons h _ ih =>
        simp only [List.map_cons, List.sum_cons]
        rcases h with rfl | h
        · omega
        · have := height_lt_of_mem h; omega
    induction h1 with
    | nil => obtain ⟨i, a, b, e, _⟩ := h2; simp at e
    | @cons a b x y h h' ih =>
      simp only [List.map_cons, List.sum_cons]
      have hle := le h'
      obtain ⟨i, a', b', e1, e2, m⟩ := h2
      cases i with
      | zero =>
        simp at e1 e2
        subst e1 e2
        have := height_lt_of_mem m; omega
      | succ i =>
        have h3 := ih ⟨i, a', b', by simpa using e1, by simpa using e2, m⟩ h'.length_eq
        rcases h with rfl | h
        · omega
        · have := height_lt_of_mem h; omega
  unfold listMeasure; omega

/-- C28. Lists: if the elements' shrink chains have at most the lengths `height`, every chain of shrink
steps of the list ends after at most `(size - minSize) + sum of the heights` steps. -/
theorem C28_list (xs : List (Shr α)) (minSize : Nat) (ew : Bool) (t u : Shr (List α))
    (h : listLike xs minSize ew = .ok t) (p : List Nat) (hp : t.at? p = some u) :
    p.length + minSize ≤ xs.length + (xs.map Shr.height).sum := by
  have hr : Reach t u.value := ⟨u, desc_iff_at?.mpr ⟨p, hp⟩, rfl⟩
  obtain ⟨zs, hz, hm, hf⟩ := reach_listLike h hr
  unfold listLike at h
  rw [Outcome.bind_eq_ok] at h
  obtain ⟨t0, h0, h1⟩ := h
  simp at h1
  subst h1
  obtain ⟨hml, ht0⟩ := membershipwise_eq h0
  rw [flatMap_eq_map, at?_map] at hp
  have base : AllEdges (fun x y : List (Shr α) => listMeasure y < listMeasure x) t0 := by
    refine fun s hs c hc => ?_
    obtain ⟨h1, h2⟩ := C24_step xs minSize t0 h0 s c hs hc
    have := sum_height_sublist h1
    show listMeasure _ < listMeasure _
    unfold listMeasure; omega
  generalize ht1 : (if ew = true then t0.andThen elementwise else t0) = t1 at hp
  have hv : t1.value = xs := by
    rw [← ht1]; have := (C24_defined xs minSize).2 t0 h0; split <;> simp [this]
  have all : AllEdges (fun x y : List (Shr α) => listMeasure y < listMeasure x) t1 := by
    rw [← ht1]
    split
    · refine base.andThen fun s hs he w hw => ?_
      have e : s = leaf s.value := by rw [← eta s, he]; rfl
      rw [e, elementwise_leaf] at hw
      have hw' : w ∈ (bulkTree s.value).shrinks := hw
      refine ⟨elemStep_measure (edges_bulkTree s.value _ (.refl _) w hw'), ?_⟩
      intro d hd c hc
      exact elemStep_measure (edges_bulkTree s.value d (.step hw' hd) c hc)
    · exact base
  cases ha : t1.at? p with
  | none => simp [ha] at hp
  | some w =>
    simp [ha] at hp
    have key : ∀ (q : List Nat) (t : Shr (List (Shr α))) (w), 
        AllEdges (fun x y : List (Shr α) => listMeasure y < listMeasure x) t → t.at? q = some w →
        q.length + listMeasure w.value ≤ listMeasure t.value := by
      intro q
      induction q with
      | nil => intro t w _ e; simp at e; subst e; simp
      | cons i q ih =>
        intro t w hE e
        rw [at?_cons] at e
        cases hi : t.shrinks[i]? with
        | none => simp [hi] at e
        | some s =>
          simp [hi] at e
          have hm := List.mem_of_getElem? hi
          have h1 := ih s w (fun a ha => hE a (.step hm ha)) e
          have h2 := hE t (.refl _) s hm
          simp only [List.length_cons]
          omega
    have := key p t1 w all ha
    rw [hv] at this
    have hl : minSize ≤ w.value.length := by
      rw [← hp] at hf
      have := hf.length_eq
      simp at this
      omega
    unfold listMeasure at this
    omega

open PairTuple

/-- C28. Pairs: a chain of shrink steps is not longer than the chains of both components together. -/
theorem C28_pair {β : Type} (a : Shr α) (b : Shr β) (u : Shr (α × β)) (p : List Nat)
    (hp : (shrinkPair a b).at? p = some u) : p.length ≤ a.height + b.height := by
  have h := at?_length hp
  have hh : (shrinkPair a b).height ≤ a.height + b.height := by
    unfold shrinkPair
    rw [flatMap_eq_map, height_map]
    have h1 : ((leaf (a, b)).concat shrinkFirst).height ≤ (leaf (a, b)).height + a.height := by
      refine height_concat fun s hs w hw => ?_
      rw [desc_iff] at hs; simp at hs; subst hs
      unfold shrinkFirst at hw
      rw [flatMap_eq_map, shrinks_map, List.mem_map] at hw
      obtain ⟨c, hc, rfl⟩ := hw
      rw [height_map]
      exact height_lt_of_mem hc
    have h2 : (((leaf (a, b)).concat shrinkFirst).concat shrinkSecond).height ≤
        ((leaf (a, b)).concat shrinkFirst).height + b.height := by
      refine height_concat fun s hs w hw => ?_
      have e2 : s.value.2 = b := by
        rcases desc_concat.mp hs with ⟨s', h', rfl⟩ | ⟨s', h', x, hx, hd⟩
        · rw [desc_iff] at h'; simp at h'; subst h'; simp
        · rw [desc_iff] at h'; simp at h'; subst h'
          unfold shrinkFirst at hx
          rw [flatMap_eq_map, shrinks_map, List.mem_map] at hx
          obtain ⟨c, hc, rfl⟩ := hx
          obtain ⟨d, hd', rfl⟩ := desc_map.mp hd
          simp
      unfold shrinkSecond at hw
      rw [flatMap_eq_map, shrinks_map, List.mem_map] at hw
      obtain ⟨c, hc, rfl⟩ := hw
      rw [height_map]
      rw [e2] at hc
      exact height_lt_of_mem hc
    have h0 : (leaf (a, b)).height = 0 := by simp [leaf, height, heightList]
    omega
  omega

/-- C28. Tuples of any arity: a chain of shrink steps is not longer than the chains of all components
together. -/
theorem C28_tuple {n : Nat} {A : Fin n → Type} (comps : (i : Fin n) → Shr (A i))
    (u : Shr ((i : Fin n) → A i)) (p : List Nat) (hp : (shrinkTuple comps).at? p = some u) :
    p.length ≤ ((List.finRange n).map fun i => (comps i).height).sum := by
  have h := at?_length hp
  have key : ∀ (k N : Nat) (t : Shr (Tup A)), n - N = k → N ≤ n → Stage comps N t →
      (concatHelper N t).height ≤
        t.height + (((List.finRange n).drop N).map fun i => (comps i).height).sum := by
    intro k
    induction k with
    | zero =>
      intro N t hk hN _
      rw [concatHelper, dif_neg (by omega)]; omega
    | succ k ih =>
      intro N t hk hN st
      have hlt : N < n := by omega
      rw [concatHelper, dif_pos hlt]
      have h1 := ih (N + 1) (t.concat (genStream ⟨N, hlt⟩)) (by omega) (by omega) (st.next hlt)
      have h2 : (t.concat (genStream ⟨N, hlt⟩)).height ≤ t.height + (comps ⟨N, hlt⟩).height := by
        refine height_concat fun s hs w hw => ?_
        rw [genStream_eq, (st.sound s hs ⟨N, hlt⟩).2 (Nat.le_refl _), List.mem_map] at hw
        obtain ⟨c, hc, rfl⟩ := hw
        rw [height_map]
        exact height_lt_of_mem hc
      rw [List.drop_eq_getElem_cons (i := N) (by simpa using hlt)]
      simp only [List.map_cons, List.sum_cons, List.getElem_finRange]
      simp only [Fin.cast_mk]
      omega
  have st0 : Stage comps 0 (leaf comps) := by
    refine ⟨?_, ?_⟩
    · intro s hs i
      rw [desc_iff] at hs
      simp at hs
      subst hs
      exact ⟨fun h => by omega, fun _ => rfl⟩
    · intro v _
      exact ⟨_, .refl _, fun i hi => by omega⟩
  have hh := key n 0 (leaf comps) (by omega) (by omega) st0
  unfold shrinkTuple at h
  rw [flatMap_eq_map, height_map] at h
  have h0 : (leaf comps).height = 0 := by simp [leaf, height, heightList]
  simp only [List.drop_zero] at hh
  omega

/-- One step from three elements to none. -/
example : ∃ t, listLike [leaf 4, leaf 2, leaf 7] 0 false = .ok t ∧
    ∃ p u, t.at? p = some u ∧ u.value = [] ∧ p.length = 1 := ⟨_, rfl, [0], _, rfl, rfl, rfl⟩
example : ∃ u : Shr (Nat × Nat), (shrinkPair (node 2 [node 1 [leaf 0]]) (node 1 [leaf 0])).at? [0, 0, 0] = some u ∧
    u.value = (0, 0) := ⟨_, rfl, rfl⟩

/-! ### C79 length shrinking finds minimal lists -/

theorem greedy_concat (fails : α → Bool) (k : α → List (Shr α)) (t : Shr α) :
    (t.concat fun s => k s.value).greedy fails = greedyList fails (t.greedy fails) (k (t.greedy fails)) := by
  induction t using Shr.ind with
  | h v ss ih =>
    have e : (node v ss).concat (fun s => k s.value) =
        node v (ss.map (concat fun s => k s.value) ++ k v) := by
      rw [← eta (concat _ _)]; simp
    rw [e, greedy, greedy]
    clear e
    induction ss with
    | nil => simp [greedyList]
    | cons c cs ihc =>
      simp only [List.map_cons, List.cons_append, greedyList, value_concat]
      split
      · exact ih c (by simp)
      · exact ihc fun s hs => ih s (by simp [hs])

theorem greedy_eq_list (fails : α → Bool) (t : Shr α) :
    t.greedy fails = greedyList fails t.value t.shrinks := by
  cases t; rfl

theorem greedy_fam (m : Nat) (fails : List δ → Bool) : ∀ (fuel rear : Nat) (F R : List δ),
    R.length = rear → m ≤ (F ++ R).length → F.length ≤ fuel → fails (F ++ R) = true →
    (∀ ys zs : List δ, ys.Sublist zs → zs.Sublist (F ++ R) → m ≤ ys.length → fails ys = true → fails zs = true) →
    (∀ zs : List δ, zs.Sublist (F ++ R) → m ≤ zs.length → fails zs = true → ∃ A, A.Sublist F ∧ zs = A ++ R) →
    ∀ ys, (frontAndMid m fuel rear (F ++ R)).greedy fails = ys →
      ys.Sublist (F ++ R) ∧ m ≤ ys.length ∧ fails ys = true ∧
      ∀ zs, zs.Sublist ys → m ≤ zs.length → fails zs = true → zs = ys := by
  intro fuel
  induction fuel with
  | zero =>
    rintro rear F R rfl hm hF hfail - hnec ys rfl
    have : F = [] := List.length_eq_zero_iff.mp (by omega)
    subst this
    have e : (frontAndMid m 0 R.length ([] ++ R)).greedy fails = R := by
      rw [frontAndMid, range_eq, greedy_map]
      have hmf0 : frontAndMid.minFront m R.length = 0 := by
        have := minFront_le (m := m) (rear := R.length) (by simpa using hm) (Nat.le_refl _)
        omega
      simp [BinSearch.bsNat, greedy, greedyList, hmf0]
    rw [e]
    refine ⟨by simp, by simpa using hm, by simpa using hfail, fun zs hz hmz hzf => ?_⟩
    obtain ⟨A, hA, rfl⟩ := hnec zs (by simpa using hz) hmz hzf
    simp at hA; simp [hA]
  | succ fuel ih =>
    rintro rear F R rfl hm hF hfail hmono hnec ys rfl
    set mf := frontAndMid.minFront m R.length with hmf
    have hlen : (F ++ R).length - R.length = F.length := by simp
    have hle : mf ≤ F.length := by
      have := minFront_le (m := m) (rear := R.length) hm (by simp); rwa [hlen] at this
    have rangeval : ∀ j, (F ++ R).take (j + mf) ++ (F ++ R).drop F.length = (F ++ R).take (j + mf) ++ R := by
      intro j; simp
    -- the smallest failing front
    have hex : ∃ j, fails (F.take (j + mf) ++ R) = true :=
      ⟨F.length, by rw [List.take_of_length_le (by omega)]; exact hfail⟩
    classical
    set j := Nat.find hex with hj
    have hjf : fails (F.take (j + mf) ++ R) = true := Nat.find_spec hex
    have hjle : j ≤ F.length - mf := Nat.find_min' hex (by
      rw [List.take_of_length_le (by omega)]; exact hfail)
    have hsubF : ∀ f, (F.take f ++ R).Sublist (F ++ R) := fun f =>
      (List.append_sublist_append_right R).mpr (List.take_sublist f F)
    have hml : ∀ f, mf ≤ f → f ≤ F.length → m ≤ (F.take f ++ R).length := by
      intro f h1 h2
      have := minFront_spec.mp h1
      simp; omega
    have hgr : (frontAndMid.range m R.length (F ++ R)).greedy fails = F.take (j + mf) ++ R := by
      rw [range_eq, greedy_map, hlen, ← hmf]
      rw [BinSearch.bsNat_greedy _ j (F.length - mf) hjle]
      · simp only [List.drop_left, List.append_cancel_right_eq]
        rw [List.take_append_of_le_length (by omega)]
      · intro w hw
        have : (F ++ R).take (w + mf) ++ (F ++ R).drop F.length = F.take (w + mf) ++ R := by
          rw [List.take_append_of_le_length (by omega)]; simp
        rw [this]
        constructor
        · intro h; exact Nat.find_min' hex h
        · intro h
          refine hmono _ _ ?_ (hsubF _) (hml _ (by omega) (by omega)) hjf
          exact (List.append_sublist_append_right R).mpr (List.take_sublist_take_left (by omega))
    rw [frontAndMid, greedy_concat fails (fun v => if v.length ≤ m ∨ v.length ≤ R.length then []
      else (frontAndMid m fuel (R.length + 1) v).shrinks), hgr]
    have hlen' : (F.take (j + mf) ++ R).length = j + mf + R.length := by simp; omega
    have hm' := hml (j + mf) (by omega) (by omega)
    by_cases hstop : (F.take (j + mf) ++ R).length ≤ m ∨ (F.take (j + mf) ++ R).length ≤ R.length
    · rw [if_pos hstop, greedyList]
      refine ⟨hsubF _, hm', hjf, fun zs hz hmz hzf => ?_⟩
      rcases hstop with h | h
      · exact hz.eq_of_length_le (by omega)
      · have h0 : j + mf = 0 := by omega
        rw [h0] at hz ⊢
        obtain ⟨A, hA, rfl⟩ := hnec zs (hz.trans (hsubF 0)) hmz hzf
        have h1 := hz.length_le
        simp only [List.take_zero, List.nil_append, List.length_append] at h1
        have : A = [] := List.length_eq_zero_iff.mp (by omega)
        simp [this]
    · rw [if_neg hstop]
      have hlt : mf < j + mf := by
        rcases Nat.eq_zero_or_pos j with h | h
        · exfalso
          rw [hlen', h] at hstop
          have : mf = if m ≥ R.length then m - R.length else 0 := hmf
          split at this <;> omega
        · omega
      obtain ⟨f, hf⟩ : ∃ f, j + mf = f + 1 := ⟨j + mf - 1, by omega⟩
      have hfl : f < F.length := by omega
      have hsplit : F.take (j + mf) ++ R = F.take f ++ (F[f] :: R) := by
        rw [hf, List.take_succ_eq_append_getElem hfl, List.append_assoc]; rfl
      have hnf : fails (F.take f ++ R) = false := by
        rw [← Bool.not_eq_true]
        intro h
        have := Nat.find_min' hex (m := j - 1) (by rw [show j - 1 + mf = f by omega]; exact h)
        omega
      have hfv : (frontAndMid m fuel (R.length + 1) (F.take (j + mf) ++ R)).value = F.take (j + mf) ++ R :=
        value_fam hm' (by omega)
      have hgl : greedyList fails (F.take (j + mf) ++ R)
          (frontAndMid m fuel (R.length + 1) (F.take (j + mf) ++ R)).shrinks =
          (frontAndMid m fuel (R.length + 1) (F.take (j + mf) ++ R)).greedy fails := by
        rw [greedy_eq_list, hfv]
      rw [hgl]
      rw [hsplit] at hm' hjf ⊢
      have hsub : (F.take f ++ (F[f] :: R)).Sublist (F ++ R) := hsplit ▸ hsubF (j + mf)
      have := ih (R.length + 1) (F.take f) (F[f] :: R) rfl hm' (by simp; omega) hjf
        (fun y z h1 h2 => hmono y z h1 (h2.trans hsub)) ?_ _ rfl
      · exact ⟨this.1.trans hsub, this.2⟩
      · intro zs hz hmz hzf
        obtain ⟨A, hA, rfl⟩ := hnec zs (hz.trans hsub) hmz hzf
        have hz' : A.Sublist (F.take f ++ [F[f]]) := by
          rw [← List.append_sublist_append_right R, List.append_assoc]; exact hz
        obtain ⟨A1, A2, rfl, h1, h2⟩ := List.sublist_append_iff.mp hz'
        rcases List.sublist_singleton.mp h2 with rfl | rfl
        · exfalso
          have : fails (F.take f ++ R) = true :=
            hmono _ _ ((List.append_sublist_append_right R).mpr (by simpa using h1)) (hsubF f) hmz hzf
          rw [hnf] at this; cases this
        · exact ⟨A1, h1, by simp⟩

/-- C79. For a property whose failure persists when elements are added, greedy length shrinking of a
failing list ends at a failing list that is minimal: deleting any further elements (keeping `minSize`)
makes the property pass. -/
theorem C79_minimal (xs : List δ) (minSize : Nat) (t : Shr (List δ)) (h : membershipwise xs minSize = .ok t)
    (fails : List δ → Bool) (hx : fails xs = true)
    (hmono : ∀ ys zs : List δ, ys.Sublist zs → zs.Sublist xs → minSize ≤ ys.length →
      fails ys = true → fails zs = true) :
    fails (t.greedy fails) = true ∧ (t.greedy fails).Sublist xs ∧ minSize ≤ (t.greedy fails).length ∧
    ∀ zs, zs.Sublist (t.greedy fails) → minSize ≤ zs.length → fails zs = true → zs = t.greedy fails := by
  obtain ⟨hm, rfl⟩ := membershipwise_eq h
  have := greedy_fam minSize fails xs.length 0 xs [] rfl (by simpa using hm) (by simp) (by simpa using hx)
    (by simpa using hmono) (fun zs hz _ _ => ⟨zs, by simpa using hz, by simp⟩) _ rfl
  simp only [List.append_nil] at this
  exact ⟨this.2.2.1, this.1, this.2.1, this.2.2.2⟩

/-- A property that fails for lists containing both 3 and 8. -/
example : (frontAndMid 0 6 0 [5, 3, 1, 8, 2, 9]).greedy (fun l => l.contains 3 && l.contains 8) = [3, 8] := by
  decide

/-! ### C78 shrinking of the elements -/

/-- C78 is violated: whenever a failing list could still lose elements and the property needs all of its
elements, shrinking stops at once and no element is shrunk, whatever simpler elements would fail. -/
theorem C78_elements_stuck (xs : List (Shr α)) (minSize : Nat) (hm : minSize < xs.length) (t : Shr (List α))
    (h : listLike xs minSize true = .ok t) (fails : List α → Bool)
    (hf : ∀ ys, fails ys = true → xs.length ≤ ys.length) : t.greedy fails = xs.map Shr.value := by
  unfold listLike at h
  rw [Outcome.bind_eq_ok] at h
  obtain ⟨t0, h0, h1⟩ := h
  simp at h1
  subst h1
  have hv := (C24_defined xs minSize).2 t0 h0
  have hne : t0.shrinks ≠ [] := by
    intro he
    have := C25_complete xs minSize t0 h0 xs.tail (List.tail_sublist xs) (by simp; omega)
    rw [reach_iff, he] at this
    simp at this
    rw [hv] at this
    have := congrArg List.length this
    simp at this
    omega
  rw [flatMap_eq_map, greedy_map, value_leaf]
  congr 1
  rw [greedy_eq_list, value_andThen, shrinks_andThen_ne _ hne, hv]
  have key : ∀ l : List (Shr (List (Shr α))), (∀ c ∈ l, c.value.length < xs.length) →
      greedyList (fun a => fails (leaf (a.map Shr.value)).value) xs (l.map (andThen elementwise)) = xs := by
    intro l
    induction l with
    | nil => intro _; rfl
    | cons c cs ih =>
      intro hl
      rw [List.map_cons, greedyList, if_neg, ih fun c hc => hl c (by simp [hc])]
      intro hc
      have := hf _ hc
      have h2 := hl c (by simp)
      simp at this
      omega
  refine key _ fun c hc => ?_
  have := (C24_step xs minSize t0 h0 t0 c (.refl _) hc).2
  rwa [hv] at this

/-- C78 is violated: for a property failing for all lists of at least two elements, the list `[1, 1]` whose
elements shrink to 0 is left as it is. -/
theorem C78_violated : ∃ (xs : List (Shr Nat)) (t : Shr (List Nat)) (fails : List Nat → Bool),
    listLike xs 0 true = .ok t ∧ t.greedy fails = [1, 1] ∧ fails [1, 1] = true ∧
    (∀ x ∈ xs, Reach x 0) ∧ fails [0, 1] = true ∧ fails [1, 0] = true ∧ fails [0, 0] = true := by
  let xs : List (Shr Nat) := [node 1 [leaf 0], node 1 [leaf 0]]
  obtain ⟨t0, h⟩ := (C24_defined xs 0).1.mpr (by simp)
  refine ⟨xs, _, fun l => decide (2 ≤ l.length), by simp only [listLike, h]; rfl, ?_, by decide, ?_,
    by decide, by decide, by decide⟩
  · refine C78_elements_stuck xs 0 (by simp [xs]) _ (by simp only [listLike, h]; rfl) _ ?_
    intro ys hy
    simpa [xs] using hy
  · intro x hx
    simp [xs] at hx
    subst hx
    exact ⟨leaf 0, .step (List.mem_singleton.mpr rfl) (.refl _), rfl⟩

/-- C78, the part that holds: for a list of exactly `minSize` elements, greedy shrinking ends at a list
`ys` for which replacing all elements at once by their candidates number `r` makes the property pass, for
every `r` (where an element has fewer candidates it is kept). Missing: lists that may still lose elements,
see `C78_elements_stuck`, and replacing a single element. -/
theorem C78_elements_partial (xs : List (Shr α)) (t : Shr (List α))
    (h : listLike xs xs.length true = .ok t) (fails : List α → Bool) :
    ∃ ys : List (Shr α), List.Forall₂ Desc xs ys ∧ t.greedy fails = ys.map Shr.value ∧
      ∀ r, r < mostShrinks ys → fails (ys.map fun a => ((a.shrinks[r]?).getD a).value) = false := by
  have hx : t = (bulkTree xs).map fun v => v.map Shr.value := by
    unfold listLike at h
    rw [Outcome.bind_eq_ok] at h
    obtain ⟨t0, h0, h1⟩ := h
    simp at h1
    subst h1
    have hv := (C24_defined xs _).2 t0 h0
    have he : t0 = leaf xs := by
      rw [← eta t0, hv]
      have : t0.shrinks = [] := by
        rw [List.eq_nil_iff_forall_not_mem]
        intro c hc
        have h1 := (C24_step xs _ t0 h0 t0 c (.refl _) hc).2
        have h2 := (C24_sound xs _ t0 h0 c.value ⟨c, .step hc (.refl _), rfl⟩).2
        rw [hv] at h1
        omega
      rw [this]; rfl
    subst he
    rw [flatMap_eq_map]
    congr 1
    rw [← eta (andThen _ _), value_andThen, shrinks_andThen_nil _ rfl, elementwise_leaf]
    rfl
  subst hx
  rw [greedy_map]
  -- where greedy shrinking stops
  have stop : ∀ (fs : List (Shr α) → Bool) (t : Shr (List (Shr α))),
      ∃ u, Desc t u ∧ t.greedy fs = u.value ∧ ∀ c ∈ u.shrinks, fs c.value = false := by
    intro fs t
    induction t using Shr.ind with
    | h v ss ih =>
      have key : ∀ l : List (Shr (List (Shr α))), (∀ c ∈ l, c ∈ ss) →
          (greedyList fs v l = v ∧ ∀ c ∈ l, fs c.value = false) ∨
          ∃ c ∈ ss, greedyList fs v l = c.greedy fs := by
        intro l
        induction l with
        | nil => intro _; left; exact ⟨rfl, by simp⟩
        | cons c cs ihc =>
          intro hl
          rw [greedyList]
          by_cases hc : fs c.value = true
          · rw [if_pos hc]; right; exact ⟨c, hl c (by simp), rfl⟩
          · rw [if_neg hc]
            rcases ihc fun c hc => hl c (by simp [hc]) with h | h
            · left; refine ⟨h.1, ?_⟩; simpa using ⟨by simpa using hc, h.2⟩
            · exact .inr h
      rcases key ss fun _ h => h with ⟨h1, h2⟩ | ⟨c, hc, h1⟩
      · exact ⟨_, .refl _, h1, h2⟩
      · obtain ⟨u, hu, h2, h3⟩ := ih c hc
        exact ⟨u, .step hc hu, by rw [greedy, h1, h2], h3⟩
  obtain ⟨u, hu, he, hall⟩ := stop (fun v => fails (v.map Shr.value)) (bulkTree xs)
  refine ⟨u.value, reach_bulkTree ⟨u, hu, rfl⟩, by rw [he], fun r hr => ?_⟩
  have hw := desc_bulkTree hu
  generalize u.value = w at hw hr ⊢
  subst hw
  have hc := C26_candidates w
  rw [elementwise_leaf] at hc
  have hm : (w.map fun a => (a.shrinks[r]?).getD a) ∈ (bulk w).map Shr.value := by
    rw [hc]; exact List.mem_map.mpr ⟨r, List.mem_range.mpr hr, rfl⟩
  obtain ⟨c, hc1, hc2⟩ := List.mem_map.mp hm
  have := hall c hc1
  rw [hc2, List.map_map] at this
  exact this

/-! ### C27 elements are shrunk -/

/-- One round of shrinking all elements at once: each is replaced by its own candidate number `r`, if it has so
many. -/
def shrinkRound (zs : List (Shr α)) (r : Nat) : List (Shr α) := zs.map fun a => (a.shrinks[r]?).getD a

theorem shrinkRound_many {zs : List (Shr α)} {r : Nat} (h : mostShrinks zs ≤ r) : shrinkRound zs r = zs := by
  unfold shrinkRound
  conv => rhs; rw [← List.map_id zs]
  refine List.map_congr_left fun a ha => ?_
  rw [List.getElem?_eq_none ((mostShrinks_le r zs).mpr h a ha), Option.getD_none, id]

theorem rounds_reach (rs : List Nat) (zs : List (Shr α)) : Reach (bulkTree zs) (rs.foldl shrinkRound zs) := by
  induction rs generalizing zs with
  | nil => exact .self _
  | cons r rs ih =>
    rw [List.foldl_cons]
    by_cases hr : r < mostShrinks zs
    · have hc := C26_candidates zs
      rw [elementwise_leaf] at hc
      have hm : shrinkRound zs r ∈ (bulk zs).map Shr.value := by
        rw [hc]; exact List.mem_map.mpr ⟨r, List.mem_range.mpr hr, rfl⟩
      obtain ⟨c, hc1, hc2⟩ := List.mem_map.mp hm
      have hw : c = bulkTree c.value := desc_bulkTree (.child hc1)
      refine .child hc1 ?_
      rw [hw, hc2]
      exact ih _
    · rw [shrinkRound_many (by omega)]
      exact ih zs

/-- C27. Where the list has been cut down to `minSize` elements, the elements are shrunk: every list obtained
from `minSize` of the elements by rounds of shrinking all elements at once (any number of rounds, any candidate
number in each) is reachable. -/
theorem C27_elements (R : Rng σ) (g : Gen σ α) (minSize maxSize : Nat) (h : minSize ≤ maxSize)
    (hb : maxSize < 2^32) (s s' : σ) (t : Shr (List α))
    (e : arbiVector R g minSize maxSize s = .ok (t, s')) :
    ∃ xs s₁, R.draw s minSize maxSize = ((xs.length : Int), s₁) ∧ g.Draws s₁ xs s' ∧
      ∀ (zs : List (Shr α)) (rs : List Nat), zs.Sublist xs → zs.length = minSize →
        Reach t ((rs.foldl (fun ys r => ys.map fun a => (a.shrinks[r]?).getD a) zs).map Shr.value) := by
  unfold arbiVector at e
  obtain ⟨v, s1, e1, h1, h2, hd⟩ := getRandomSize_draw R s h hb
  rw [e1] at e
  simp only [Outcome.ok_bind, Outcome.bind_eq_ok] at e
  obtain ⟨⟨xs, s2⟩, e2, t1, e3, e4⟩ := e
  simp at e4
  obtain ⟨rfl, rfl⟩ := e4
  obtain ⟨hl, hg⟩ := drawMany_ok g _ _ _ _ e2
  refine ⟨xs, s1, by rw [hd]; simp only [Prod.mk.injEq, and_true]; omega, hg, fun zs rs hz hm => ?_⟩
  unfold listLike at e3
  rw [Outcome.bind_eq_ok] at e3
  obtain ⟨t0, h0, h1⟩ := e3
  simp at h1
  subst h1
  rw [flatMap_eq_map, reach_map]
  refine ⟨rs.foldl shrinkRound zs, ?_, rfl⟩
  obtain ⟨w, hw, hwv⟩ := C25_complete xs _ t0 h0 zs hz (by omega)
  have hn : w.shrinks = [] := by
    rw [List.eq_nil_iff_forall_not_mem]
    intro c hc
    have h1 := (C24_step xs _ t0 h0 w c hw hc).2
    have h2 := (C24_sound xs _ t0 h0 c.value ⟨c, hw.trans (.child hc), rfl⟩).2
    rw [hwv] at h1
    omega
  have hwl : w = leaf zs := by rw [← eta w, hwv, hn]; rfl
  rw [reach_andThen]
  refine ⟨w, hw, ?_⟩
  obtain ⟨u, hu, hv⟩ := rounds_reach rs zs
  cases hu with
  | refl => exact .inl (by rw [hwv]; exact hv)
  | step hc hd =>
    refine .inr ⟨hn, _, ?_, _, hd, hv⟩
    rw [hwl, elementwise_leaf]
    exact hc

example : ∃ t s', arbiVector Random.script (fun s => .ok (node 2 [leaf 0, node 1 [leaf 0]], s)) 2 3 [3]
    = .ok (t, s') ∧ Reach t [1, 1] := by
  obtain ⟨⟨t, s'⟩, e⟩ := C27_vector_total Random.script
    (fun s => .ok (node 2 [leaf 0, node 1 [leaf 0]], s)) 2 3 (by omega) (by omega) (fun s => ⟨_, rfl⟩) [3]
  obtain ⟨xs, s₁, hd, hg, hall⟩ := C27_elements _ _ 2 3 (by omega) (by omega) _ _ _ e
  have hl : (3 : Int) = xs.length := congrArg Prod.fst hd
  match xs, hl, hg with
  | [x, y, z], _, .cons h1 (.cons h2 (.cons h3 (.nil _))) =>
    cases h1; cases h2; cases h3
    exact ⟨t, s', e, hall [node 2 [leaf 0, node 1 [leaf 0]], node 2 [leaf 0, node 1 [leaf 0]]] [1]
      (List.sublist_append_left _ [_]) rfl⟩

end Verif
