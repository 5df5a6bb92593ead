import Verif.Lemmas.FloatSet
import Verif.Props.ChanceFloat
import Verif.Props.Containers
/-
C163: sets and maps of floating point numbers (Model/FloatSet.lean).
-/
namespace Verif
open Shr Random ListLike Floating FloatSet
variable {σ α : Type} {bal : Balance} (hb : ∀ (β : Type) (t : SetTree β), (bal β t).toList = t.toList)

theorem fill_nan (F : Fmt) (g : Gen σ Fl) (hg : ∀ s, ∃ r, g s = .ok r) (size : Nat) (h2 : 2 ≤ size) (x : Shr Fl)
    (hx : x.value = .nan) (fuel : Nat) (t : SetTree (Shr Fl)) (ht : t.toList = [x]) (s : σ) :
    fill bal (less F) g size fuel t s = .diverges := by
  induction fuel generalizing t s with
  | zero => rw [fill, if_pos (by rw [ht]; simp; omega)]
  | succ fuel ih =>
    rw [fill, if_pos (by rw [ht]; simp; omega)]
    obtain ⟨⟨y, s'⟩, hy⟩ := hg s
    rw [hy, Outcome.ok_bind]
    have l1 : ∀ v, less F v .nan = false := fun v => by cases v <;> rfl
    have l2 : ∀ v, less F .nan v = false := fun v => by cases v <;> rfl
    dsimp only
    rw [insert_rejected (by rw [ht]; simp) (fun z hz => by rw [ht, List.mem_singleton] at hz; rw [hz, hx, l1])
      (fun z hz => by rw [ht, List.mem_singleton] at hz; rw [hz, hx, l2])]
    exact ih t ht s'

include hb in
theorem fill_from_nan (F : Fmt) (g : Gen σ Fl) (hg : ∀ s, ∃ r, g s = .ok r) (size : Nat) (h2 : 2 ≤ size) (s s' : σ) (x : Shr Fl)
    (h : g s = .ok (x, s')) (hx : x.value = .nan) (fuel : Nat) : fill bal (less F) g size fuel .nil s = .diverges := by
  cases fuel with
  | zero => rw [fill, if_pos (by simp [SetTree.toList]; omega)]
  | succ fuel =>
    rw [fill, if_pos (by simp [SetTree.toList]; omega), h, Outcome.ok_bind]
    exact fill_nan F g hg size h2 x hx fuel _ (insert_empty _ x (t := .nil) rfl hb) s'

include hb in
/-- C163 is violated: if a set of two or more numbers is to be generated and the first number drawn is NaN, the generator
never returns, whatever is drawn next, for every element generator (that returns) and every implementation of `std::set`. NaN is
neither smaller nor larger than any other number, so the set takes all other numbers for NaN. -/
theorem C163_set_violated (F : Fmt) (R : Rng σ) (g : Gen σ Fl) (hg : ∀ s, ∃ r, g s = .ok r) (minSize maxSize : Nat)
    (h : minSize ≤ maxSize) (hm : maxSize < 2^32) (s s₁ s₂ : σ) (size : Int) (hsize : 2 ≤ size)
    (hd : R.draw s minSize maxSize = (size, s₁)) (x : Shr Fl) (hx : x.value = .nan) (h1 : g s₁ = .ok (x, s₂)) (fuel : Nat) :
    FloatSet.arbiSet bal (less F) R g minSize maxSize fuel s = .diverges := by
  unfold FloatSet.arbiSet
  rw [getRandomSize_eq R s (by omega) (by omega), Outcome.ok_bind]
  have e : ((maxSize + 1 : Nat) : Int) - 1 = maxSize := by push_cast; omega
  rw [e, hd]
  dsimp only
  rw [fill_from_nan hb F g hg size.toNat (by omega) s₁ s₂ x h1 hx]
  rfl

include hb in
/-- C163 is violated in the same way by maps: the keys are drawn into a set first. -/
theorem C163_map_violated (F : Fmt) (R : Rng σ) (g : Gen σ Fl) (hg : ∀ s, ∃ r, g s = .ok r) (elemGen : Gen σ α)
    (minSize maxSize : Nat) (h : minSize ≤ maxSize) (hm : maxSize < 2^32) (s s₁ s₂ : σ) (size : Int) (hsize : 2 ≤ size)
    (hd : R.draw s minSize maxSize = (size, s₁)) (x : Shr Fl) (hx : x.value = .nan) (h1 : g s₁ = .ok (x, s₂)) (fuel : Nat) :
    FloatSet.arbiMap bal (less F) R g elemGen minSize maxSize fuel s = .diverges := by
  unfold FloatSet.arbiMap
  rw [getRandomSize_eq R s (by omega) (by omega), Outcome.ok_bind]
  have e : ((maxSize + 1 : Nat) : Int) - 1 = maxSize := by push_cast; omega
  rw [e, hd]
  dsimp only
  rw [fill_from_nan hb F g hg size.toNat (by omega) s₁ s₂ x h1 hx]
  rfl

theorem floats_total (R : Rng σ) (F : Fmt) (s : σ) : ∃ r, floats R F s = .ok r := by
  obtain ⟨x, s', h, -⟩ := (C106_generated F).1 R s
  exact ⟨(leaf x, s'), by unfold floats; rw [h]; rfl⟩

/-- Draws for `set<float>`: the size 2, then a bit pattern that is a NaN. -/
example : Random.script.draw [2, 0x7fc00000] 0 200 = (2, [0x7fc00000]) ∧
    floats Random.script .single [0x7fc00000] = .ok (leaf .nan, []) ∧ ∀ s, ∃ r, floats Random.script .single s = .ok r :=
  ⟨by decide, rfl, floats_total _ _⟩

/-- The draws that a set of the given size takes: nothing for size 0, any number for size 1, else numbers beginning with one
that is not NaN, until there are as many different numbers as wanted. -/
def Takes (F : Fmt) (size : Nat) (vs : List Fl) : Prop :=
  (size ≤ 1 ∧ vs.length = size) ∨
    (2 ≤ size ∧ vs.head? ≠ some .nan ∧ different F vs = size ∧ ∀ q, q <+: vs → q ≠ vs → different F q < size)

theorem kindsBy_number (F : Fmt) (vs : List Fl) :
    kindsBy (Fl.number F) vs = if vs.head? = some .nan then 1 else different F vs := by
  cases vs with
  | nil => rfl
  | cons v vs =>
    simp only [kindsBy, List.head?_cons, Option.some.injEq, number_none]
    rfl

theorem prefix_map {β γ : Type} (f : β → γ) (l : List β) (P : List γ → Prop) :
    (∀ q, q <+: l → q ≠ l → P (q.map f)) ↔ ∀ q, q <+: l.map f → q ≠ l.map f → P q := by
  constructor
  · intro h q hq hne
    obtain ⟨n, hn, rfl⟩ : ∃ n, n ≤ (l.map f).length ∧ q = (l.map f).take n :=
      ⟨q.length, hq.length_le, List.prefix_iff_eq_take.1 hq⟩
    rw [← List.map_take] at hne ⊢
    exact h _ (List.take_prefix _ _) fun e => hne (by rw [e])
  · intro h q hq hne
    refine h _ (hq.map f) fun e => hne ?_
    exact hq.eq_of_length (by simpa using congrArg List.length e)

theorem enough_iff (F : Fmt) (size : Nat) (ds : List (Shr Fl)) :
    Enough (Fl.number F) size ds ↔ Takes F size (ds.map Shr.value) := by
  unfold Enough Takes
  rw [prefix_map Shr.value ds (fun q => kindsBy (Fl.number F) q < size)]
  generalize ds.map Shr.value = vs
  simp only [kindsBy_number]
  cases vs with
  | nil =>
    simp only [List.head?_nil, List.length_nil, List.prefix_nil]
    have : different F [] = 0 := rfl
    simp [this]
    omega
  | cons v vs =>
    have one : ∀ w, (if w = Fl.nan then 1 else different F [w]) = 1 := by
      intro w
      split
      · rfl
      · next hw =>
        have : Fl.number F w ≠ none := fun h => hw ((number_none F w).1 h)
        cases hn : Fl.number F w with
        | none => exact absurd hn this
        | some k => simp [different, hn]
    have h0 : different F [] = 0 := rfl
    constructor
    · rintro ⟨h1, h2⟩
      have hpos : 0 < size := by simpa [h0] using h2 [] List.nil_prefix (by simp)
      by_cases hs : size ≤ 1
      · refine .inl ⟨hs, ?_⟩
        have : size = 1 := by omega
        cases vs with
        | nil => simpa using this.symm
        | cons w ws =>
          have := h2 [v] (by simp) (by simp)
          simp only [List.head?_cons, Option.some.injEq, one] at this
          omega
      · refine .inr ⟨by omega, ?_⟩
        have hv : v ≠ .nan := by
          rintro rfl
          simp at h1
          omega
        have hv' : (v :: vs).head? ≠ some .nan := by simpa using hv
        rw [if_neg hv'] at h1
        refine ⟨hv', h1, fun q hq hne => ?_⟩
        have := h2 q hq hne
        cases q with
        | nil => rw [h0]; omega
        | cons w q =>
          obtain ⟨rfl, -⟩ := List.cons_prefix_cons.1 hq
          rwa [if_neg (by simpa using hv)] at this
    · rintro (⟨h1, h2⟩ | ⟨h1, h2, h3, h4⟩)
      · have hvs : vs = [] := by
          cases vs with
          | nil => rfl
          | cons w ws => simp at h2; omega
        subst hvs
        simp only [List.length_cons, List.length_nil] at h2
        refine ⟨by simp only [List.head?_cons, Option.some.injEq, one]; omega, fun q hq hne => ?_⟩
        cases q with
        | nil => simp [h0]; omega
        | cons w q =>
          obtain ⟨rfl, hq'⟩ := List.cons_prefix_cons.1 hq
          rw [List.prefix_nil.1 hq'] at hne
          exact absurd rfl hne
      · rw [if_neg h2]
        refine ⟨h3, fun q hq hne => ?_⟩
        cases q with
        | nil => simp [h0]; omega
        | cons w q =>
          obtain ⟨rfl, -⟩ := List.cons_prefix_cons.1 hq
          rw [if_neg (by simpa using h2)]
          exact h4 _ hq hne

include hb in
/-- The set of the loop, as a list: sorted without NaN, or of one element. -/
theorem built_shape (F : Fmt) (ds : List (Shr Fl)) :
    (Ordered (onValue (less F)) (build bal (onValue (less F)) ds).toList ∧
      ∀ y ∈ (build bal (onValue (less F)) ds).toList, Fl.number F y.value ≠ none) ∨
    ∃ x, (build bal (onValue (less F)) ds).toList = [x] := by
  have hk : ByKey (onValue (less F)) (fun a : Shr Fl => Fl.number F a.value) := (less_byKey F).comp Shr.value
  cases ds with
  | nil => exact .inl ⟨List.Pairwise.nil, by simp [build, SetTree.toList]⟩
  | cons x xs =>
    by_cases hx : Fl.number F x.value = none
    · exact .inr ⟨x, build_first hb hk hx xs⟩
    · obtain ⟨i1, i2, -⟩ := build_good hb hk (x :: xs) (fun y hy => by simp at hy; subst hy; exact hx)
      exact .inl ⟨i1, fun y hy => (i2 y hy).1⟩

include hb in
theorem shrinkSet_built (F : Fmt) (ds : List (Shr Fl)) (minSize : Nat)
    (hm : minSize ≤ (build bal (onValue (less F)) ds).toList.length) :
    ∃ t0, membershipwise (build bal (onValue (less F)) ds).toList minSize = .ok t0 ∧
      FloatSet.shrinkSet bal (less F) (build bal (onValue (less F)) ds).toList minSize =
        .ok (t0.map fun v => v.map Shr.value) := by
  obtain ⟨t0, h0⟩ := (C24_defined _ minSize).1.2 hm
  refine ⟨t0, h0, ?_⟩
  unfold FloatSet.shrinkSet
  rw [h0]
  change Outcome.ok _ = _
  congr 1
  rw [flatMap_eq_map]
  refine Shr.map_congr_reach fun v hv => ?_
  simp only [value_leaf]
  refine build_sublist hb (less_byKey F) (xs := (build bal (onValue (less F)) ds).toList.map Shr.value) ?_
    ((C24_sound _ _ _ h0 v hv).1.map _)
  rcases built_shape hb F ds with ⟨h1, h2⟩ | ⟨x, h1⟩
  · refine .inl ⟨List.pairwise_map.2 h1, fun y hy => ?_⟩
    obtain ⟨z, hz, rfl⟩ := List.mem_map.1 hy
    exact h2 z hz
  · exact .inr ⟨x.value, by rw [h1]; rfl⟩

include hb in
/-- C163, what holds: the generator of sets returns exactly if the numbers it draws permit it. After a size has been drawn,
a set of size 0 needs no number, a set of size 1 takes any number, also NaN, and a larger set takes numbers until there are as
many different ones as wanted (counting 0 and -0 as one number and not counting NaN), provided that the first one is not NaN.
Missing: first draws that are NaN (`C163_set_violated`). -/
theorem C163_returns_partial (F : Fmt) (R : Rng σ) (g : Gen σ Fl) (minSize maxSize fuel : Nat) (h : minSize ≤ maxSize)
    (hm : maxSize < 2^32) (s s' : σ) :
    (∃ t, FloatSet.arbiSet bal (less F) R g minSize maxSize fuel s = .ok (t, s')) ↔
      ∃ (size : Nat) (s₁ : σ) (ds : List (Shr Fl)), R.draw s minSize maxSize = ((size : Int), s₁) ∧ g.Draws s₁ ds s' ∧
        ds.length ≤ fuel ∧ Takes F size (ds.map Shr.value) := by
  have e : ((maxSize + 1 : Nat) : Int) - 1 = maxSize := by push_cast; omega
  have hmem := R.draw_mem s minSize maxSize (by omega)
  unfold FloatSet.arbiSet
  rw [getRandomSize_eq R s (by omega) (by omega), e]
  constructor
  · rintro ⟨t, ht⟩
    rw [Outcome.ok_bind, Outcome.bind_eq_ok] at ht
    obtain ⟨⟨t0, s2⟩, h1, h2⟩ := ht
    dsimp only at h1 h2
    rw [Outcome.bind_eq_ok] at h2
    obtain ⟨r, -, h3⟩ := h2
    cases h3
    obtain ⟨ds, d1, d2, d3, -⟩ := (fill_iff hb (less_byKey F) g _ fuel _ _ _).1 h1
    refine ⟨(R.draw s minSize maxSize).1.toNat, (R.draw s minSize maxSize).2, ds, ?_, d1, d2, (enough_iff F _ ds).1 d3⟩
    rw [Int.toNat_of_nonneg (by omega)]
  · rintro ⟨size, s₁, ds, h1, h2, h3, h4⟩
    rw [h1] at hmem ⊢
    dsimp only at hmem
    have h4 := (enough_iff F size ds).2 h4
    obtain ⟨t0, -, k2⟩ := shrinkSet_built hb F ds minSize (by rw [kindsBy_value hb (less_byKey F), h4.1]; omega)
    refine ⟨t0.map fun v => v.map Shr.value, ?_⟩
    rw [Outcome.ok_bind]
    dsimp only
    rw [Int.toNat_natCast, (fill_iff hb (less_byKey F) g size fuel s₁ s' _).2 ⟨ds, h2, h3, h4, rfl⟩, Outcome.ok_bind]
    dsimp only
    rw [k2]
    rfl

/-- Five draws for a set of three numbers: 1, NaN, 0, -0, 2. -/
example : Takes .single 3 [.fin false (2^23) 1, .nan, .zero false, .zero true, .fin false (2^23) 2] := by
  refine .inr ⟨by decide, by simp, by decide +kernel, fun q hq hne => ?_⟩
  obtain ⟨n, hn, rfl⟩ : ∃ n, n ≤ 5 ∧ q = List.take n _ := ⟨q.length, hq.length_le, List.prefix_iff_eq_take.1 hq⟩
  rcases (by omega : n = 0 ∨ n = 1 ∨ n = 2 ∨ n = 3 ∨ n = 4 ∨ n = 5) with rfl | rfl | rfl | rfl | rfl | rfl
  · decide +kernel
  · decide +kernel
  · decide +kernel
  · decide +kernel
  · decide +kernel
  · exact absurd rfl hne

include hb in
/-- C163, what holds: a set that is generated has a size in the given range, its elements are in increasing order, and none of
them is NaN, unless the set consists of NaN alone. The reachable sets are the selections of at least `minSize` of its elements. -/
theorem C163_set_partial (F : Fmt) (R : Rng σ) (g : Gen σ Fl) (minSize maxSize fuel : Nat) (h : minSize ≤ maxSize)
    (hm : maxSize < 2^32) (s s' : σ) (t : Shr (List Fl))
    (ht : FloatSet.arbiSet bal (less F) R g minSize maxSize fuel s = .ok (t, s')) :
    minSize ≤ t.value.length ∧ t.value.length ≤ maxSize ∧
    (t.value = [.nan] ∨ .nan ∉ t.value ∧ (t.value.filterMap (Fl.number F)).Pairwise (· < ·)) ∧
    (∃ s₁ ds, R.draw s minSize maxSize = ((t.value.length : Int), s₁) ∧ g.Draws s₁ ds s' ∧ ∀ v ∈ t.value, v ∈ ds.map Shr.value) ∧
    ∀ ys, Reach t ys ↔ ys.Sublist t.value ∧ minSize ≤ ys.length := by
  have e : ((maxSize + 1 : Nat) : Int) - 1 = maxSize := by push_cast; omega
  have hmem := R.draw_mem s minSize maxSize (by omega)
  unfold FloatSet.arbiSet at ht
  rw [getRandomSize_eq R s (by omega) (by omega), e, Outcome.ok_bind, Outcome.bind_eq_ok] at ht
  obtain ⟨⟨t0, s2⟩, h1, h2⟩ := ht
  dsimp only at h1 h2
  rw [Outcome.bind_eq_ok] at h2
  obtain ⟨r, h4, h3⟩ := h2
  cases h3
  obtain ⟨ds, d1, d2, d3, rfl⟩ := (fill_iff hb (less_byKey F) g _ fuel _ _ _).1 h1
  have hlen := kindsBy_value hb (less_byKey F) ds
  rw [d3.1] at hlen
  change _ = (R.draw s minSize maxSize).1.toNat at hlen
  obtain ⟨u, k1, k2⟩ := shrinkSet_built hb F ds minSize (by rw [hlen]; omega)
  rw [k2] at h4
  cases h4
  have hv : (u.map fun v => v.map Shr.value).value = (build bal (onValue (less F)) ds).toList.map Shr.value := by
    rw [value_map, (C24_defined _ _).2 u k1]
  rw [hv]
  have hmemds : ∀ y ∈ (build bal (onValue (less F)) ds).toList, y ∈ ds := by
    cases ds with
    | nil => simp [build, SetTree.toList]
    | cons x xs =>
      have hk : ByKey (onValue (less F)) (fun a : Shr Fl => Fl.number F a.value) := (less_byKey F).comp Shr.value
      by_cases hx : Fl.number F x.value = none
      · rw [build_first hb hk hx xs]; simp
      · obtain ⟨-, i2, -⟩ := build_good hb hk (x :: xs) (fun y hy => by simp at hy; subst hy; exact hx)
        exact fun y hy => (i2 y hy).2
  refine ⟨by rw [List.length_map, hlen]; omega, by rw [List.length_map, hlen]; omega, ?_, ?_, fun ys => ?_⟩
  · rcases built_shape hb F ds with ⟨h1, h2⟩ | ⟨x, h1⟩
    · refine .inr ⟨fun hc => ?_, ?_⟩
      · obtain ⟨y, hy, e⟩ := List.mem_map.1 hc
        exact h2 y hy (by rw [e]; rfl)
      · exact ordered_nodup (less_byKey F) (List.pairwise_map.2 h1)
    · rw [h1]
      by_cases hx : x.value = .nan
      · exact .inl (by simp [hx])
      · refine .inr ⟨by simpa using Ne.symm hx, ?_⟩
        cases hn : Fl.number F x.value <;> simp [hn]
  · refine ⟨(R.draw s minSize maxSize).2, ds, ?_, d1, fun v hv => ?_⟩
    · rw [List.length_map, hlen, Int.toNat_of_nonneg (by omega)]
    · obtain ⟨y, hy, rfl⟩ := List.mem_map.1 hv
      exact List.mem_map_of_mem (hmemds y hy)
  · rw [reach_map]
    constructor
    · rintro ⟨v, hv, rfl⟩
      obtain ⟨j1, j2⟩ := C24_sound _ minSize u k1 v hv
      exact ⟨j1.map _, by simpa using j2⟩
    · rintro ⟨j1, j2⟩
      obtain ⟨v, hv, rfl⟩ := List.sublist_map_iff.mp j1
      exact ⟨v, C25_complete _ minSize u k1 v hv (by simpa using j2), rfl⟩

/-- A set of two floats out of the draws 1, NaN, 0 is generated: the theorem applies to it, with the elements 0 and 1. -/
example : (match FloatSet.arbiSet (fun _ t => t) (less .single) Random.script (floats Random.script .single) 1 200 5
      [2, 1065353216, 2143289344, 0] with
    | .ok (t, s) => some (t.value, s)
    | _ => none) = some ([.zero false, .fin false (2^23) 1], []) := by decide +kernel

include hb in
/-- The shape of the keys of a list of entries decides that rebuilding the map from some of them changes nothing. -/
theorem entries_built {β : Type} (F : Fmt) {κ' : Type} (v : κ' → Fl) (xs : List (κ' × β))
    (h : Ordered (fun a b => less F (v a) (v b)) (xs.map Prod.fst) ∧ (∀ k ∈ xs.map Prod.fst, Fl.number F (v k) ≠ none) ∨
      ∃ x, xs.map Prod.fst = [x]) (ys : List (κ' × β)) (hy : ys.Sublist xs) :
    (build bal (fun a b => less F (v a.1) (v b.1)) ys).toList = ys := by
  have hk : ByKey (fun a b : κ' × β => less F (v a.1) (v b.1)) (fun a => Fl.number F (v a.1)) :=
    (less_byKey F).comp fun a : κ' × β => v a.1
  refine build_sublist hb hk (xs := xs) ?_ hy
  rcases h with ⟨h1, h2⟩ | ⟨x, h1⟩
  · exact .inl ⟨List.pairwise_map.1 h1, fun y hy => h2 _ (List.mem_map_of_mem hy)⟩
  · obtain ⟨y, e, -⟩ := List.map_eq_singleton_iff.1 h1
    exact .inr ⟨y, e⟩

include hb in
/-- C163, what holds: the same for maps. The keys of a map that is generated are in increasing order and none of them is NaN,
unless the only key is NaN; the number of entries is in the given range, the keys are among the drawn ones, and the values are
drawn one after the other. The reachable maps are its first `k` entries, for `k` of at least `minSize`. Missing: first keys
that are NaN (`C163_map_violated`). -/
theorem C163_map_partial {β : Type} (F : Fmt) (R : Rng σ) (keyGen : Gen σ Fl) (elemGen : Gen σ β) (minSize maxSize fuel : Nat)
    (h : minSize ≤ maxSize) (hm : maxSize < 2^32) (s s' : σ) (t : Shr (List (Fl × β)))
    (ht : FloatSet.arbiMap bal (less F) R keyGen elemGen minSize maxSize fuel s = .ok (t, s')) :
    minSize ≤ t.value.length ∧ t.value.length ≤ maxSize ∧
    (t.value.map Prod.fst = [.nan] ∨
      .nan ∉ t.value.map Prod.fst ∧ ((t.value.map Prod.fst).filterMap (Fl.number F)).Pairwise (· < ·)) ∧
    (∃ s₁ s₂ ks es, R.draw s minSize maxSize = ((t.value.length : Int), s₁) ∧ keyGen.Draws s₁ ks s₂ ∧ elemGen.Draws s₂ es s' ∧
      Takes F t.value.length (ks.map Shr.value) ∧ (∀ k ∈ t.value.map Prod.fst, k ∈ ks.map Shr.value) ∧
      t.value.map Prod.snd = es.map Shr.value) ∧
    ∀ ys, Reach t ys ↔ ∃ k, minSize ≤ k ∧ k ≤ t.value.length ∧ ys = t.value.take k := by
  have e : ((maxSize + 1 : Nat) : Int) - 1 = maxSize := by push_cast; omega
  have hmem := R.draw_mem s minSize maxSize (by omega)
  unfold FloatSet.arbiMap at ht
  rw [getRandomSize_eq R s (by omega) (by omega), e, Outcome.ok_bind, Outcome.bind_eq_ok] at ht
  obtain ⟨⟨t0, s2⟩, h1, h2⟩ := ht
  dsimp only at h1 h2
  rw [Outcome.bind_eq_ok] at h2
  obtain ⟨⟨es, s3⟩, h4, h3⟩ := h2
  cases h3
  obtain ⟨ds, d1, d2, d3, rfl⟩ := (fill_iff hb (less_byKey F) keyGen _ fuel _ _ _).1 h1
  have hlen := kindsBy_value hb (less_byKey F) ds
  rw [d3.1] at hlen
  change _ = (R.draw s minSize maxSize).1.toNat at hlen
  obtain ⟨hl2, hme⟩ := drawMany_ok elemGen _ _ _ _ h4
  have hshape := built_shape hb F ds
  set keys := (build bal (onValue (less F)) ds).toList with hkeys
  have hz : ((keys.zip es).map Prod.fst) = keys := List.map_fst_zip (by omega)
  have b1 : (build bal (fun a b => less F a.1.value b.1.value) (keys.zip es)).toList = keys.zip es :=
    entries_built hb F Shr.value (keys.zip es) (by rw [hz]; exact hshape) _ (List.Sublist.refl _)
  have hshape2 : Ordered (less F) (keys.map Shr.value) ∧ (∀ y ∈ keys.map Shr.value, Fl.number F y ≠ none) ∨
      ∃ x, keys.map Shr.value = [x] := by
    rcases hshape with ⟨j1, j2⟩ | ⟨x, j1⟩
    · refine .inl ⟨List.pairwise_map.2 j1, fun y hy => ?_⟩
      obtain ⟨z, hz, rfl⟩ := List.mem_map.1 hy
      exact j2 z hz
    · exact .inr ⟨x.value, by rw [j1]; rfl⟩
  set ents := (keys.zip es).map fun e => (e.1.value, e.2.value) with hents
  have hfst : ents.map Prod.fst = keys.map Shr.value := by
    rw [hents, List.map_map, show (Prod.fst ∘ fun e : Shr Fl × Shr β => (e.1.value, e.2.value)) = Shr.value ∘ Prod.fst from rfl,
      ← List.map_map, hz]
  have b2 : FloatSet.shrinkMap bal (less F) (keys.zip es) minSize =
      (Containers.mapSizes (keys.zip es).length minSize).map fun k => ents.take k := by
    unfold FloatSet.shrinkMap
    rw [flatMap_eq_map, flatMap_eq_map, Shr.map_map]
    congr 1
    funext k
    simp only [value_leaf]
    have e1 : (if k = 0 then leaf ([] : List (Shr Fl × Shr β)) else
        leaf (build bal (fun a b => less F a.1.value b.1.value) ((keys.zip es).take k)).toList).value = (keys.zip es).take k := by
      split
      · subst k; simp
      · rw [value_leaf]
        exact entries_built hb F Shr.value (keys.zip es) (by rw [hz]; exact hshape) _ (List.take_sublist _ _)
    rw [e1, List.map_take, ← hents]
    exact entries_built hb F id ents (by rw [hfst]; exact hshape2) _ (List.take_sublist _ _)
  rw [b1, b2]
  have hlz : (keys.zip es).length = (R.draw s minSize maxSize).1.toNat := by rw [List.length_zip]; omega
  have hle : ents.length = (R.draw s minSize maxSize).1.toNat := by rw [hents, List.length_map, hlz]
  have hsz : Containers.mapSizes (keys.zip es).length minSize = sizeRange minSize (keys.zip es).length :=
    if_pos (by omega)
  have hv : ((Containers.mapSizes (keys.zip es).length minSize).map fun k => ents.take k).value = ents := by
    rw [value_map, hsz, sizeRange, value_map, BinSearch.bsNat_value, List.take_of_length_le]
    omega
  rw [hv]
  have hmemds : ∀ y ∈ keys, y ∈ ds := by
    rw [hkeys]
    cases ds with
    | nil => simp [build, SetTree.toList]
    | cons x xs =>
      have hk : ByKey (onValue (less F)) (fun a : Shr Fl => Fl.number F a.value) := (less_byKey F).comp Shr.value
      by_cases hx : Fl.number F x.value = none
      · rw [build_first hb hk hx xs]; simp
      · obtain ⟨-, i2, -⟩ := build_good hb hk (x :: xs) (fun y hy => by simp at hy; subst hy; exact hx)
        exact fun y hy => (i2 y hy).2
  refine ⟨by omega, by omega, ?_, ?_, fun ys => ?_⟩
  · rw [hfst]
    rcases hshape2 with ⟨j1, j2⟩ | ⟨x, j1⟩
    · exact .inr ⟨fun hc => j2 _ hc rfl, ordered_nodup (less_byKey F) j1⟩
    · rw [j1]
      by_cases hx : x = .nan
      · exact .inl (by simp [hx])
      · refine .inr ⟨by simpa using Ne.symm hx, ?_⟩
        cases hn : Fl.number F x <;> simp [hn]
  · refine ⟨(R.draw s minSize maxSize).2, s2, ds, es, ?_, d1, hme, ?_, fun v hv => ?_, ?_⟩
    · rw [hle, Int.toNat_of_nonneg (by omega)]
    · rw [hle]; exact (enough_iff F _ ds).1 d3
    · rw [hfst] at hv
      obtain ⟨y, hy, rfl⟩ := List.mem_map.1 hv
      exact List.mem_map_of_mem (hmemds y hy)
    · rw [hents, List.map_map, show (Prod.snd ∘ fun e : Shr Fl × Shr β => (e.1.value, e.2.value)) = Shr.value ∘ Prod.snd from rfl,
        ← List.map_map, List.map_snd_zip (by omega)]
  · rw [reach_map, hsz]
    simp only [sizeRange_reach (show minSize ≤ (keys.zip es).length by omega)]
    rw [hle, hlz]
    constructor
    · rintro ⟨k, ⟨j1, j2⟩, rfl⟩; exact ⟨k, j1, j2, rfl⟩
    · rintro ⟨k, j1, j2, rfl⟩; exact ⟨k, ⟨j1, j2⟩, rfl⟩

/-- A map with the keys 0 and 1 is generated after the draws 1, NaN, 0, and one with the only key NaN. -/
example : (match FloatSet.arbiMap (fun _ t => t) (less .single) Random.script (floats Random.script .single)
      (fun s => .ok (leaf s.length, s)) 1 200 5 [2, 1065353216, 2143289344, 0] with
    | .ok (t, s) => some (t.value, s)
    | _ => none) = some ([(.zero false, 0), (.fin false (2^23) 1, 0)], []) ∧
    (match FloatSet.arbiMap (fun _ t => t) (less .single) Random.script (floats Random.script .single)
      (fun s => .ok (leaf s.length, s)) 1 200 5 [1, 2143289344] with
    | .ok (t, s) => some (t.value, s)
    | _ => none) = some ([(.nan, 0)], []) := by decide +kernel

end Verif
