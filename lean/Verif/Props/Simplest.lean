import Verif.Lemmas.Simplest
import Verif.Props.EndToEnd
import Verif.Props.Containers
import Verif.Props.Floating
import Verif.Model.Combinator
/-
C136: arguments that play no role in a failure are reported in their simplest form.
-/
namespace Verif
open Shr BinSearch Random Integral IntType ListLike Containers PairTuple Floating

namespace Engine
variable {n : Nat} {A : Fin n → Type} {σ : Type}

theorem greedyEach_fails (fails : Args A → Bool) : ∀ (order : List (Fin n)) (ts : Tup A),
    fails (fun i => (ts i).value) = true → fails (fun i => (greedyEach fails order ts i).value) = true
  | [], ts, h => h
  | N :: rest, ts, h => by
    rw [greedyEach]
    refine greedyEach_fails fails rest _ ?_
    have h1 := greedy_fails (fun v => fails (Function.update (fun i => (ts i).value) N v)) (ts N)
      (by simpa using h)
    rw [← greedyNode_value] at h1
    convert h1 using 2
    funext i
    by_cases e : i = N
    · subst e; simp
    · simp [Function.update_of_ne e]

theorem greedyEach_notMem (fails : Args A → Bool) (i : Fin n) : ∀ (order : List (Fin n)) (ts : Tup A),
    i ∉ order → greedyEach fails order ts i = ts i
  | [], ts, _ => rfl
  | N :: rest, ts, h => by
    rw [greedyEach, greedyEach_notMem fails i rest _ (fun hm => h (by simp [hm])),
      Function.update_of_ne (fun e => h (by simp [e]))]

theorem greedyEach_simplest (fails : Args A → Bool) (i : Fin n)
    (hi : ∀ (a : Args A) (x : A i), fails (Function.update a i x) = fails a) : ∀ (order : List (Fin n)) (ts : Tup A),
    i ∈ order → fails (fun j => (ts j).value) = true → Simplest (ts i) (greedyEach fails order ts i)
  | [], ts, h, _ => by simp at h
  | N :: rest, ts, h, hf => by
    rw [greedyEach]
    have hf' : fails (fun j => (Function.update ts N ((ts N).greedyNode fun v =>
        fails (Function.update (fun i => (ts i).value) N v)) j).value) = true :=
      greedyEach_fails fails [N] ts hf
    by_cases e : i = N
    · subst e
      have h1 := simplest_greedyNode (fun v => fails (Function.update (fun j => (ts j).value) i v)) (ts i)
        (fun v => by rw [hi]; exact hf)
      by_cases hm : i ∈ rest
      · have h2 := greedyEach_simplest fails i hi rest _ hm hf'
        rw [Function.update_self] at h2
        have h3 := h2.unique (.done h1.shrinks_nil)
        rw [h3]
        exact h1
      · rw [greedyEach_notMem fails i rest _ hm, Function.update_self]
        exact h1
    · have hm : i ∈ rest := by simpa [e] using h
      have h2 := greedyEach_simplest fails i hi rest _ hm hf'
      rwa [Function.update_of_ne e] at h2

/-- C136. An argument that plays no role - replacing it by any other value never changes whether the property fails - is
reported in the simplest form of the value that was generated for it. -/
theorem C136_no_role {c : Cfg σ A} (hc : Setting c) {f : Args A → Ev Bool} (hf : c.Pure f)
    (hq : ∀ a, (f a).out = .throws .success ∨ (f a).out = .throws .discard → (f a).fails = [])
    (i : Fin n) (hi : i ∈ c.orderEach)
    (hrole : ∀ (a : Args A) (x : A i), (f (Function.update a i x)).Rejects ↔ (f a).Rejects)
    (fuel : Nat) (seed : σ) (a : Nat) (start shrunk : Tup A) (tr : Trace A)
    (h : forAll c fuel seed [] = (.ok (.falsified a start shrunk), tr)) :
    Simplest (start i) (shrunk i) ∧ (c.gens i).Makes (start i) := by
  classical
  let fails : Args A → Bool := fun a => decide (f a).Rejects
  have hfails : ∀ a, fails a = true ↔ (f a).Rejects := fun a => by simp [fails]
  obtain ⟨h1, -⟩ := C108_greedy hc hf hfails fuel seed a start shrunk tr h
  have hst : (f fun i => (start i).value).Rejects := by
    rcases start_fails hc hf hq fuel seed a start shrunk tr h with h4 | ⟨e, h4, h5, _⟩ | h4
    · exact Or.inl h4
    · exact Or.inr (Or.inl ⟨e, h4, h5⟩)
    · exact Or.inr (Or.inr h4)
  constructor
  · rw [h1]
    exact greedyEach_simplest fails i (fun a x => by simp only [fails, hrole]) _ _ hi ((hfails _).mpr hst)
  · have hr := forAll_result hc fuel seed
    rw [h] at hr
    obtain ⟨k, hk, hstop⟩ := hr.stop a start shrunk rfl
    obtain ⟨pre, x, s', t', s1, s2, hR, _, _, _, ⟨s, r, hdraw⟩, _⟩ := hstop.ex
    cases hR
    exact Gen.drawTuple_ok _ _ _ _ _ hdraw i

/-- C136 in terms of the generator. -/
theorem C136_reported {c : Cfg σ A} (hc : Setting c) {f : Args A → Ev Bool} (hf : c.Pure f)
    (hq : ∀ a, (f a).out = .throws .success ∨ (f a).out = .throws .discard → (f a).fails = [])
    (i : Fin n) (hi : i ∈ c.orderEach)
    (hrole : ∀ (a : Args A) (x : A i), (f (Function.update a i x)).Rejects ↔ (f a).Rejects)
    (P : A i → Prop) (hP : (c.gens i).SimplestIs P)
    (fuel : Nat) (seed : σ) (a : Nat) (start shrunk : Tup A) (tr : Trace A)
    (h : forAll c fuel seed [] = (.ok (.falsified a start shrunk), tr)) : P (shrunk i).value :=
  have ⟨h1, h2⟩ := C136_no_role hc hf hq i hi hrole fuel seed a start shrunk tr h
  hP _ _ h2 h1

end Engine

variable {σ α β κ : Type}

/-! ### What the simplest form is, for the generators of the library -/

theorem simplest_shrinkableOf {T : IntType} (hT : T ∈ all) {min max z v : Int} (h1 : T.lo ≤ min) (hv1 : min ≤ v)
    (hv2 : v ≤ max) (h2 : max ≤ T.hi) (hz : Nearest0 min max z) {t : Shr Int} (ht : shrinkableOf T min max v = .ok t) :
    Simplest t (leaf z) := by
  have hz' := nearest0_unique hz
  rcases shrinkableOf_eq hT h1 hv1 hv2 h2 with ⟨hle, e⟩ | ⟨hle, e⟩
  all_goals
    rw [ht] at e
    simp only [Outcome.ok.injEq] at e
    rw [← hz'] at hle e
    rw [e]
    have := (simplest_bsNat (v - z).natAbs).map (β := Int)
    first
    | simpa [Shr.leaf, Shr.map, mapList] using this fun x : Nat => z + (x : Int)
    | simpa [Shr.leaf, Shr.map, mapList] using this fun x : Nat => z - (x : Int)

/-- C136. Integers of a range: the number of the range nearest to zero. -/
theorem C136_interval (R : Rng σ) (T : IntType) (hT : T ∈ all) (min max z : Int) (h1 : T.lo ≤ min) (h2 : max ≤ T.hi)
    (hz : Nearest0 min max z) : Gen.SimplestIs (interval R T min max) (· = z) := by
  rintro t u ⟨s, s', hs⟩ hu
  unfold interval generateInteger at hs
  rw [Outcome.bind_eq_ok] at hs
  obtain ⟨⟨v, s1⟩, hdv, hs⟩ := hs
  simp only at hs
  rw [Outcome.bind_eq_ok] at hs
  obtain ⟨t, ht, hs⟩ := hs
  cases hs
  obtain ⟨hz1, hz2, _⟩ := id hz
  obtain ⟨v0, s0, e0, hv1, hv2⟩ := drawValue_ok R hT (boundary_mem hT) (boundary_length hT) s h1 (by omega) h2
  rw [e0] at hdv
  cases hdv
  rw [hu.unique (simplest_shrinkableOf hT h1 hv1 hv2 h2 hz ht)]
  rfl

/-- C136. Integers of a type: zero. -/
theorem C136_integers (R : Rng σ) (T : IntType) (hT : T ∈ all) : Gen.SimplestIs (arbiInt R T) (· = 0) :=
  C136_interval R T hT T.lo T.hi 0 (le_refl _) (le_refl _)
    ⟨by simp only [all, List.mem_cons, List.not_mem_nil, or_false] at hT; rcases hT with rfl | rfl | rfl | rfl | rfl | rfl | rfl | rfl <;> decide,
     by simp only [all, List.mem_cons, List.not_mem_nil, or_false] at hT; rcases hT with rfl | rfl | rfl | rfl | rfl | rfl | rfl | rfl <;> decide,
     fun w _ _ => by simp⟩

/-- C136. Booleans: `false`. -/
theorem C136_bool (R : Rng σ) (thr : Option Nat) : Gen.SimplestIs (arbiBool R thr) (· = false) := by
  rintro t u ⟨s, s', hs⟩ hu
  unfold arbiBool at hs
  cases hs
  have : Simplest (shrinkBool (getRandomBool R thr s).1) (leaf false) := by
    unfold shrinkBool
    split
    · exact .step rfl (.done rfl)
    · rename_i h
      simp only [Bool.not_eq_true] at h
      rw [h]
      exact .done rfl
  rw [hu.unique this]
  rfl

/-- C136. Floating point numbers, NaN included: zero. (A drawn zero keeps its sign. `arbi` explores all shrinks, which is undefined
for numbers of magnitude 2^32 and more, see C101; nothing is said about these.) -/
theorem C136_floating (R : Rng σ) (F : Fmt) : Gen.SimplestIs (Floating.arbi R F) (fun x => ∃ neg, x = .zero neg) := by
  rintro t u ⟨s, s', hs⟩ hu
  obtain ⟨hv, hsh⟩ := C106_shrinkable R F s s' t hs
  obtain ⟨x, s1, hx, hval⟩ := (C106_generated F).1 R s
  rw [hv] at hx
  cases hx
  have key : (∃ neg, t.value = .zero neg) ∧ t.shrinks = [] ∨ ∃ r, t.shrinks = leaf (.zero false) :: r := by
    cases ht : t.value with
    | zero neg =>
      rw [ht, shrinkFloat, Outcome.ok.injEq] at hsh
      exact .inl ⟨⟨neg, rfl⟩, hsh.symm⟩
    | nan =>
      rw [ht, shrinkFloat, Outcome.ok.injEq] at hsh
      exact .inr ⟨[], hsh.symm⟩
    | inf neg =>
      rw [ht] at hsh hval
      rw [C101_huge_violated F _ hval (.inl ⟨neg, rfl⟩)] at hsh
      cases hsh
    | fin neg f e =>
      rw [ht] at hsh hval
      exact .inr (C102_complete F neg f e hval _ hsh).1
  rcases key with ⟨h1, h2⟩ | ⟨r, h⟩
  · rw [hu.unique (.done h2)]
    exact h1
  · rw [hu.unique (.step h (.done rfl))]
    exact ⟨false, rfl⟩

/-- C136. Vectors and lists: the smallest allowed number of elements, each in its simplest form. -/
theorem C136_vector (R : Rng σ) (g : Gen σ α) (minSize maxSize : Nat) (P : α → Prop) (hg : g.SimplestIs P) :
    Gen.SimplestIs (arbiVector R g minSize maxSize) (fun l => l.length = minSize ∧ ∀ x ∈ l, P x) := by
  rintro t u ⟨s, s', hs⟩ hu
  unfold arbiVector at hs
  simp only [Outcome.bind_eq_ok] at hs
  obtain ⟨⟨v, s1⟩, e1, ⟨xs, s2⟩, e2, t0, e3, e4⟩ := hs
  cases e4
  obtain ⟨-, hd⟩ := drawMany_ok g _ _ _ _ e2
  obtain ⟨hle, ys, h1, h2⟩ := simplest_listLike _ _ _ e3
  rw [hu.unique h2]
  have hl := h1.length_eq
  refine ⟨by simp at hl hle ⊢; omega, ?_⟩
  intro x hx
  simp only [value_leaf, List.mem_map] at hx
  obtain ⟨y, hy, rfl⟩ := hx
  have : ∀ (as bs : List (Shr α)), List.Forall₂ Simplest as bs → y ∈ bs → ∃ z ∈ as, Simplest z y := by
    intro as bs h
    induction h with
    | nil => simp
    | cons h _ ih =>
      intro hm
      rcases List.mem_cons.mp hm with rfl | hm
      · exact ⟨_, by simp, h⟩
      · obtain ⟨z, hz, h⟩ := ih hm
        exact ⟨z, by simp [hz], h⟩
  obtain ⟨z, hz, hzy⟩ := this _ _ h1 hy
  exact hg z y (hd.makes z (List.mem_of_mem_take hz)) hzy

/-- C136. Strings: the smallest allowed number of characters; the characters themselves are not simplified. -/
theorem C136_string (R : Rng σ) (g : Gen σ α) (minSize maxSize : Nat) (h : minSize ≤ maxSize) (hb : maxSize < 2^32) :
    Gen.SimplestIs (arbiString R g minSize maxSize) (fun l => l.length = minSize) := by
  rintro t u ⟨s, s', hs⟩ hu
  unfold arbiString at hs
  obtain ⟨v, s1, e1, h1, h2, -⟩ := getRandomSize_draw R s h hb
  rw [e1] at hs
  simp only [Outcome.ok_bind, Outcome.bind_eq_ok] at hs
  obtain ⟨⟨xs, s2⟩, e2, e4⟩ := hs
  cases e4
  obtain ⟨hl, -⟩ := drawMany_ok g _ _ _ _ e2
  rw [hu.unique (simplest_shrinkString _ _ (by simp; omega))]
  simp; omega

theorem length_insertBy_le [LinearOrder κ] (key : β → κ) (x : β) (l : List β) : (insertBy key x l).length ≤ l.length + 1 := by
  induction l with
  | nil => simp [insertBy]
  | cons y ys ih =>
    unfold insertBy
    split
    · simp
    · split
      · simp; omega
      · simp

theorem length_insertAll_le [LinearOrder κ] (key : β → κ) (l : List β) : (insertAll key l).length ≤ l.length := by
  have : ∀ (l acc : List β), (l.foldl (fun acc x => insertBy key x acc) acc).length ≤ acc.length + l.length := by
    intro l
    induction l with
    | nil => simp
    | cons x l ih =>
      intro acc
      have h1 := ih (insertBy key x acc)
      have h2 := length_insertBy_le key x acc
      simp only [List.foldl_cons, List.length_cons]
      omega
  simpa [insertAll] using this l []

/-- C136. Sets: the smallest allowed number of elements. -/
theorem C136_set [LinearOrder α] (R : Rng σ) (g : Gen σ α) (minSize maxSize fuel : Nat) (h : minSize ≤ maxSize)
    (hb : maxSize < 2^32) :
    Gen.SimplestIs (arbiSet R g minSize maxSize fuel) (fun l => l.length = minSize) := by
  rintro t u ⟨s, s', hs⟩ hu
  have hge := (((C29_generated R g minSize maxSize fuel h hb s s' t hs).2.2.2.2 u.value).mp ⟨u, hu.desc, rfl⟩).2.2
  unfold arbiSet at hs
  simp only [Outcome.bind_eq_ok] at hs
  obtain ⟨⟨v, s1⟩, e1, ⟨xs, s2⟩, e2, t0, e3, e4⟩ := hs
  cases e4
  obtain ⟨hle, h2⟩ := simplest_shrinkSet _ _ _ e3
  rw [hu.unique h2] at hge ⊢
  have := length_insertAll_le id ((xs.take minSize).map Shr.value)
  simp at this hge ⊢
  omega

/-- C136. Maps: the smallest allowed number of entries. -/
theorem C136_map [LinearOrder κ] (R : Rng σ) (keyGen : Gen σ κ) (elemGen : Gen σ β) (minSize maxSize fuel : Nat)
    (h : minSize ≤ maxSize) (hb : maxSize < 2^32) :
    Gen.SimplestIs (arbiMap R keyGen elemGen minSize maxSize fuel) (fun l => l.length = minSize) := by
  rintro t u ⟨s, s', hs⟩ hu
  unfold arbiMap at hs
  obtain ⟨v, s1, e1, h1, h2, hdr⟩ := getRandomSize_draw R s h hb
  rw [e1] at hs
  simp only [Outcome.ok_bind, Outcome.bind_eq_ok] at hs
  obtain ⟨⟨keys, s2⟩, e2, ⟨elems, s3⟩, e3, e4⟩ := hs
  simp only at e3 e4
  obtain ⟨hl, hsrt⟩ := fillSet_ok keyGen _ _ _ _ _ _ e2 (by simp [SortedBy]) (by simp)
  obtain ⟨hl2, hme⟩ := drawMany_ok elemGen _ _ _ _ e3
  have hz : ((keys.zip elems).map fun e => e.1.value) = keys.map Shr.value := by
    rw [show (fun e : Shr κ × Shr β => e.1.value) = Shr.value ∘ Prod.fst from rfl, ← List.map_map,
      List.map_fst_zip (by omega)]
  have hsz : ((keys.zip elems).map fun e => e.1.value).Pairwise (· < ·) := by
    rw [hz]; exact List.pairwise_map.mpr hsrt
  rw [insertAll_sorted (List.pairwise_map.mp hsz)] at e4
  cases e4
  have hlz : (keys.zip elems).length = v.toNat := by simp; omega
  rw [hu.unique (simplest_shrinkMap _ _ (by omega))]
  have hs2 : (((keys.zip elems).take minSize).map fun e => (e.1.value, e.2.value)).Pairwise (fun a b => a.1 < b.1) := by
    rw [List.pairwise_map]
    exact (List.pairwise_map.mp hsz).sublist (List.take_sublist _ _)
  rw [insertAll_sorted hs2]
  simp at hlz ⊢
  omega

/-- C136. Pairs: both components in their simplest form. -/
theorem C136_pair (firstFirst : Bool) (g : Gen σ α) (h : Gen σ β) (P : α → Prop) (Q : β → Prop) (hg : g.SimplestIs P)
    (hh : h.SimplestIs Q) : Gen.SimplestIs (pairOf firstFirst g h) (fun p => P p.1 ∧ Q p.2) := by
  rintro t u ⟨s, s', hs⟩ hu
  have : ∃ a b, g.Makes a ∧ h.Makes b ∧ t = shrinkPair a b := by
    unfold pairOf at hs
    cases firstFirst
    all_goals
      simp only [Bool.false_eq_true, if_true, if_false, Outcome.bind_eq_ok] at hs
      obtain ⟨⟨a, s1⟩, e1, ⟨b, s2⟩, e2, e4⟩ := hs
      cases e4
    · exact ⟨_, _, ⟨_, _, e2⟩, ⟨_, _, e1⟩, rfl⟩
    · exact ⟨_, _, ⟨_, _, e1⟩, ⟨_, _, e2⟩, rfl⟩
  obtain ⟨a, b, ha, hb, rfl⟩ := this
  obtain ⟨a', ha'⟩ := Simplest.exists a
  obtain ⟨b', hb'⟩ := Simplest.exists b
  rw [hu.unique (simplest_pair ha' hb')]
  exact ⟨hg a a' ha ha', hh b b' hb hb'⟩

/-- C136. Tuples: all components in their simplest form. -/
theorem C136_tuple {n : Nat} {A : Fin n → Type} (order : List (Fin n)) (gens : (i : Fin n) → Gen σ (A i))
    (P : (i : Fin n) → A i → Prop) (hg : ∀ i, (gens i).SimplestIs (P i)) :
    Gen.SimplestIs (tupleOf order gens) (fun a => ∀ i, P i (a i)) := by
  rintro t u ⟨s, s', hs⟩ hu
  unfold tupleOf at hs
  rw [Outcome.bind_eq_ok] at hs
  obtain ⟨⟨comps, s1⟩, e1, e2⟩ := hs
  cases e2
  have hm := Gen.drawTuple_ok _ _ _ _ _ e1
  choose comps' hc using fun i => Simplest.exists (comps i)
  rw [hu.unique (simplest_tuple hc)]
  exact fun i => hg i _ _ (hm i) (hc i)

/-- C136. Transformed values: the transformed simplest value. -/
theorem C136_transform (g : Gen σ α) (f : α → β) (P : α → Prop) (hg : g.SimplestIs P) :
    Gen.SimplestIs (Comb.transform g f) (fun b => ∃ a, P a ∧ b = f a) := by
  rintro t u ⟨s, s', hs⟩ hu
  unfold Comb.transform at hs
  rw [Outcome.bind_eq_ok] at hs
  obtain ⟨⟨t0, s1⟩, e1, e2⟩ := hs
  cases e2
  obtain ⟨w, hw⟩ := Simplest.exists t0
  rw [hu.unique (hw.map f)]
  exact ⟨w.value, hg _ _ ⟨_, _, e1⟩ hw, by simp⟩

/-! ### The documented example -/

namespace Engine

/-- The argument types of the example of /repo/docs/Shrinking.md: `int`, `double`, `bool`. -/
abbrev DocArgs : Fin 3 → Type
  | 0 => Int
  | 1 => Fl
  | 2 => Bool

/-- C136 for the example of the documentation, a property of an `int`, a `double` and a `bool` that fails exactly if the
`bool` is true: `(0, 0, true)` is reported, whatever was drawn. -/
theorem C136_documented (R : Rng σ) {c : Cfg σ DocArgs} (hc : Setting c) (h0 : c.gens 0 = arbiInt R i32)
    (h1 : c.gens 1 = Floating.arbi R .double) (h2 : c.gens 2 = arbiBool R half) (ho : c.orderEach = [0, 1, 2])
    {f : Args DocArgs → Ev Bool} (hf : c.Pure f)
    (hq : ∀ a, (f a).out = .throws .success ∨ (f a).out = .throws .discard → (f a).fails = [])
    (hfail : ∀ a, (f a).Rejects ↔ a 2 = true)
    (fuel : Nat) (seed : σ) (a : Nat) (start shrunk : Tup DocArgs) (tr : Trace DocArgs)
    (h : forAll c fuel seed [] = (.ok (.falsified a start shrunk), tr)) :
    (shrunk 0).value = 0 ∧ (∃ neg, (shrunk 1).value = Fl.zero neg) ∧ (shrunk 2).value = true := by
  refine ⟨?_, ?_, ?_⟩
  · refine C136_reported hc hf hq 0 (by simp [ho]) (fun a x => ?_) (fun v => v = 0)
      (by rw [h0]; exact C136_integers R i32 (by simp [all])) fuel seed a start shrunk tr h
    rw [hfail, hfail, Function.update_of_ne (by decide)]
  · refine C136_reported hc hf hq 1 (by simp [ho]) (fun a x => ?_) (fun v => ∃ neg, v = Fl.zero neg)
      (by rw [h1]; exact C136_floating R .double) fuel seed a start shrunk tr h
    rw [hfail, hfail, Function.update_of_ne (by decide)]
  · exact (hfail _).mp (C48_shrunk_arguments_fail_partial hc hf hq fuel seed a start shrunk tr h).1

/-- The example of the documentation over the scripted random source. -/
def docProp : Cfg (List Int) DocArgs where
  gens
    | 0 => arbiInt script i32
    | 1 => Floating.arbi script .double
    | 2 => arbiBool script half
  orderRun := [2, 1, 0]
  orderShrink := [2, 1, 0]
  orderEach := [0, 1, 2]
  thrown := id
  func := fun _ a => returns (!(show Bool from a 2))
  startup := none
  cleanup := none
  numRuns := 10
  maxDurationMs := 0
  clock := fun _ => 0

/-- The reported values: drawn and shrunk. -/
def seen3 (r : Outcome (Report DocArgs) × Trace DocArgs) : Option ((Int × Fl × Bool) × (Int × Fl × Bool)) :=
  match r.1 with
  | .ok (.falsified _ s t) => some (((s 0).value, (s 1).value, (s 2).value), ((t 0).value, (t 1).value, (t 2).value))
  | _ => none

/-- (-24, 0.3, true) is drawn, (0, 0, true) is reported. -/
example : seen3 (forAll docProp 50 [0, 4599075939470750515, 2^63 + 1, -24] []) =
    some ((-24, .fin false 5404319552844595 (-1), true), (0, .zero false, true)) := by
  decide +kernel

end Engine

/-- Vectors of at least three and at most five integers: [0, 0, 0]. -/
example (R : Rng σ) : Gen.SimplestIs (arbiVector R (arbiInt R i32) 3 5) (fun l => l.length = 3 ∧ ∀ x ∈ l, x = 0) :=
  C136_vector R _ 3 5 (· = 0) (C136_integers R i32 (by simp [all]))

example : ∃ t u s', arbiVector script (interval script i32 (-10) 10) 2 5 [3, 4, -7, 9] = .ok (t, s') ∧
    t.value = [4, -7, 9] ∧ Simplest t u ∧ u.value = [0, 0] := by
  obtain ⟨t, h⟩ : ∃ t, arbiVector script (interval script i32 (-10) 10) 2 5 [3, 4, -7, 9] = .ok (t, []) ∧
      t.value = [4, -7, 9] := by
    have h1 : (match arbiVector script (interval script i32 (-10) 10) 2 5 [3, 4, -7, 9] with
      | .ok (t, s) => decide (t.value = [4, -7, 9] ∧ s = [])
      | _ => false) = true := by decide +kernel
    revert h1
    generalize arbiVector script (interval script i32 (-10) 10) 2 5 [3, 4, -7, 9] = r
    intro h1
    match r, h1 with
    | .ok (t, s), h1 =>
      simp only [decide_eq_true_eq] at h1
      exact ⟨t, by rw [h1.2], h1.1⟩
  obtain ⟨u, hu⟩ := Simplest.exists t
  obtain ⟨h1, h2⟩ := C136_vector script _ 2 5 (· = 0)
    (C136_interval script i32 (by simp [all]) (-10) 10 0 (by decide) (by decide) ⟨by decide, by decide, fun w _ _ => by simp⟩)
    t u ⟨_, _, h.1⟩ hu
  refine ⟨t, u, [], h.1, h.2, hu, ?_⟩
  match hv : u.value, h1, h2 with
  | [a, b], _, h2 => rw [h2 a (by simp), h2 b (by simp)]

end Verif
