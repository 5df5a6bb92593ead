import Verif.Lemmas.Cost
import Verif.Lemmas.Combinator
import Verif.Props.Simplest
/-
C154: shrinking takes few calls of the property function.
-/
namespace Verif
open Shr BinSearch Random Integral IntType ListLike Containers PairTuple Floating Comb

namespace Engine
variable {n : Nat} {A : Fin n → Type} {σ : Type}

/-- C154. While shrinking, the property function is called at most as often as the longest searches in the trees of the
arguments, taken together, try candidates; whatever the function does, and also if what it does changes from call to
call. -/
theorem C154_calls {c : Cfg σ A} (hc : Setting c) (fuel : Nat) (seed : σ) (a : Nat) (start shrunk : Tup A) (tr : Trace A)
    (h : forAll c fuel seed [] = (.ok (.falsified a start shrunk), tr)) :
    (calls .shrink tr).length ≤ (c.orderEach.map fun N => (start N).cost).sum := by
  have hr := forAll_result hc fuel seed
  rw [h] at hr
  obtain ⟨i, hi, hst⟩ := hr.stop a start shrunk rfl
  obtain ⟨_, x, s', t', s1, s2, hR, _, _, _, _, h0, hb, _, rfl⟩ := hst.ex
  cases hR
  have := hb.count
  omega

/-- C154. The same in terms of the generators: the numbers of candidates they are good for, added. -/
theorem C154_generators {c : Cfg σ A} (hc : Setting c) (B : Fin n → Nat) (hB : ∀ i, (c.gens i).TriesAtMost (B i))
    (fuel : Nat) (seed : σ) (a : Nat) (start shrunk : Tup A) (tr : Trace A)
    (h : forAll c fuel seed [] = (.ok (.falsified a start shrunk), tr)) :
    (calls .shrink tr).length ≤ (c.orderEach.map B).sum := by
  have hr := forAll_result hc fuel seed
  rw [h] at hr
  obtain ⟨i, hi, hst⟩ := hr.stop a start shrunk rfl
  obtain ⟨_, x, s', t', s1, s2, hR, _, _, _, ⟨s, r, hd⟩, h0, hb, _, rfl⟩ := hst.ex
  cases hR
  have hm := Gen.drawTuple_ok _ _ _ _ _ hd
  have hle : (c.orderEach.map fun N => (start N).cost).sum ≤ (c.orderEach.map B).sum := by
    induction c.orderEach with
    | nil => simp
    | cons N l ih =>
      have := hB N _ (hm N)
      simp only [List.map_cons, List.sum_cons]; omega
  have := hb.count
  omega

/-- C154. No smaller bound holds: for all trees of the arguments, and any order in which they are shrunk, there is a
property function, with a memory, that is called that often while shrinking. -/
theorem C154_attained (ts : Tup A) (order : List (Fin n)) (hn : order.Nodup) :
    ∃ f : Trace A → Ev Bool, ∀ c : Cfg Unit A,
      c = { gens := fun i _ => .ok (ts i, ()), orderRun := List.finRange n, orderShrink := List.finRange n,
            orderEach := order, thrown := id, func := fun tr _ => f tr, startup := none, cleanup := none, numRuns := 1,
            maxDurationMs := 0, clock := fun _ => 0 } →
      ∃ shrunk tr, forAll c 1 () [] = (.ok (.falsified 1 ts shrunk), tr) ∧
        (calls .shrink tr).length = (order.map fun N => (ts N).cost).sum := by
  let S := (order.map fun N => worst (ts N)).flatten
  refine ⟨scripted S, fun c hc => ?_⟩
  have hc : c = fixedCfg ts order S := hc
  subst hc
  have hd : Gen.drawTuple (fun (i : Fin n) (_ : Unit) => Outcome.ok (ts i, ())) (List.finRange n) () = .ok (ts, ()) := by
    obtain ⟨⟨u, s'⟩, hu⟩ := Gen.drawTuple_total (fun (i : Fin n) (_ : Unit) => Outcome.ok (ts i, ())) (List.finRange n)
      (by simp) (fun i s => ⟨_, rfl⟩) ()
    have hm := Gen.drawTuple_ok _ _ _ _ _ hu
    rw [hu]
    congr 2
    funext i
    obtain ⟨s, s', h⟩ := hm i
    simp only [Outcome.ok.injEq, Prod.mk.injEq] at h
    exact h.1.symm
  have hf : (scripted S ([] : Trace A)).out = .ok false := by simp [scripted, calls]
  obtain ⟨v, s, h1, h2⟩ := shrinkEach_scripted ts order S order hn ts
    ⟨(), (), 0, [], [.call .run (Tup.get ts) (scripted (A := A) S [])]⟩ [] (fun _ _ => rfl) rfl
    (by simp [calls, Event.call?]) (by simp [calls, Event.call?])
  refine ⟨v, s.trace, ?_, by simpa using h2⟩
  have h3 : attempt (fixedCfg ts order S) ⟨(), (), 0, [], []⟩ = (.ok (.stop (.falsified 1 ts v)), s) := by
    have hs : shrink (fixedCfg ts order S) ⟨(), (), 0, [], [.call .run (Tup.get ts) (scripted (A := A) S [])]⟩ =
        (.ok (.falsified 1 ts v), s) := by
      rw [shrink_apply]
      simp only [fixedCfg, hd] at h1 ⊢
      rw [h1]
    have hq : (fixedCfg ts order S).Quiet := ⟨fun k hk => (by cases hk), fun k hk => (by cases hk)⟩
    have e1 : Gen.drawTuple (fixedCfg ts order S).gens (fixedCfg ts order S).orderRun () = .ok (ts, ()) := hd
    have e2 : suEv (fixedCfg ts order S) .run = [] := rfl
    have e3 : cuEv (fixedCfg ts order S) .run = [] := rfl
    rw [attempt_quiet hq]
    simp only [e1, e2, e3, List.nil_append]
    have e4 : ∀ a : Args A, (fixedCfg ts order S).func [] a = scripted S [] := fun _ => rfl
    simp only [e4, hf, Bool.false_eq_true, and_false, if_false]
    rw [Eng.bind_apply, hs]
    rfl
  have h4 : guarded (fixedCfg ts order S) ⟨(), (), 0, [], []⟩ = (.ok (.stop (.falsified 1 ts v)), s) := by
    rw [guarded, Eng.tryCatch, h3]
  simp only [forAll, runForAll, Eng.withContext, Eng.catchStd, Eng.tryCatch]
  have h5 : forLoop (fixedCfg ts order S) 1 1 ⟨(), (), 0, [], []⟩ = (.ok (.falsified 1 ts v), s) := by
    rw [forLoop_succ, if_neg (by simp [fixedCfg])]
    have : doWhile (fixedCfg ts order S) 1 ⟨(), (), 0, [], []⟩ = (.ok (some (.falsified 1 ts v)), s) := by
      rw [doWhile, Eng.bind_apply, h4]
      rfl
    rw [this]
  have h6 : (fixedCfg ts order S).numRuns = 1 := rfl
  rw [h6, h5]

end Engine

variable {σ α β γ κ : Type}

/-- C154. The shrinkable of the number `v` from the range `min..max` whose number nearest to zero is `z`. -/
theorem C154_integer {T : IntType} (hT : T ∈ all) {min max z v : Int} (h1 : T.lo ≤ min) (hv1 : min ≤ v) (hv2 : v ≤ max)
    (h2 : max ≤ T.hi) (hz : Nearest0 min max z) {t : Shr Int} (ht : shrinkableOf T min max v = .ok t) :
    t.cost = if v = z then 0 else 1 + Nat.clog 2 (v - z).natAbs := by
  have hz' := nearest0_unique hz
  have key : t.cost = (bsNat (v - z).natAbs).cost := by
    rcases shrinkableOf_eq hT h1 hv1 hv2 h2 with ⟨hle, e⟩ | ⟨hle, e⟩
    all_goals
      rw [ht] at e
      simp only [Outcome.ok.injEq] at e
      rw [← hz'] at e
      rw [e, cost_map]
  rw [key, cost_bsNat]
  by_cases h : v = z
  · simp [h]
  · rw [if_neg h, if_neg (by omega)]

/-- C154. Integers of a range. -/
theorem C154_interval (R : Rng σ) (T : IntType) (hT : T ∈ all) (min max z : Int) (h1 : T.lo ≤ min) (h2 : max ≤ T.hi)
    (hz : Nearest0 min max z) :
    Gen.TriesAtMost (interval R T min max) (1 + Nat.clog 2 (Nat.max (max - z).natAbs (z - min).natAbs)) := by
  rintro t ⟨s, s', hs⟩
  unfold interval generateInteger at hs
  rw [Outcome.bind_eq_ok] at hs
  obtain ⟨⟨v, s1⟩, hdv, hs⟩ := hs
  simp only at hs
  rw [Outcome.bind_eq_ok] at hs
  obtain ⟨t, ht, hs⟩ := hs
  cases hs
  obtain ⟨hz1, hz2, _⟩ := id hz
  obtain ⟨v0, s0, e0, hv1, hv2⟩ := drawValue_ok R hT (boundary_mem hT) (boundary_length hT) s h1 (by omega) h2
  rw [e0] at hdv
  cases hdv
  rw [C154_integer hT h1 hv1 hv2 h2 hz ht]
  split
  · omega
  · have hle : (v - z).natAbs ≤ Nat.max (max - z).natAbs (z - min).natAbs := by
      rcases Nat.le_total (max - z).natAbs (z - min).natAbs with h | h
      · rw [Nat.max_eq_max, Nat.max_eq_right h]; omega
      · rw [Nat.max_eq_max, Nat.max_eq_left h]; omega
    have := Nat.clog_mono_right 2 hle
    omega

/-- C154. Integers of a type with `b` bits: at most `b` candidates if it is signed, `b + 1` if it is unsigned. -/
theorem C154_integers (R : Rng σ) (T : IntType) (hT : T ∈ all) :
    Gen.TriesAtMost (arbiInt R T) (if T.signed then T.bits else T.bits + 1) := by
  have hz : Nearest0 T.lo T.hi 0 :=
    ⟨by simp only [all, List.mem_cons, List.not_mem_nil, or_false] at hT; rcases hT with rfl | rfl | rfl | rfl | rfl | rfl | rfl | rfl <;> decide,
     by simp only [all, List.mem_cons, List.not_mem_nil, or_false] at hT; rcases hT with rfl | rfl | rfl | rfl | rfl | rfl | rfl | rfl <;> decide,
     fun w _ _ => by simp⟩
  intro t ht
  refine Nat.le_trans (C154_interval R T hT T.lo T.hi 0 (le_refl _) (le_refl _) hz t ht) ?_
  have key : ∀ x k, x ≤ 2^k → 1 + Nat.clog 2 x ≤ k + 1 := fun x k h => by
    have := Nat.clog_le_of_le_pow h
    omega
  simp only [all, List.mem_cons, List.not_mem_nil, or_false] at hT
  rcases hT with rfl | rfl | rfl | rfl | rfl | rfl | rfl | rfl
  · exact key _ 7 (by decide)
  · exact key _ 15 (by decide)
  · exact key _ 31 (by decide)
  · exact key _ 63 (by decide)
  · exact key _ 8 (by decide)
  · exact key _ 16 (by decide)
  · exact key _ 32 (by decide)
  · exact key _ 64 (by decide)

/-- C154. Booleans. -/
theorem C154_bool (R : Rng σ) (thr : Option Nat) : Gen.TriesAtMost (arbiBool R thr) 1 := by
  rintro t ⟨s, s', hs⟩
  unfold arbiBool at hs
  simp only [Outcome.ok.injEq, Prod.mk.injEq] at hs
  rw [← hs.1]
  cases (getRandomBool R thr s).1 <;> simp [shrinkBool, Shr.cost_eq, costList]

/-- C154. Floating point numbers. (`arbi` explores all shrinks, which is undefined for numbers of magnitude 2^32 and
more, see C101; nothing is said about these.) -/
theorem C154_floating (R : Rng σ) (F : Fmt) : Gen.TriesAtMost (Floating.arbi R F) 14 := by
  rintro t ⟨s, s', hs⟩
  obtain ⟨hv, hsh⟩ := C106_shrinkable R F s s' t hs
  obtain ⟨x, s1, hx, hval⟩ := (C106_generated F).1 R s
  rw [hv] at hx
  cases hx
  rw [Shr.cost_eq]
  cases ht : t.value with
  | zero neg =>
    rw [ht, shrinkFloat, Outcome.ok.injEq] at hsh
    rw [← hsh]; simp [costList]
  | nan =>
    rw [ht, shrinkFloat, Outcome.ok.injEq] at hsh
    rw [← hsh]; simp [costList]
  | inf neg =>
    rw [ht] at hsh hval
    rw [C101_huge_violated F _ hval (.inl ⟨neg, rfl⟩)] at hsh
    cases hsh
  | fin neg f e =>
    rw [ht] at hsh hval
    have hval : F.Finite f e := hval
    obtain ⟨u, hu, e1⟩ := floating_cases hval hsh
    rw [e1]
    refine Nat.le_trans cost_mid ?_
    have h1 := hval.emin_lt
    have h2 := F.emin_gt
    have h3 := hval.2.2.1
    have h4 := F.emax_lt
    have : u.cost = (bsNat e.natAbs).cost := by
      obtain ⟨n, ⟨_, rfl, rfl⟩ | ⟨_, rfl, rfl⟩⟩ := bs_cases (.inl ⟨hval.i64, hu⟩) <;> simp [cost_map]
    have h5 := cost_bsNat_le e.natAbs
    have h6 : Nat.clog 2 e.natAbs ≤ 11 := Nat.clog_le_of_le_pow (by omega)
    omega

theorem sum_cost_le {g : Gen σ α} {B : Nat} (hg : g.TriesAtMost B) {s s' : σ} {xs : List (Shr α)} (h : g.Draws s xs s') :
    (xs.map Shr.cost).sum ≤ xs.length * B := by
  have hm := h.makes
  clear h
  induction xs with
  | nil => simp
  | cons x xs ih =>
    have h1 := hg x (hm x (by simp))
    have h2 := ih fun y hy => hm y (by simp [hy])
    simp only [List.map_cons, List.sum_cons, List.length_cons, Nat.add_mul, Nat.one_mul]
    omega

theorem sized_le {len m M : Nat} (h : len ≤ M) : (bsNat (len - m)).cost ≤ 1 + Nat.clog 2 (M - m) := by
  have h1 := cost_bsNat_le (len - m)
  have h2 := Nat.clog_mono_right 2 (show len - m ≤ M - m by omega)
  omega

/-- C154. Vectors and lists. -/
theorem C154_vector (R : Rng σ) (g : Gen σ α) (minSize maxSize B : Nat) (h : minSize ≤ maxSize) (hb : maxSize < 2^32)
    (hg : g.TriesAtMost B) :
    Gen.TriesAtMost (arbiVector R g minSize maxSize) (maxSize * (1 + Nat.clog 2 (maxSize - minSize) + B)) := by
  rintro t ⟨s, s', hs⟩
  unfold arbiVector at hs
  obtain ⟨v, s1, e1, h1, h2, -⟩ := getRandomSize_draw R s h hb
  rw [e1] at hs
  simp only [Outcome.ok_bind, Outcome.bind_eq_ok] at hs
  obtain ⟨⟨xs, s2⟩, e2, t0, e3, e4⟩ := hs
  cases e4
  obtain ⟨hl, hd⟩ := drawMany_ok g _ _ _ _ e2
  dsimp only at hl e3
  have h3 := cost_listLike e3
  have h4 := sum_cost_le hg hd
  rw [if_pos rfl] at h3
  have hle : xs.length ≤ maxSize := by omega
  calc t.cost ≤ xs.length * (1 + Nat.clog 2 (maxSize - minSize)) + xs.length * B :=
        Nat.le_trans h3 (Nat.add_le_add (Nat.mul_le_mul_left _ (sized_le hle)) h4)
    _ = xs.length * (1 + Nat.clog 2 (maxSize - minSize) + B) := (Nat.mul_add xs.length _ B).symm
    _ ≤ _ := Nat.mul_le_mul_right _ hle

/-- C154. Strings; what the characters offer is not used. -/
theorem C154_string (R : Rng σ) (g : Gen σ α) (minSize maxSize : Nat) (h : minSize ≤ maxSize) (hb : maxSize < 2^32) :
    Gen.TriesAtMost (arbiString R g minSize maxSize) (2 * (1 + Nat.clog 2 (maxSize - minSize))) := by
  rintro t ⟨s, s', hs⟩
  unfold arbiString at hs
  obtain ⟨v, s1, e1, h1, h2, -⟩ := getRandomSize_draw R s h hb
  rw [e1] at hs
  simp only [Outcome.ok_bind, Outcome.bind_eq_ok] at hs
  obtain ⟨⟨xs, s2⟩, e2, e4⟩ := hs
  cases e4
  obtain ⟨hl, -⟩ := drawMany_ok g _ _ _ _ e2
  have h3 := cost_shrinkString (xs.map Shr.value) minSize
  have h4 := sized_le (len := (xs.map Shr.value).length) (m := minSize) (M := maxSize) (by simp; omega)
  change (shrinkString (xs.map Shr.value) minSize).cost ≤ _
  omega

/-- C154. Sets; what the elements offer is not used. -/
theorem C154_set [LinearOrder α] (R : Rng σ) (g : Gen σ α) (minSize maxSize fuel : Nat) (h : minSize ≤ maxSize)
    (hb : maxSize < 2^32) :
    Gen.TriesAtMost (arbiSet R g minSize maxSize fuel) (maxSize * (1 + Nat.clog 2 (maxSize - minSize))) := by
  rintro t ⟨s, s', hs⟩
  unfold arbiSet at hs
  obtain ⟨v, s1, e1, h1, h2, -⟩ := getRandomSize_draw R s h hb
  rw [e1] at hs
  simp only [Outcome.ok_bind, Outcome.bind_eq_ok] at hs
  obtain ⟨⟨xs, s2⟩, e2, t0, e3, e4⟩ := hs
  cases e4
  obtain ⟨hl, -⟩ := fillSet_ok g _ _ _ _ _ _ e2 (by simp [SortedBy]) (by simp)
  dsimp only at hl e3
  refine Nat.le_trans (cost_shrinkSet e3) ?_
  exact Nat.mul_le_mul (by omega) (sized_le (by omega))

/-- C154. Maps; what the keys and values offer is not used. -/
theorem C154_map [LinearOrder κ] (R : Rng σ) (keyGen : Gen σ κ) (elemGen : Gen σ β) (minSize maxSize fuel : Nat)
    (h : minSize ≤ maxSize) (hb : maxSize < 2^32) :
    Gen.TriesAtMost (arbiMap R keyGen elemGen minSize maxSize fuel) (1 + Nat.clog 2 (maxSize - minSize)) := by
  rintro t ⟨s, s', hs⟩
  unfold arbiMap at hs
  obtain ⟨v, s1, e1, h1, h2, hdr⟩ := getRandomSize_draw R s h hb
  rw [e1] at hs
  simp only [Outcome.ok_bind, Outcome.bind_eq_ok] at hs
  obtain ⟨⟨keys, s2⟩, e2, ⟨elems, s3⟩, e3, e4⟩ := hs
  simp only at e3 e4
  obtain ⟨hl, hsrt⟩ := fillSet_ok keyGen _ _ _ _ _ _ e2 (by simp [SortedBy]) (by simp)
  obtain ⟨hl2, -⟩ := drawMany_ok elemGen _ _ _ _ e3
  have hz : ((keys.zip elems).map fun e => e.1.value) = keys.map Shr.value := by
    rw [show (fun e : Shr κ × Shr β => e.1.value) = Shr.value ∘ Prod.fst from rfl, ← List.map_map,
      List.map_fst_zip (by omega)]
  have hsz : ((keys.zip elems).map fun e => e.1.value).Pairwise (· < ·) := by
    rw [hz]; exact List.pairwise_map.mpr hsrt
  rw [insertAll_sorted (List.pairwise_map.mp hsz)] at e4
  cases e4
  have hlz : (keys.zip elems).length = v.toNat := by simp; omega
  rw [cost_shrinkMap _ _ (by omega)]
  exact sized_le (by omega)

/-- C154. Pairs. -/
theorem C154_pair (firstFirst : Bool) (g : Gen σ α) (h : Gen σ β) (B C : Nat) (hg : g.TriesAtMost B)
    (hh : h.TriesAtMost C) : Gen.TriesAtMost (pairOf firstFirst g h) (B + C) := by
  rintro t ⟨s, s', hs⟩
  have : ∃ a b, g.Makes a ∧ h.Makes b ∧ t = shrinkPair a b := by
    unfold pairOf at hs
    cases firstFirst
    all_goals
      simp only [Bool.false_eq_true, if_true, if_false, Outcome.bind_eq_ok] at hs
      obtain ⟨⟨a, s1⟩, e1, ⟨b, s2⟩, e2, e4⟩ := hs
      cases e4
    · exact ⟨_, _, ⟨_, _, e2⟩, ⟨_, _, e1⟩, rfl⟩
    · exact ⟨_, _, ⟨_, _, e1⟩, ⟨_, _, e2⟩, rfl⟩
  obtain ⟨a, b, ha, hb, rfl⟩ := this
  have := cost_shrinkPair a b
  have := hg a ha
  have := hh b hb
  omega

/-- C154. Tuples. -/
theorem C154_tuple {n : Nat} {A : Fin n → Type} (order : List (Fin n)) (gens : (i : Fin n) → Gen σ (A i))
    (B : Fin n → Nat) (hg : ∀ i, (gens i).TriesAtMost (B i)) :
    Gen.TriesAtMost (tupleOf order gens) ((List.finRange n).map B).sum := by
  rintro t ⟨s, s', hs⟩
  unfold tupleOf at hs
  rw [Outcome.bind_eq_ok] at hs
  obtain ⟨⟨comps, s1⟩, e1, e2⟩ := hs
  cases e2
  have hm := Gen.drawTuple_ok _ _ _ _ _ e1
  refine Nat.le_trans (cost_shrinkTuple comps) ?_
  induction List.finRange n with
  | nil => simp
  | cons i l ih =>
    have := hg i _ (hm i)
    simp only [List.map_cons, List.sum_cons]
    omega

/-- C154. `transform` changes nothing. -/
theorem C154_transform (g : Gen σ α) (f : α → β) (B : Nat) :
    Gen.TriesAtMost (transform g f) B ↔ g.TriesAtMost B := by
  constructor
  · rintro h t ⟨s, s', hs⟩
    rw [← cost_map f t]
    exact h _ ⟨s, s', by rw [transform, hs]; rfl⟩
  · rintro h t ⟨s, s', hs⟩
    unfold transform at hs
    rw [Outcome.bind_eq_ok] at hs
    obtain ⟨⟨t0, s1⟩, e1, e2⟩ := hs
    cases e2
    rw [cost_map]
    exact h _ ⟨_, _, e1⟩

/-- C154. `filter` adds no candidates. -/
theorem C154_filter (g : Gen σ α) (p : α → Bool) (fuel B : Nat) (hg : g.TriesAtMost B) :
    Gen.TriesAtMost (Comb.filter g p fuel) B := by
  rintro t ⟨s, s', hs⟩
  induction fuel generalizing s with
  | zero => simp [Comb.filter] at hs
  | succ fuel ih =>
    rw [Comb.filter, Outcome.bind_eq_ok] at hs
    obtain ⟨⟨t0, s1⟩, e1, e2⟩ := hs
    simp only at e2
    split at e2
    · rename_i hp
      rw [filterTol, if_pos hp] at e2
      cases e2
      exact Nat.le_trans (cost_filterTolKept p t0) (hg _ ⟨_, _, e1⟩)
    · exact ih _ e2

/-- C154. Constants are not shrunk, nor are objects made by `construct`. -/
theorem C154_constant (v : α) {n : Nat} {A : Fin n → Type} (ctor : ((i : Fin n) → A i) → Outcome γ)
    (gens : (i : Fin n) → Gen σ (A i)) (order : List (Fin n)) :
    Gen.TriesAtMost (just v : Gen σ α) 0 ∧ Gen.TriesAtMost (construct ctor gens order) 0 := by
  constructor
  · rintro t ⟨s, s', hs⟩
    cases hs
    simp
  · rintro t ⟨s, s', hs⟩
    unfold construct at hs
    simp only [Outcome.bind_eq_ok] at hs
    obtain ⟨⟨ts, s1⟩, e1, v, e2, e3⟩ := hs
    cases e3
    simp

theorem retry_makes (w : Weighted σ α) : ∀ (fuel : Nat) (s s' : σ) (t : Shr α), retry w fuel s = .ok (t, s') →
    w.gen.Makes t := by
  intro fuel
  induction fuel with
  | zero => intro s s' t h; simp [retry] at h
  | succ fuel ih =>
    intro s s' t h
    rw [retry] at h
    split at h
    · exact ih _ _ _ h
    · exact ⟨_, _, h⟩

theorem oneOf_makes (R : Rng σ) (gens : List (Weighted σ α)) : ∀ (fuel : Nat) (s s' : σ) (t : Shr α),
    oneOfLoop R gens fuel s = .ok (t, s') → ∃ w ∈ gens, w.gen.Makes t := by
  intro fuel
  induction fuel with
  | zero => intro s s' t h; simp [oneOfLoop] at h
  | succ fuel ih =>
    intro s s' t h
    rw [oneOfLoop, Outcome.bind_eq_ok] at h
    obtain ⟨⟨dice, s1⟩, e1, h⟩ := h
    simp only at h
    split at h
    · cases h
    · rename_i w hw
      rw [Outcome.bind_eq_ok] at h
      obtain ⟨thr, e2, h⟩ := h
      split at h
      · exact ⟨w, List.mem_of_getElem? hw, retry_makes w _ _ _ _ h⟩
      · exact ih _ _ _ h

/-- C154. `oneOf` is as good as its worst alternative. -/
theorem C154_oneOf (R : Rng σ) (alts gens : List (Weighted σ α)) (hw : oneOf alts = .ok gens) (fuel B : Nat)
    (hg : ∀ w ∈ alts, w.gen.TriesAtMost B) : Gen.TriesAtMost (oneOfLoop R gens fuel) B := by
  rintro t ⟨s, s', hs⟩
  obtain ⟨w, hm, ht⟩ := oneOf_makes R gens fuel s s' t hs
  unfold oneOf at hw
  rw [Outcome.bind_eq_ok] at hw
  obtain ⟨ws, _, e⟩ := hw
  cases e
  rw [List.mem_iff_getElem?] at hm
  obtain ⟨i, hi⟩ := hm
  rw [List.getElem?_zipWith] at hi
  cases h1 : alts[i]? with
  | none => simp [h1] at hi
  | some a =>
    cases h2 : ws[i]? with
    | none => simp [h1, h2] at hi
    | some x =>
      simp [h1, h2] at hi
      subst hi
      exact hg a (List.mem_of_getElem? h1) t ht

theorem dependent_cost {gen1 : Gen σ α} {gen2gen : α → Gen σ β} {o : List Nat → σ} {B C : Nat} (hg : gen1.TriesAtMost B)
    (hh : ∀ t v, gen1.Makes t → Reach t v → (gen2gen v).TriesAtMost C) {s s' : σ} {i : Shr (α × Shr β)}
    (h : dependent gen1 gen2gen o s = .ok (i, s')) : i.cost ≤ B + C := by
  unfold dependent at h
  rw [Outcome.bind_eq_ok] at h
  obtain ⟨⟨t, s1⟩, e1, h⟩ := h
  simp only [Outcome.bind_eq_ok] at h
  obtain ⟨⟨u, s2⟩, e2, s4, -, e3⟩ := h
  cases e3
  have hm : ∀ x s y, Reach t x → inter gen2gen x s = .ok y → y.2.cost ≤ C := by
    intro x s y hx hy
    unfold inter at hy
    rw [Outcome.bind_eq_ok] at hy
    obtain ⟨⟨w, s3⟩, e4, e5⟩ := hy
    cases e5
    exact hh t x ⟨_, _, e1⟩ hx w ⟨_, _, e4⟩
  have he : ∀ w : Shr (α × Shr β), w.value.2.cost ≤ C → costList (expand w) ≤ C := by
    intro w hw
    rw [expand, flatMap_eq_map, ← Shr.cost_eq, cost_map]
    exact hw
  refine Nat.le_trans (cost_andThen (B := C) fun w hw _ => he w ?_) ?_
  · rw [desc_iff] at hw
    rcases hw with rfl | ⟨c, hc, hw⟩
    · exact hh t _ ⟨_, _, e1⟩ (Reach.self _) u ⟨_, _, e2⟩
    · obtain ⟨x, hx, y, q, h1, h2, -⟩ := lazyMapList_desc _ _ _ _ _ c hc w hw
      exact hm _ _ _ ⟨y, .step hx h1, rfl⟩ h2
  · have h1 := costList_lazyMap (inter gen2gen) o [] 0 t.shrinks
    have h2 := hg t ⟨_, _, e1⟩
    rw [← Shr.cost_eq] at h1
    rw [Shr.cost]
    omega

/-- C154. `dependency`, `chain` and `derive`: the candidates of both generators, added. -/
theorem C154_dependent (cat : α → β → γ) (gen1 : Gen σ α) (gen2gen : α → Gen σ β) (o : List Nat → σ) (B C : Nat)
    (hg : gen1.TriesAtMost B) (hh : ∀ t v, gen1.Makes t → Reach t v → (gen2gen v).TriesAtMost C) :
    Gen.TriesAtMost (dependency gen1 gen2gen o) (B + C) ∧ Gen.TriesAtMost (chain cat gen1 gen2gen o) (B + C) ∧
      Gen.TriesAtMost (derive gen1 gen2gen o) (B + C) := by
  refine ⟨?_, ?_, ?_⟩
  all_goals
    rintro t ⟨s, s', hs⟩
    first | unfold dependency at hs | unfold chain at hs | unfold derive at hs
    rw [Outcome.bind_eq_ok] at hs
    obtain ⟨⟨i, s1⟩, e1, e2⟩ := hs
    cases e2
    rw [flatMap_eq_map, cost_map]
    exact dependent_cost hg hh e1

theorem sizes_cost (R : Rng σ) (minSize maxSize : Nat) (h : minSize ≤ maxSize) (hb : maxSize < 2^32) :
    Gen.TriesAtMost (interval R .u64 minSize maxSize) (1 + Nat.clog 2 (maxSize - minSize)) := by
  have := C154_interval R .u64 (by simp [all]) minSize maxSize minSize (by rw [u64_lo]; omega) (by rw [u64_hi]; omega)
    ⟨le_refl _, by omega, fun w hw _ => by omega⟩
  convert this using 3
  rw [Nat.max_eq_max, Nat.max_eq_left] <;> omega

/-- C154. `aggregate`: the sizes and the last value. -/
theorem C154_aggregate (R : Rng σ) (gen1 : Gen σ α) (gen2gen : α → Gen σ α) (minSize maxSize : Nat)
    (h : minSize ≤ maxSize) (hb : maxSize < 2^32) (o : List Nat → σ) (B : Nat) (hg : gen1.TriesAtMost B)
    (hh : ∀ v, (gen2gen v).TriesAtMost B) :
    Gen.TriesAtMost (aggregate R gen1 gen2gen minSize maxSize o) (1 + Nat.clog 2 (maxSize - minSize) + B) := by
  have h1 := sizes_cost R minSize maxSize h hb
  refine (C154_dependent (fun _ b => b) _ _ o _ B h1 fun _ v _ _ => ?_).2.2
  rintro t ⟨s, s', hs⟩
  simp only [Outcome.bind_eq_ok] at hs
  obtain ⟨⟨t0, s1⟩, e1, e2⟩ := hs
  have : ∀ (n : Nat) (t0 : Shr α) (s1 : σ), t0.cost ≤ B → steps gen2gen n t0 s1 = .ok (t, s') → t.cost ≤ B := by
    intro n
    induction n with
    | zero => intro t0 s1 h0 h; cases h; exact h0
    | succ n ih =>
      intro t0 s1 _ h
      rw [steps, Outcome.bind_eq_ok] at h
      obtain ⟨⟨t1, s2⟩, e3, e4⟩ := h
      exact ih t1 s2 (hh _ _ ⟨_, _, e3⟩) e4
  exact this _ t0 s1 (hg _ ⟨_, _, e1⟩) e2

/-- C154. `accumulate`: the sizes twice, and the last element. -/
theorem C154_accumulate (R : Rng σ) (gen1 : Gen σ α) (gen2gen : α → Gen σ α) (minSize maxSize : Nat)
    (h : minSize ≤ maxSize) (hb : maxSize < 2^32) (o : List Nat → σ) (B : Nat) (hg : gen1.TriesAtMost B)
    (hh : ∀ v, (gen2gen v).TriesAtMost B) :
    Gen.TriesAtMost (accumulate R gen1 gen2gen minSize maxSize o) (2 * (1 + Nat.clog 2 (maxSize - minSize)) + B) := by
  have h1 := sizes_cost R minSize maxSize h hb
  have := (C154_dependent (fun _ b => b) _ (fun size => accumulateSized gen1 gen2gen minSize size.toNat) o _
    (1 + Nat.clog 2 (maxSize - minSize) + B) h1 fun t v hm hv => ?_).2.2
  · intro t ht
    have := this t ht
    omega
  · obtain ⟨s, s', e⟩ := hm
    obtain ⟨t0, s0, e0, hgood⟩ := generateInteger_good R (T := .u64) (by simp [all]) (min := minSize) (max := maxSize) s
      (by rw [u64_lo]; omega) (by omega) (by rw [u64_hi]; omega)
    unfold interval at e
    rw [e0] at e
    cases e
    have hv2 := hgood.1 v hv
    rintro u ⟨s, s', hs⟩
    unfold accumulateSized at hs
    split at hs
    · cases hs; simp
    · simp only [Outcome.bind_eq_ok] at hs
      obtain ⟨⟨t1, s1⟩, e1, ⟨ts, s2⟩, e2, shr, e3, e4⟩ := hs
      cases e4
      dsimp only at e2 e3
      have hst : ∀ (n : Nat) (t1 : Shr α) (s1 : σ) (ts : List (Shr α)) (s2 : σ), steppers gen2gen n t1 s1 = .ok (ts, s2) →
          ts.length = n ∧ ∀ x ∈ ts, x.cost ≤ B := by
        intro n
        induction n with
        | zero => intro t1 s1 ts s2 h; cases h; simp
        | succ n ih =>
          intro t1 s1 ts s2 h
          rw [steppers, Outcome.bind_eq_ok] at h
          obtain ⟨⟨t2, s3⟩, e5, h⟩ := h
          simp only [Outcome.bind_eq_ok] at h
          obtain ⟨⟨ts', s4⟩, e6, e7⟩ := h
          cases e7
          obtain ⟨h3, h4⟩ := ih _ _ _ _ e6
          refine ⟨by simp [h3], fun x hx => ?_⟩
          rcases List.mem_cons.mp hx with rfl | hx
          · exact hh _ _ ⟨_, _, e5⟩
          · exact h4 x hx
      obtain ⟨hl, hc⟩ := hst _ _ _ _ _ e2
      have hc : ∀ x ∈ t1 :: ts, x.cost ≤ B := fun x hx => by
        rcases List.mem_cons.mp hx with rfl | hx
        · exact hg _ ⟨_, _, e1⟩
        · exact hc x hx
      have hlen : (t1 :: ts).length = v.toNat := by simp [hl]; omega
      unfold listLikeLength at e3
      rw [if_neg (by omega)] at e3
      cases e3
      rw [cost_map]
      refine Nat.le_trans (cost_andThen (B := B) fun w hw _ => ?_) ?_
      · obtain ⟨k, -, hk⟩ := reach_map.mp ⟨w, hw, rfl⟩
        unfold shrinkLast
        cases hlast : w.value.getLast? with
        | none => simp [costList]
        | some last =>
          have hm : last ∈ w.value := List.mem_of_getLast? hlast
          rw [hk] at hm
          have := hc last (List.mem_of_mem_take hm)
          have h6 : ∀ (l : List (Shr α)) (f : Shr α → List (Shr α)),
              costList (l.map fun e => leaf (f e)) = l.length := by
            intro l f
            induction l with
            | nil => simp [costList]
            | cons x l ih => simp [costList, ih]; omega
          simp only
          rw [h6]
          have := length_le_costList last.shrinks
          rw [← Shr.cost_eq] at this
          omega
      · rw [cost_map, sizeRange, cost_map]
        have := sized_le (len := (t1 :: ts).length) (m := minSize) (M := maxSize) (by omega)
        omega

/-- C154. `Nullable` and `shared_ptr`: as many as the default generator for what they hold. -/
theorem C154_pointers (R : Rng σ) (arbi elemGen : Gen σ α) (B : Nat) (hg : arbi.TriesAtMost B) :
    Gen.TriesAtMost (arbiNullable R arbi elemGen) B ∧ Gen.TriesAtMost (arbiSharedPtr arbi elemGen) B := by
  constructor
  · rintro t ⟨s, s', hs⟩
    unfold arbiNullable at hs
    simp only at hs
    split at hs
    · rw [Outcome.bind_eq_ok] at hs
      obtain ⟨⟨t0, s1⟩, e1, e2⟩ := hs
      cases e2
      refine Nat.le_trans (Nat.le_of_eq ?_) (hg _ ⟨_, _, e1⟩)
      exact cost_mapShrinkable _ t0
    · cases hs; simp
  · rintro t ⟨s, s', hs⟩
    unfold arbiSharedPtr at hs
    rw [Outcome.bind_eq_ok] at hs
    obtain ⟨⟨t0, s1⟩, e1, e2⟩ := hs
    cases e2
    rw [cost_map]
    exact hg _ ⟨_, _, e1⟩

/-- A vector of up to 1000 integers of 32 bits: at most 43000 calls. -/
example (R : Rng σ) : Gen.TriesAtMost (arbiVector R (arbiInt R i32) 0 1000) 43000 := by
  have := C154_vector R (arbiInt R i32) 0 1000 32 (by omega) (by omega) (C154_integers R i32 (by simp [all]))
  rwa [show Nat.clog 2 (1000 - 0) = 10 by decide +kernel] at this

/-- 128 is good for 8 candidates. -/
example : ∃ t, shrinkableOf i32 0 1000 128 = .ok t ∧ t.cost = 8 := by
  obtain ⟨t, ht, -⟩ : ∃ t, shrinkableOf i32 0 1000 128 = .ok t ∧ True := by
    rcases shrinkableOf_eq (T := i32) (by simp [all]) (min := 0) (max := 1000) (v := 128) (by decide) (by decide)
      (by decide) (by decide) with ⟨-, e⟩ | ⟨-, e⟩ <;> exact ⟨_, e, trivial⟩
  refine ⟨t, ht, ?_⟩
  rw [C154_integer (T := i32) (z := 0) (by simp [all]) (by decide) (by decide) (by decide) (by decide)
    ⟨by decide, by decide, fun w _ _ => by simp⟩ ht]
  decide +kernel

namespace Engine

/-- `v < 42` over -10..100: after 70 was drawn, 7 calls of 8 possible ones lead to 42. -/
example : (calls .shrink (forAll (demoOf (interval script i32 (-10) 100) (fun v => returns (decide (v < 42))) 10) 50
      [5, 70] []).2).length = 7 ∧ Gen.TriesAtMost (interval script i32 (-10) 100) 8 := by
  refine ⟨by decide +kernel, ?_⟩
  exact C154_interval script i32 (by simp [all]) (-10) 100 0 (by decide) (by decide)
    ⟨by decide, by decide, fun w _ _ => by simp⟩

end Engine
end Verif
