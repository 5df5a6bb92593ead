import Verif.Model.PropertyMake
import Verif.Props.Verdict
import Verif.Props.Containers
/-
C112: which generators a property uses. C113: the callable given to `property`. C114: functions that modify the
argument they are given.
-/
namespace Verif
namespace Make
variable {G : Type}

theorem property_get {n : Nat} {arb : Nat → G} {hs : List G} {p : Prop' G} (h : property n arb hs = some p) :
    hs.length ≤ n ∨ hs.length = 0 → p.genTup.length = n ∧
    ∀ i < n, p.genTup[i]? = some (if h : i < hs.length then hs[i] else arb i) := by
  intro hle
  unfold property createGenTuple at h
  split at h
  · rename_i h0
    simp at h
    subst h
    have : hs = [] := List.length_eq_zero_iff.mp h0
    subst this
    refine ⟨by simp [createGenHelperListed], fun i hi => ?_⟩
    simp [createGenHelperListed, List.getElem?_range hi]
  · split at h
    · simp at h
      subst h
      rename_i h1
      refine ⟨h1, fun i hi => ?_⟩
      have hi' : i < hs.length := by omega
      simp [hi']
    · split at h
      · simp at h
        subst h
        rename_i h1
        simp only [createGenHelperListed, addOffset]
        refine ⟨by simp; omega, fun i hi => ?_⟩
        by_cases hi' : i < hs.length
        · simp [hi', List.getElem?_append_left hi']
        · rw [List.getElem?_append_right (by omega)]
          have : i - hs.length < n - hs.length := by omega
          simp [hi', this]
          congr 1
          omega
      · simp at h

theorem foldl_set (gs : List G) : ∀ (order : List Nat) (tup : List G),
    (order.foldl (fun copy N => setTupleFromTuple copy gs N) tup).length = tup.length ∧
    ∀ i, i < tup.length →
      (order.foldl (fun copy N => setTupleFromTuple copy gs N) tup)[i]? =
        if i ∈ order ∧ i < gs.length then gs[i]? else tup[i]? := by
  intro order
  induction order with
  | nil => intro tup; simp
  | cons N rest ih =>
    intro tup
    have hl : (setTupleFromTuple tup gs N).length = tup.length := by
      unfold setTupleFromTuple; split <;> simp
    obtain ⟨h1, h2⟩ := ih (setTupleFromTuple tup gs N)
    refine ⟨by rw [List.foldl_cons, h1, hl], fun i hi => ?_⟩
    rw [List.foldl_cons, h2 i (by omega)]
    by_cases hr : i ∈ rest ∧ i < gs.length
    · rw [if_pos hr, if_pos ⟨by simp [hr.1], hr.2⟩]
    · rw [if_neg hr]
      unfold setTupleFromTuple
      by_cases hN : i = N
      · subst hN
        cases hg : gs[i]? with
        | none =>
          have : ¬ i < gs.length := by
            intro h; rw [List.getElem?_eq_getElem h] at hg; cases hg
          rw [if_neg (fun h => this h.2)]
        | some g =>
          have : i < gs.length := (List.getElem?_eq_some_iff.mp hg).1
          rw [if_pos ⟨by simp, this⟩]
          simp [hi]
      · have e : (i ∈ N :: rest ∧ i < gs.length) ↔ (i ∈ rest ∧ i < gs.length) := by simp [hN]
        rw [if_neg (fun h => hr (e.mp h))]
        cases gs[N]? with
        | none => rfl
        | some g => exact List.getElem?_set_ne fun h => hN h.symm

/-- A sequence of calls of `forAll` with explicit generators, the object after them. -/
def after (p : Prop' G) : List (List Nat × List G) → Prop' G
  | [] => p
  | c :: cs => after (forAllGens p c.1 c.2).2 cs

theorem after_eq (p : Prop' G) (cs : List (List Nat × List G)) : after p cs = p := by
  induction cs generalizing p with
  | nil => rfl
  | cons c cs ih => exact ih p

/-- C112. Parameter `i` is drawn with the i-th generator given to `forAll` if there is one, otherwise with the i-th
generator given to `property`, otherwise with the default generator of its type; whatever generators were given to
earlier calls of `forAll`, and in whatever order the compiler makes the assignments. -/
theorem C112_explicit_generators (n : Nat) (arb : Nat → G) (hs : List G) (hn : hs.length ≤ n) (p : Prop' G)
    (hp : property n arb hs = some p) (earlier : List (List Nat × List G)) (order : List Nat) (gs : List G)
    (hg : gs.length ≤ n) (ho : order.Perm (List.range gs.length)) :
    ∃ l p', forAllGens (after p earlier) order gs = (some l, p') ∧ l.length = n ∧
      ∀ i < n, l[i]? = some (if h : i < gs.length then gs[i] else if h : i < hs.length then hs[i] else arb i) := by
  obtain ⟨h1, h2⟩ := property_get hp (.inl hn)
  rw [after_eq]
  obtain ⟨h3, h4⟩ := foldl_set gs order p.genTup
  refine ⟨_, p, by unfold forAllGens overrideTuple; rw [if_pos (by omega)], by omega, fun i hi => ?_⟩
  rw [h4 i (by omega)]
  by_cases hig : i < gs.length
  · rw [if_pos ⟨ho.mem_iff.mpr (by simpa using hig), hig⟩, dif_pos hig, List.getElem?_eq_getElem hig]
  · rw [if_neg (fun h => hig h.2), dif_neg hig, h2 i hi]

/-- C112. Creating a property compiles exactly when no more generators are given than the function has parameters. -/
theorem C112_number_of_generators (n : Nat) (arb : Nat → G) (hs : List G) :
    (property n arb hs).isSome ↔ hs.length ≤ n := by
  unfold property createGenTuple
  split
  · simp; omega
  · split
    · simp; omega
    · split
      · simp; omega
      · simp; omega

/-- Three parameters, one generator for `property`, then `forAll` with two, then with none. -/
example : property 3 (fun i => (100 + i : Nat)) [7] = some ⟨[7, 101, 102]⟩ ∧
    (forAllGens (after ⟨[7, 101, 102]⟩ [([0], [5])]) [1, 0] [8, 9]).1 = some [8, 9, 102] ∧
    (forAllGens (after ⟨[7, 101, 102]⟩ [([1, 0], [8, 9])]) [] []).1 = some [7, 101, 102] := ⟨rfl, rfl, rfl⟩

end Make

namespace Engine
open PairTuple
variable {n : Nat} {A : Fin n → Type} {σ : Type}

/-! ### C113 -/

/-- The settings of `c` with the property function made from `cb`. -/
def Cfg.withCallable (c : Cfg σ A) (cb : Callable A) (alive : Bool) : Cfg σ A :=
  { c with func := (functionWithBoolResult cb).call alive }

/-- C113 is violated: a property made from a callable returning `void` refers to the callable; used after the callable
is gone (as in `auto prop = property([](int) { ... }); prop.forAll();`), `forAll` has undefined behaviour, for every
number of runs other than 0. -/
theorem C113_void_callable_gone_violated {c : Cfg σ A} (hq : c.Quiet) (hg : c.GensTotal) (h0 : c.maxDurationMs = 0)
    (hr : c.numRuns ≠ 0) (f : Trace A → Args A → Ev Unit) (fuel : Nat) (seed : σ) (tr : Trace A) :
    (forAll (c.withCallable (.void f) false) (fuel + 1) seed tr).1 = .ub := by
  obtain ⟨k, hk⟩ : ∃ k, c.numRuns = k + 1 := ⟨c.numRuns - 1, by omega⟩
  set c' := c.withCallable (.void f) false with hc'
  have hq' : c'.Quiet := hq
  obtain ⟨⟨ts, r⟩, hd⟩ := hg seed
  have hd' : Gen.drawTuple c'.gens c'.orderRun seed = .ok (ts, r) := hd
  have hfun : ∀ tr a, c'.func tr a = ⟨[], .ub⟩ := fun _ _ => rfl
  have h1 : ∀ s : St σ A, s.rand = seed → (attempt c' s).1 = .ub := by
    intro s hs
    rw [attempt_quiet hq', hs, hd']
    simp only
    cases ho : (c'.func (suEv c' .run ++ s.trace) (Tup.get ts)).out with
    | ub => rfl
    | ok b => rw [hfun] at ho; cases ho
    | throws e => rw [hfun] at ho; cases ho
    | diverges => rw [hfun] at ho; cases ho
  unfold forAll runForAll Eng.withContext Eng.catchStd Eng.tryCatch
  have hk' : c'.numRuns = k + 1 := hk
  have h0' : c'.maxDurationMs = 0 := h0
  rw [hk', forLoop_succ, if_neg (by simp [h0']), doWhile, Eng.bind_apply, guarded, Eng.tryCatch]
  have := h1 ⟨seed, seed, 0, [], tr⟩ rfl
  cases ha : attempt c' ⟨seed, seed, 0, [], tr⟩ with
  | mk o s' =>
    rw [ha] at this
    simp only at this
    subst this
    rfl

example : (forAll ((demo (fun k => Shr.leaf k) below2 10).withCallable (.void fun _ _ => ⟨[], .ok ()⟩) false) 1 0 []).1
    = .ub :=
  C113_void_callable_gone_violated (demo_setting _ _ _).quiet (fun s => ⟨_, demo_draw _ _ _ s⟩) rfl (by decide) _ 0 0 []

/-- C113, the part that holds: whether the callable still exists or not, a property made from a callable returning
`bool` fails `forAll` exactly if a call returns false, throws (PROP_SUCCESS and PROP_DISCARD aside) or fails an
expectation: the draws up to the one that completes `numRuns` calls that are not discarded decide. Missing: callables
returning `void`. -/
theorem C113_bool_callable_partial {c : Cfg σ A} (hc : Setting c) (h0 : c.maxDurationMs = 0) {f : Args A → Ev Bool}
    (hret : ∀ a, (∃ b, (f a).out = .ok b) ∨ ∃ e, (f a).out = .throws e ∧ e.isStd = true)
    (hquiet : ∀ a, (f a).out = .throws .success ∨ (f a).out = .throws .discard → (f a).fails = [])
    (alive : Bool) (seed : σ) (D : Nat → Tup A) (hD : c.Drawn seed D) (m : Nat)
    (hk : ((List.range m).filter fun j => (f fun i => (D j i).value).out ≠ .throws .discard).length = c.numRuns)
    (hmin : ∀ l < m,
      ((List.range l).filter fun j => (f fun i => (D j i).value).out ≠ .throws .discard).length < c.numRuns)
    (fuel : Nat) (hfuel : m < fuel) :
    ∃ R tr, forAll (c.withCallable (.bool fun _ => f) alive) fuel seed [] = (.ok R, tr) ∧
      (R.verdict = false ↔ ∃ j < m, (f fun i => (D j i).value).fails ≠ [] ∨
        (f fun i => (D j i).value).out = .ok false ∨
        ∃ e, (f fun i => (D j i).value).out = .throws e ∧ e ≠ .success ∧ e ≠ .discard) := by
  set c' := c.withCallable (.bool fun _ => f) alive with hc'
  have hreg : Regular c' f := ⟨fun tr a => rfl, hret, hquiet⟩
  have hset : Setting c' := ⟨hc.quiet, hc.order, hc.nodup, hc.gens⟩
  have hkept : ∀ l, keptAmong f D l =
      ((List.range l).filter fun j => (f fun i => (D j i).value).out ≠ .throws .discard).length := by
    intro l
    unfold keptAmong
    congr 1
    refine List.filter_congr fun j _ => ?_
    unfold Ev.discarded
    rcases hret (fun i => (D j i).value) with ⟨b, h1⟩ | ⟨e, h1, hs⟩
    · rw [h1]; simp
    · rw [h1]; by_cases he : e = .discard <;> simp [he]
  obtain ⟨R, tr, h1, h2⟩ := C111_returns hset h0 hreg seed D hD m (by rw [hkept]; exact hk)
    (fun l hl => by rw [hkept]; exact hmin l hl) fuel hfuel
  refine ⟨R, tr, h1, h2.trans ?_⟩
  refine exists_congr fun j => and_congr_right fun _ => ?_
  unfold Ev.Fails
  rcases hret (fun i => (D j i).value) with ⟨b, h1⟩ | ⟨e, h1, hs⟩
  · rw [h1]; simp [or_comm]
  · rw [h1]
    constructor
    · rintro (h | ⟨x, h, _, h3, h4⟩ | h)
      · cases h
      · cases h; exact .inr (.inr ⟨_, rfl, h4, h3⟩)
      · exact .inl h
    · rintro (h | h | ⟨x, h, h3, h4⟩)
      · exact .inr (.inr h)
      · cases h
      · cases h; exact .inr (.inl ⟨_, rfl, hs, h4, h3⟩)

/-- 3 is rejected, the callable is gone. -/
example : ∃ R tr, forAll ((demo (fun k => Shr.leaf k) below2 5).withCallable
    (.bool fun _ a => ⟨[], .ok (decide (a 0 ≠ 3))⟩) false) 6 0 [] = (.ok R, tr) ∧ R.verdict = false := by
  obtain ⟨R, tr, h1, h2⟩ := C113_bool_callable_partial (demo_setting (fun k => Shr.leaf k) below2 5) rfl
    (f := fun a => ⟨[], .ok (decide (a 0 ≠ 3))⟩) (fun a => .inl ⟨_, rfl⟩) (fun a _ => rfl) false 0 _
    (demo_drawn _ _ _ _) 5 (by decide) (by decide) 6 (by decide)
  exact ⟨R, tr, h1, h2.mpr ⟨3, by decide, .inr (.inl (by decide))⟩⟩

/-- C113, the part that holds: while the callable exists, a property made from a callable returning `void` passes
`forAll` exactly if no call throws (PROP_SUCCESS and PROP_DISCARD aside) or fails an expectation: the draws up to the
one that completes `numRuns` calls that are not discarded decide. -/
theorem C113_void_callable_partial {c : Cfg σ A} (hc : Setting c) (h0 : c.maxDurationMs = 0) {f : Args A → Ev Unit}
    (hret : ∀ a, (f a).out = .ok () ∨ ∃ e, (f a).out = .throws e ∧ e.isStd = true)
    (hquiet : ∀ a, (f a).out = .throws .success ∨ (f a).out = .throws .discard → (f a).fails = [])
    (seed : σ) (D : Nat → Tup A) (hD : c.Drawn seed D) (m : Nat)
    (hk : ((List.range m).filter fun j => (f fun i => (D j i).value).out ≠ .throws .discard).length = c.numRuns)
    (hmin : ∀ l < m,
      ((List.range l).filter fun j => (f fun i => (D j i).value).out ≠ .throws .discard).length < c.numRuns)
    (fuel : Nat) (hfuel : m < fuel) :
    ∃ R tr, forAll (c.withCallable (.void fun _ => f) true) fuel seed [] = (.ok R, tr) ∧
      (R.verdict = false ↔ ∃ j < m, (f fun i => (D j i).value).fails ≠ [] ∨
        ∃ e, (f fun i => (D j i).value).out = .throws e ∧ e ≠ .success ∧ e ≠ .discard) := by
  set c' := c.withCallable (.void fun _ => f) true with hc'
  set g : Args A → Ev Bool := fun a => c'.func [] a with hgdef
  have hge : ∀ a, g a = ⟨(f a).fails, match (f a).out with
      | .ok _ => .ok true
      | .throws e => .throws e
      | .ub => .ub
      | .diverges => .diverges⟩ := fun a => rfl
  have hout : ∀ a, ((f a).out = .ok () ∧ (g a).out = .ok true) ∨
      ∃ e, (f a).out = .throws e ∧ (g a).out = .throws e ∧ e.isStd = true := by
    intro a
    rcases hret a with h | ⟨e, h, hs⟩
    · left; refine ⟨h, ?_⟩; rw [hge, h]
    · right; refine ⟨e, h, ?_, hs⟩; rw [hge, h]
  have hfl : ∀ a, (g a).fails = (f a).fails := fun a => by rw [hge]
  have hreg : Regular c' g := by
    refine ⟨fun tr a => rfl, fun a => ?_, fun a h => ?_⟩
    · rcases hout a with ⟨_, h⟩ | ⟨e, _, h, hs⟩
      · exact .inl ⟨_, h⟩
      · exact .inr ⟨e, h, hs⟩
    · rw [hfl]
      apply hquiet
      rcases hout a with ⟨_, h2⟩ | ⟨e, h1, h2, hs⟩
      · rw [h2] at h; rcases h with h | h <;> cases h
      · rw [h2] at h; rw [h1]; rcases h with h | h <;> cases h <;> simp
  have hset : Setting c' := ⟨hc.quiet, hc.order, hc.nodup, hc.gens⟩
  have hkept : ∀ l, keptAmong g D l =
      ((List.range l).filter fun j => (f fun i => (D j i).value).out ≠ .throws .discard).length := by
    intro l
    unfold keptAmong
    congr 1
    refine List.filter_congr fun j _ => ?_
    unfold Ev.discarded
    rcases hout (fun i => (D j i).value) with ⟨h1, h2⟩ | ⟨e, h1, h2, hs⟩
    · rw [h1, h2]; simp
    · rw [h1, h2]; by_cases he : e = .discard <;> simp [he]
  obtain ⟨R, tr, h1, h2⟩ := C111_returns hset h0 hreg seed D hD m (by rw [hkept]; exact hk)
    (fun l hl => by rw [hkept]; exact hmin l hl) fuel hfuel
  refine ⟨R, tr, h1, h2.trans ?_⟩
  refine exists_congr fun j => and_congr_right fun _ => ?_
  unfold Ev.Fails
  rw [hfl]
  rcases hout (fun i => (D j i).value) with ⟨h1, h2⟩ | ⟨e, h1, h2, hs⟩
  · rw [h1, h2]; simp
  · rw [h1, h2]
    constructor
    · rintro (h | ⟨x, h, _, h3, h4⟩ | h)
      · cases h
      · cases h; exact .inr ⟨_, rfl, h4, h3⟩
      · exact .inl h
    · rintro (h | ⟨x, h, h3, h4⟩)
      · exact .inr (.inr h)
      · cases h; exact .inr (.inl ⟨_, rfl, hs, h4, h3⟩)

/-- 3 throws. -/
example : ∃ R tr, forAll ((demo (fun k => Shr.leaf k) below2 5).withCallable
    (.void fun _ a => if a 0 = 3 then ⟨[], .throws .runtimeError⟩ else ⟨[], .ok ()⟩) true) 6 0 [] = (.ok R, tr) ∧
    R.verdict = false := by
  obtain ⟨R, tr, h1, h2⟩ := C113_void_callable_partial (demo_setting (fun k => Shr.leaf k) below2 5) rfl
    (f := fun a => if a 0 = 3 then ⟨[], .throws .runtimeError⟩ else ⟨[], .ok ()⟩)
    (fun a => by by_cases h : a 0 = 3 <;> simp [h, Exn.isStd])
    (fun a => by by_cases h : a 0 = 3 <;> simp [h]) 0 _ (demo_drawn _ _ _ _) 5 (by decide) (by decide) 6 (by decide)
  exact ⟨R, tr, h1, h2.mpr ⟨3, by decide, .inr ⟨.runtimeError, by decide, by decide, by decide⟩⟩⟩

end Engine

namespace Containers
open Shr BinSearch
variable {α β : Type}

/-! ### C114 -/

theorem mapStr_keep (g : List α → β) (minSize : Nat) : ∀ t : Shr (List α),
    (∀ v, Reach t v → minSize ≤ v.length ∧ v.length < 2 ^ 64) →
    mapStr (fun s => (g s, s)) minSize t = .ok ((t.concat fun shr => shrinkFront minSize shr.value).map g) := by
  intro t
  induction t using Shr.ind with
  | h v ss ih =>
    intro hl
    have hlist : ∀ l : List (Shr (List α)), (∀ s ∈ l, s ∈ ss) → mapStrList (fun s => (g s, s)) minSize l =
        .ok (l.map fun t => (t.concat fun shr => shrinkFront minSize shr.value).map g) := by
      intro l
      induction l with
      | nil => intro _; rfl
      | cons s l ihl =>
        intro hs
        rw [mapStrList, ih s (hs s (by simp)) (fun w hw => hl w (.child (by simpa using hs s (by simp)) hw)),
          ihl fun s hs' => hs s (by simp [hs'])]
        rfl
    have hv := hl v (.self (node v ss))
    have hfront : frontShrinks minSize v = .ok (shrinkFront minSize v) := by
      unfold frontShrinks shrinkFront substr
      by_cases he : v.length = minSize
      · simp [he]
      · rw [if_neg he, if_neg he, if_neg (by omega)]
        have : (2 ^ 64 + v.length - minSize) % 2 ^ 64 = v.length - minSize := by omega
        rw [this]
        rfl
    rw [mapStr, hlist ss fun _ h => h]
    simp only [hfront, Outcome.ok_bind]
    have e : (node v ss).concat (fun s => shrinkFront minSize s.value) =
        node v (ss.map (concat fun s => shrinkFront minSize s.value) ++ shrinkFront minSize v) := by
      rw [← eta (concat _ _)]; simp
    rw [e]
    rw [← eta (map g _)]
    simp [Function.comp_def]

/-- C114 is violated: when the function given to `map` moves from or clears its argument (it gets a reference), and
the strings have a minimal size other than 0, asking for the shrinks of the generated value throws, for every
string. -/
theorem C114_moving_function_violated (g : List α → β) (str : List α) (minSize : Nat) (h0 : 0 < minSize) :
    mapString (fun s => (g s, [])) str minSize = .throws .stdOther := by
  have hthrow : frontShrinks minSize ([] : List α) = .throws .stdOther := by
    unfold frontShrinks substr
    rw [if_neg (by simp; omega), if_pos (by simp; omega)]
    rfl
  have : ∀ t : Shr (List α), mapStr (fun s => (g s, [])) minSize t = .throws .stdOther := by
    intro t
    induction t using Shr.ind with
    | h v ss ih =>
      rw [mapStr]
      cases ss with
      | nil =>
        simp only [mapStrList, hthrow]
        rfl
      | cons s ss =>
        rw [mapStrList, ih s (by simp)]
        rfl
  exact this _

/-- C114 is violated: without minimal size, shrinks are lost: no shrink of "ab" mapped by a function that clears its
argument and returns it is "b". -/
theorem C114_shrinks_lost_violated : ∃ t, mapString (fun s => (s, [])) ['a', 'b'] 0 = .ok t ∧
    ¬ Reach t ['b'] ∧ Reach (shrinkString ['a', 'b'] 0) ['b'] := by
  refine ⟨_, rfl, ?_, ?_⟩
  · rw [← mem_values]; decide
  · rw [← mem_values]; decide

private theorem mapStr_clear (g : List α → β) : ∀ t : Shr (List α), mapStr (fun s => (g s, [])) 0 t = .ok (t.map g) := by
  intro t
  induction t using Shr.ind with
  | h v ss ih =>
    have hlist : ∀ l : List (Shr (List α)), (∀ s ∈ l, s ∈ ss) →
        mapStrList (fun s => (g s, [])) 0 l = .ok (l.map (Shr.map g)) := by
      intro l
      induction l with
      | nil => intro _; rfl
      | cons s l ihl =>
        intro hs
        rw [mapStrList, ih s (hs s (by simp)), ihl fun s hs' => hs s (by simp [hs'])]
        rfl
    rw [mapStr, hlist ss fun _ h => h, map_node]
    simp [frontShrinks]

/-- C114 is violated: without minimal size, a function that clears its argument makes all shrinks disappear that remove
leading characters, for every string: what remains are the images of its prefixes. -/
theorem C114_front_lost_violated (g : List α → β) (str : List α) :
    ∃ t, mapString (fun s => (g s, [])) str 0 = .ok t ∧ (∀ w, Reach t w ↔ ∃ k ≤ str.length, w = g (str.take k)) := by
  refine ⟨_, mapStr_clear g _, fun w => ?_⟩
  unfold shrinkRear
  rw [reach_map]
  simp only [reach_map, bsNat_reach]
  constructor
  · rintro ⟨u, ⟨k, hk, rfl⟩, rfl⟩
    exact ⟨k, by simpa using hk, rfl⟩
  · rintro ⟨k, hk, rfl⟩
    exact ⟨_, ⟨k, by simpa using hk, rfl⟩, rfl⟩

/-- C114, the part that holds: a function that leaves its argument as it is maps every value, and nothing else
changes. Missing: functions that modify their argument. -/
theorem C114_map_partial (g : List α → β) (str : List α) (minSize : Nat) (hm : minSize ≤ str.length)
    (hb : str.length < 2 ^ 64) :
    mapString (fun s => (g s, s)) str minSize = .ok ((shrinkString str minSize).map g) := by
  refine mapStr_keep g minSize _ fun v hv => ?_
  unfold shrinkRear at hv
  rw [reach_map] at hv
  obtain ⟨w, hw, rfl⟩ := hv
  have := (bsNat_reach _ _).mp hw
  simp
  omega

example : ∃ t, mapString (fun s => (s.length, s)) ['a', 'b'] 1 = .ok t ∧ t.values = [2, 1, 1] := ⟨_, rfl, by decide⟩
example : mapString (fun s => (s.length, [])) ['a', 'b'] 1 = .throws .stdOther :=
  C114_moving_function_violated _ _ _ (by decide)

end Containers
end Verif
