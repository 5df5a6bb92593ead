import Verif.Lemmas.Output
import Verif.Props.Property
import Verif.Props.Context
/-
C151: the reasons given for a failure. C152: the statistics of tags. C153: the steps of shrinking that are printed.
-/
namespace Verif
namespace Output
open PairTuple Engine Context
variable {n : Nat} {A : Fin n → Type} {σ K V : Type} [LinearOrder K] [LinearOrder V]

theorem forAll_engine {c : TCfg σ A K V} {fuel : Nat} {seed : σ} {R : Report A} {tr : Trace A}
    {out : List (Line A K V)} (h : forAll c fuel seed [] = (.ok R, tr, out)) :
    Engine.forAll c.cfg fuel seed [] = (.ok R, tr) := by
  rw [forAll_agrees, h]

omit [LinearOrder K] [LinearOrder V] in
theorem leftover_none : ∀ {cs : List (Args A × Ev Bool)} (_ : ∀ y ∈ cs, (∀ b, y.2.out ≠ .ok b) → y.2.fails = []),
    leftover cs = [] := by
  intro cs
  rw [← List.reverse_reverse cs]
  induction cs.reverse with
  | nil => intro _; rfl
  | cons x cs ih =>
    intro h
    rw [List.reverse_cons, leftover_append]
    have hx := h x (by simp)
    have ih := ih fun y hy => h y (by simp at hy ⊢; simp [hy])
    cases ho : x.2.out with
    | ok b => rfl
    | throws e => simp [ih, hx (by simp [ho])]
    | ub => simp [ih, hx (by simp [ho])]
    | diverges => simp [ih, hx (by simp [ho])]

/-- The call that stopped the loop, and the output. -/
theorem falsified_out {c : TCfg σ A K V} (hc : Setting c.cfg) {fuel : Nat} {seed : σ} {a : Nat}
    {start shrunk : Tup A} {tr : Trace A} {out : List (Line A K V)}
    (h : forAll c fuel seed [] = (.ok (.falsified a start shrunk), tr, out)) :
    ∃ pre y ls, calls .run tr = pre ++ [y] ∧ y.1 = Tup.get start ∧
      out = .seed :: .falsifiable a (whyOf (leftover pre) y.2) :: .withArgs (Tup.get start) :: ls ++
        [.simplest (Tup.get shrunk)] ∧ Steps start (calls .shrink tr) ls shrunk ∧ (∀ z ∈ pre, GoodCall z) ∧
      (y.2.out = .ok false ∨ (∃ e, y.2.out = .throws e ∧ e.isStd = true ∧ e ≠ .discard ∧ e ≠ .success) ∨
        (y.2.out = .ok true ∧ ∃ z ∈ pre ++ [y], z.2.fails ≠ [])) := by
  obtain ⟨pre, y, ls, h1, h2, h3, h4⟩ := (forAll_out hc fuel seed _ tr out h).2.2 a start shrunk rfl
  have hr := forAll_result hc fuel seed
  rw [forAll_engine h] at hr
  obtain ⟨i, hi, hst⟩ := hr.stop a start shrunk rfl
  obtain ⟨pre', y', _, _, _, _, hR, ⟨g1, _, g3, g4⟩, _⟩ := hst.ex
  cases hR
  rw [h1] at g1
  obtain ⟨rfl, g1'⟩ := List.append_inj' g1 rfl
  simp only [List.cons.injEq, and_true] at g1'
  subst g1'
  exact ⟨pre, y, ls, h1, h2, h3, h4, g3, g4⟩

/-! ### C151 -/

/-- The reason given for a failure is about the call whose arguments are reported, provided that no call that was
discarded or succeeded early has a failed expectation: the expectations that failed in this call, all of them and no
others; or nothing if it just returned false; or the exception it threw.
Partial: see `C151_leftover_violated` for the condition; C151 asks also that the expectations that failed are named when
an exception was thrown, see `C151_exception_violated`. -/
theorem C151_reason_partial {c : TCfg σ A K V} (hc : Setting c.cfg) (fuel : Nat) (seed : σ) (a : Nat)
    (start shrunk : Tup A) (tr : Trace A) (out : List (Line A K V))
    (h : forAll c fuel seed [] = (.ok (.falsified a start shrunk), tr, out))
    (hq : ∀ y ∈ calls .run tr, y.2.out = .throws .success ∨ y.2.out = .throws .discard → y.2.fails = []) :
    ∃ y why rest, (calls .run tr).getLast? = some y ∧ (∀ i, y.1 i = (start i).value) ∧
      out = .seed :: .falsifiable a why :: rest ∧
      ((y.2.out = .ok false ∧ y.2.fails = [] ∧ why = .nothing) ∨
       ((∃ b, y.2.out = .ok b) ∧ y.2.fails ≠ [] ∧ why = .expectations y.2.fails) ∨
       ∃ e, y.2.out = .throws e ∧ why = .exception (if e = .assertFailed then .propertyFailed else e)) := by
  obtain ⟨pre, y, ls, h1, h2, h3, _, g4, g5⟩ := falsified_out hc h
  have hpre : ∀ z ∈ pre, z.2.fails = [] := fun z hz => by
    rcases g4 z hz with e | e | e
    · exact hq z (by rw [h1]; simp [hz]) (Or.inr e)
    · exact hq z (by rw [h1]; simp [hz]) (Or.inl e)
    · exact e.2
  have hl : leftover pre = [] := leftover_none fun z hz _ => hpre z hz
  refine ⟨y, _, _, by rw [h1]; simp, fun i => by rw [h2]; rfl, h3, ?_⟩
  rw [hl]
  unfold whyOf
  rcases g5 with ho | ⟨e, ho, _⟩ | ⟨ho, z, hz, hf⟩
  · rw [ho]
    by_cases hf : y.2.fails = []
    · exact Or.inl ⟨rfl, hf, by simp [hf]⟩
    · exact Or.inr (Or.inl ⟨⟨_, rfl⟩, hf, by simp [hf]⟩)
  · rw [ho]
    exact Or.inr (Or.inr ⟨e, rfl, rfl⟩)
  · rw [ho]
    rcases List.mem_append.mp hz with hz | hz
    · exact absurd (hpre z hz) hf
    · simp only [List.mem_singleton] at hz
      subst hz
      exact Or.inr (Or.inl ⟨⟨_, rfl⟩, hf, by simp [hf]⟩)

/-- C151 is violated: expectations that failed in a call that was discarded or succeeded early are given as reasons for
the failure of the next call that returns, in front of its own. -/
theorem C151_leftover_violated {c : TCfg σ A K V} (hc : Setting c.cfg) (fuel : Nat) (seed : σ) (a : Nat)
    (start shrunk : Tup A) (tr : Trace A) (out : List (Line A K V))
    (h : forAll c fuel seed [] = (.ok (.falsified a start shrunk), tr, out))
    (cs : List (Args A × Ev Bool)) (z y : Args A × Ev Bool) (hcs : calls .run tr = cs ++ [z, y])
    (hz : z.2.out = .throws .success ∨ z.2.out = .throws .discard) (hf : z.2.fails ≠ []) (hy : ∃ b, y.2.out = .ok b) :
    ∃ earlier rest, out = .seed :: .falsifiable a (.expectations (earlier ++ z.2.fails ++ y.2.fails)) :: rest := by
  obtain ⟨pre, y', ls, h1, h2, h3, _⟩ := falsified_out hc h
  rw [hcs, show cs ++ [z, y] = (cs ++ [z]) ++ [y] by simp] at h1
  obtain ⟨rfl, h1'⟩ := List.append_inj' h1 rfl
  simp only [List.cons.injEq, and_true] at h1'
  subst h1'
  obtain ⟨b, hb⟩ := hy
  refine ⟨leftover cs, .withArgs (Tup.get start) :: ls ++ [.simplest (Tup.get shrunk)], h3.trans ?_⟩
  rw [whyOf, hb, leftover_append]
  rcases hz with hz | hz <;> (rw [hz]; simp [hf])

/-- C151 is violated: when the failing call ends by an exception, only this is given as reason, whatever expectations
failed in the call. -/
theorem C151_exception_violated {c : TCfg σ A K V} (hc : Setting c.cfg) (fuel : Nat) (seed : σ) (a : Nat)
    (start shrunk : Tup A) (tr : Trace A) (out : List (Line A K V))
    (h : forAll c fuel seed [] = (.ok (.falsified a start shrunk), tr, out)) (y : Args A × Ev Bool) (e : Exn)
    (hy : (calls .run tr).getLast? = some y) (he : y.2.out = .throws e) :
    ∃ rest, out = .seed :: .falsifiable a (.exception (if e = .assertFailed then .propertyFailed else e)) :: rest := by
  obtain ⟨pre, y', ls, h1, h2, h3, _⟩ := falsified_out hc h
  rw [h1, List.getLast?_concat, Option.some.injEq] at hy
  subst hy
  refine ⟨.withArgs (Tup.get start) :: ls ++ [.simplest (Tup.get shrunk)], h3.trans ?_⟩
  rw [whyOf, he]
  rfl

/-- The sample property of Props/Property.lean; the tags of a call are those of its argument. -/
def tagged (tree : Nat → Shr Nat) (f : Nat → Ev Bool) (runs : Nat) (T : Nat → List (Nat × Nat)) :
    TCfg Nat (fun _ : Fin 1 => Nat) Nat Nat where
  cfg := demo tree f runs
  tags := fun _ e => match e with
    | .call _ a _ => T (a 0)
    | _ => []

/-- The reason and the verdict shown, for samples. -/
def reason (r : Outcome (Report (fun _ : Fin 1 => Nat)) × Trace (fun _ : Fin 1 => Nat) ×
    List (Line (fun _ : Fin 1 => Nat) Nat Nat)) : Option (Bool × Nat × Why) :=
  match r.1, r.2.2 with
  | .ok R, _ :: .falsifiable a why :: _ => some (R.verdict, a, why)
  | _, _ => none

-- the second run fails two expectations
example : reason (forAll (tagged (fun k => Shr.leaf k)
    (fun a => if a = 1 then ⟨["x", "y"], .ok true⟩ else returns true) 5 (fun _ => [])) 5 0 []) =
    some (false, 2, .expectations ["x", "y"]) := by decide +kernel
-- the second run returns false
example : reason (forAll (tagged (fun k => Shr.leaf k)
    (fun a => returns (decide (a ≠ 1))) 5 (fun _ => [])) 5 0 []) = some (false, 2, .nothing) := by decide +kernel
-- the first run is discarded after "x" failed, the second returns false: "x" is given as the reason
example : reason (forAll (tagged (fun k => Shr.leaf k)
    (fun a => if a = 0 then ⟨["x"], .throws .discard⟩ else returns false) 5 (fun _ => [])) 5 0 []) =
    some (false, 1, .expectations ["x"]) := by decide +kernel
-- "x" failed, then an assertion: "x" is not mentioned
example : reason (forAll (tagged (fun k => Shr.leaf k)
    (fun _ => ⟨["x"], .throws .assertFailed⟩) 5 (fun _ => [])) 5 0 []) =
    some (false, 1, .exception .propertyFailed) := by decide +kernel

/-! ### C152 -/

omit [LinearOrder K] [LinearOrder V] in
theorem Steps.lines {vals last : Tup A} {cs : List (Args A × Ev Bool)} {ls : List (Line A K V)}
    (h : Steps vals cs ls last) : ∀ l ∈ ls, (∃ N a, l = .simpler N a) ∨ ∃ f, l = .byExpectations f := by
  induction h with
  | done vals => simp
  | passed vals N child e cs ls last h1 h2 _ ih => exact ih
  | adopted vals N child e cs ls last h1 h2 _ ih =>
    intro l hl
    rcases List.mem_cons.mp hl with rfl | hl
    · exact Or.inl ⟨_, _, rfl⟩
    · split at hl
      · exact ih l hl
      · rcases List.mem_cons.mp hl with rfl | hl
        · exact Or.inr ⟨_, rfl⟩
        · exact ih l hl

/-- Statistics are printed exactly when the verdict is true, as the last line; before them stand the seed and either
the number of runs or, if the time ran out, the number of tests made. -/
theorem C152_printed {c : TCfg σ A K V} (hc : Setting c.cfg) (fuel : Nat) (seed : σ) (R : Report A) (tr : Trace A)
    (out : List (Line A K V)) (h : forAll c fuel seed [] = (.ok R, tr, out)) :
    (R = .passed → ∃ S, out = [.seed, .passed c.cfg.numRuns, .statistics S]) ∧
    (∀ k, R = .timedOut k → ∃ S, out = [.seed, .timedOut k, .statistics S]) ∧
    (R.verdict = false → ∀ S, .statistics S ∉ out) := by
  obtain ⟨h1, h2, h3⟩ := forAll_out hc fuel seed R tr out h
  refine ⟨fun hR => ⟨_, h1 hR⟩, fun k hR => ⟨_, h2 k hR⟩, fun hv S hS => ?_⟩
  cases R with
  | passed => cases hv
  | timedOut k => cases hv
  | falsified a start shrunk =>
    obtain ⟨pre, y, ls, _, _, h6, h7⟩ := h3 a start shrunk rfl
    rw [h6] at hS
    simp at hS
    rcases h7.lines _ hS with ⟨N, a, e⟩ | ⟨f, e⟩ <;> cases e

omit [LinearOrder K] [LinearOrder V] in
theorem runTags_calls {tags : Trace A → Event A → List (K × V)} {T : Args A → List (K × V)} (h : TagsBy tags T) :
    ∀ tr : Trace A, runTags tags tr = (calls .run tr).flatMap fun x => T x.1
  | [] => rfl
  | x :: tr => by
    have hx : calls .run (x :: tr) = calls .run tr ++ (Event.call? .run x).toList := by
      unfold calls
      rw [List.reverse_cons, List.filterMap_append]
      cases hc : Event.call? Phase.run x <;> simp [hc]
    rw [hx, List.flatMap_append, ← runTags_calls h tr]
    cases x with
    | startup ph e => cases ph <;> simp [runTags, Event.call?, h.startup]
    | cleanup ph e => cases ph <;> simp [runTags, Event.call?, h.cleanup]
    | call ph a e => cases ph <;> simp [runTags, Event.call?, h.call]
    | genThrew ph e => cases ph <;> simp [runTags, Event.call?]

/-- The statistics printed count the tags of all calls of the property function, also those that were discarded: the
keys and, for each key, the values are those of these tags, in increasing order; the number shown for a value is the
number of times the tag was recorded, the total is the sum for the key. -/
theorem C152_all_calls {c : TCfg σ A K V} (hc : Setting c.cfg) {T : Args A → List (K × V)} (hT : TagsBy c.tags T)
    (fuel : Nat) (seed : σ) (R : Report A) (tr : Trace A) (out : List (Line A K V))
    (h : forAll c fuel seed [] = (.ok R, tr, out)) (S : List (K × List (V × Nat × Nat))) (hS : .statistics S ∈ out) :
    let made := (calls .run tr).flatMap fun x => T x.1
    (S.map Prod.fst).Pairwise (· < ·) ∧ (∀ k, k ∈ S.map Prod.fst ↔ ∃ v, (k, v) ∈ made) ∧
    ∀ k lines, (k, lines) ∈ S →
      (lines.map Prod.fst).Pairwise (· < ·) ∧ (∀ v, v ∈ lines.map Prod.fst ↔ (k, v) ∈ made) ∧
      ∀ v count total, (v, count, total) ∈ lines →
        count = made.count (k, v) ∧ total = made.countP (fun kv => kv.1 = k) := by
  have hS' : S = printSummary (allTags c tr) := by
    obtain ⟨h1, h2, h3⟩ := forAll_out hc fuel seed R tr out h
    cases R with
    | passed => rw [h1 rfl] at hS; simpa using hS
    | timedOut k => rw [h2 k rfl] at hS; simpa using hS
    | falsified a start shrunk => exact absurd hS ((C152_printed hc fuel seed _ tr out h).2.2 rfl S)
  rw [hS', allTags, runTags_calls hT]
  exact C59_tag_counts _

omit [LinearOrder K] [LinearOrder V] in
theorem flatMap_filter_nil {α β : Type} (p : α → Bool) (f : α → List β) : ∀ (l : List α)
    (_ : ∀ x ∈ l, p x = false → f x = []), l.flatMap f = (l.filter p).flatMap f
  | [], _ => rfl
  | x :: l, h => by
    have ih := flatMap_filter_nil p f l fun y hy => h y (by simp [hy])
    cases hp : p x with
    | true => simp [hp, ih]
    | false => simp [hp, ih, h x (by simp) hp]

/-- The statistics are about the runs that count, those that were not discarded, provided that discarded calls record no
tags; after "OK, passed" there are exactly `numRuns` of these.
Partial: C152 asks this without the condition, see `C152_discarded_violated`. -/
theorem C152_counted_partial {c : TCfg σ A K V} (hc : Setting c.cfg) {T : Args A → List (K × V)} (hT : TagsBy c.tags T)
    (fuel : Nat) (seed : σ) (tr : Trace A) (out : List (Line A K V))
    (h : forAll c fuel seed [] = (.ok .passed, tr, out))
    (hd : ∀ x ∈ calls .run tr, x.2.out = .throws .discard → T x.1 = []) :
    ∃ S, out = [.seed, .passed c.cfg.numRuns, .statistics S] ∧
      let kept := (calls .run tr).filter fun x => x.2.out ≠ .throws .discard
      kept.length = c.cfg.numRuns ∧
      ∀ k lines, (k, lines) ∈ S → ∀ v count total, (v, count, total) ∈ lines →
        count = (kept.flatMap fun x => T x.1).count (k, v) ∧
        total = (kept.flatMap fun x => T x.1).countP (fun kv => kv.1 = k) := by
  obtain ⟨S, hS⟩ := (C152_printed hc fuel seed _ tr out h).1 rfl
  refine ⟨S, hS, (C43_true_means_every_run_passed hc fuel seed tr (forAll_engine h)).1, ?_⟩
  have h1 := C152_all_calls hc hT fuel seed _ tr out h S (by rw [hS]; simp)
  rw [flatMap_filter_nil (fun x => decide (x.2.out ≠ .throws .discard)) (fun x => T x.1) (calls .run tr)
    (fun x hx hp => hd x hx (by simpa using hp))] at h1
  intro k lines hk
  exact (h1.2.2 k lines hk).2.2

omit [LinearOrder K] [LinearOrder V] in
theorem count_filter_lt {α β : Type} [BEq β] [LawfulBEq β] (p : α → Bool) (f : α → List β) (b : β) : ∀ (l : List α)
    (_ : ∃ x ∈ l, p x = false ∧ b ∈ f x), ((l.filter p).flatMap f).count b < (l.flatMap f).count b
  | [], h => by simp at h
  | x :: l, h => by
    have hle : ∀ l : List α, ((l.filter p).flatMap f).count b ≤ (l.flatMap f).count b := by
      intro l
      induction l with
      | nil => simp
      | cons y l ih =>
        cases hp : p y with
        | true => simp [hp, ih]
        | false => simp [hp]; omega
    cases hp : p x with
    | true =>
      have ih := count_filter_lt p f b l (by
        obtain ⟨y, hy, h1, h2⟩ := h
        rcases List.mem_cons.mp hy with rfl | hy
        · rw [hp] at h1; cases h1
        · exact ⟨y, hy, h1, h2⟩)
      simp [hp, ih]
    | false =>
      obtain ⟨y, hy, h1, h2⟩ := h
      rcases List.mem_cons.mp hy with rfl | hy
      · have := hle l
        have h3 := List.count_pos_iff.mpr h2
        simp [hp]; omega
      · have ih := count_filter_lt p f b l ⟨y, hy, h1, h2⟩
        simp [hp]; omega

/-- Tags and failures of an enclosing property do not matter: a nested `forAll` prints the same lines, makes the same calls
and ends the same way whatever the enclosing property recorded (tags `t`, failures `f`), and leaves these records as they
were. -/
theorem C152_enclosing (c : TCfg σ A K V) (fuel : Nat) (x : XSt σ A K V) (t : Tags K V) (f : List String) :
    let r := runForAll c fuel ⟨{ x.st with fails := f }, t, x.out⟩
    r.1 = (runForAll c fuel x).1 ∧ r.2.out = (runForAll c fuel x).2.out ∧
      r.2.st.trace = (runForAll c fuel x).2.st.trace ∧ r.2.tags = t ∧ r.2.st.fails = f :=
  ⟨rfl, rfl, rfl, rfl, rfl⟩

/-- C152 is violated: every tag recorded by a call that was discarded is counted. The number shown for it is larger than
the number of times the runs that count recorded it. -/
theorem C152_discarded_violated {c : TCfg σ A K V} (hc : Setting c.cfg) {T : Args A → List (K × V)}
    (hT : TagsBy c.tags T) (fuel : Nat) (seed : σ) (tr : Trace A) (out : List (Line A K V))
    (h : forAll c fuel seed [] = (.ok .passed, tr, out)) (x : Args A × Ev Bool) (hx : x ∈ calls .run tr)
    (hd : x.2.out = .throws .discard) (k : K) (v : V) (hkv : (k, v) ∈ T x.1) :
    ∃ S lines count total, out = [.seed, .passed c.cfg.numRuns, .statistics S] ∧ (k, lines) ∈ S ∧
      (v, count, total) ∈ lines ∧
      (((calls .run tr).filter fun x => x.2.out ≠ .throws .discard).flatMap fun x => T x.1).count (k, v) < count := by
  obtain ⟨S, hS⟩ := (C152_printed hc fuel seed _ tr out h).1 rfl
  have h1 := C152_all_calls hc hT fuel seed _ tr out h S (by rw [hS]; simp)
  have hmem : (k, v) ∈ (calls .run tr).flatMap fun x => T x.1 := List.mem_flatMap.mpr ⟨x, hx, hkv⟩
  obtain ⟨⟨k', lines⟩, hl, rfl⟩ := List.mem_map.mp ((h1.2.1 k).mpr ⟨v, hmem⟩)
  obtain ⟨_, h3, h4⟩ := h1.2.2 k' lines hl
  obtain ⟨⟨v', count, total⟩, hv, rfl⟩ := List.mem_map.mp ((h3 v).mpr hmem)
  refine ⟨S, lines, count, total, hS, hl, hv, ?_⟩
  rw [(h4 v' count total hv).1]
  exact count_filter_lt (fun x => decide (x.2.out ≠ .throws .discard)) (fun x => T x.1) _ _ ⟨x, hx, by simp [hd], hkv⟩

/-- The statistics shown, for samples. -/
def shownStatistics (r : Outcome (Report (fun _ : Fin 1 => Nat)) × Trace (fun _ : Fin 1 => Nat) ×
    List (Line (fun _ : Fin 1 => Nat) Nat Nat)) : Option (List (Nat × List (Nat × Nat × Nat))) :=
  match r.2.2 with
  | [_, _, .statistics S] => some S
  | _ => none

-- 4 runs with the arguments 0, 2, 3, 4 (1 is discarded); tag 7 is the parity
example : shownStatistics (forAll (tagged (fun k => Shr.leaf k) skips1 4 (fun a => if a = 1 then [] else [(7, a % 2)])) 5 0 []) =
    some [(7, [(0, 3, 4), (1, 1, 4)])] := by decide +kernel
-- the same when the discarded call records its tag: 5 tags for 4 runs
example : shownStatistics (forAll (tagged (fun k => Shr.leaf k) skips1 4 (fun a => [(7, a % 2)])) 5 0 []) =
    some [(7, [(0, 3, 5), (1, 2, 5)])] := by decide +kernel
-- within a property that has recorded the tag 7 and a failure
example :
    let r := runForAll (tagged (fun k => Shr.leaf k) skips1 4 (fun a => [(7, a % 2)])) 5
      ⟨⟨0, 0, 0, ["outer"], []⟩, tag (tag [] 7 0) 7 1, []⟩
    shownStatistics (r.1, r.2.st.trace, r.2.out) = some [(7, [(0, 3, 5), (1, 2, 5)])] ∧ r.2.st.fails = ["outer"] := by
  decide +kernel
example (f : Nat → Ev Bool) (T : Nat → List (Nat × Nat)) : TagsBy (tagged (fun k => Shr.leaf k) f 4 T).tags (fun a => T (a 0)) :=
  ⟨fun _ _ _ _ => rfl, fun _ _ _ => rfl, fun _ _ _ => rfl⟩

/-! ### C153 -/

/-- The output of a failing test: the reason, the arguments drawn, the steps of shrinking and the arguments found. `Steps`
relates the lines printed in between to the calls of the property function made while shrinking: each call is made for
the current arguments with one of them replaced by a shrink offered for it, and a line is printed exactly for those calls
that did not return true without a failed expectation, with the arguments of the call and the expectations failed in it. -/
theorem C153_steps {c : TCfg σ A K V} (hc : Setting c.cfg) (fuel : Nat) (seed : σ) (a : Nat)
    (start shrunk : Tup A) (tr : Trace A) (out : List (Line A K V))
    (h : forAll c fuel seed [] = (.ok (.falsified a start shrunk), tr, out)) :
    ∃ why ls, out = [.seed, .falsifiable a why, .withArgs (fun i => (start i).value)] ++ ls ++
        [.simplest (fun i => (shrunk i).value)] ∧ Steps start (calls .shrink tr) ls shrunk := by
  obtain ⟨pre, y, ls, h1, h2, h3, h4, _⟩ := falsified_out hc h
  exact ⟨_, ls, h3, h4⟩

/-- The arguments of a line about a simpler failure. -/
def Line.simpler? : Line A K V → Option (Args A)
  | .simpler _ args => some args
  | _ => none

/-- The failed expectations of a line. -/
def Line.expectations? : Line A K V → Option (List String)
  | .byExpectations fails => some fails
  | _ => none

open Classical in
/-- Read off the output: the lines about simpler failing arguments show, in order, the arguments of exactly those calls
made while shrinking that did not return true without a failed expectation; the lines about failed expectations show
those that failed in these calls, call by call; and the simplest arguments are those of the last such line, or those
drawn if there is none. -/
theorem C153_lines {c : TCfg σ A K V} (hc : Setting c.cfg) (fuel : Nat) (seed : σ) (a : Nat)
    (start shrunk : Tup A) (tr : Trace A) (out : List (Line A K V))
    (h : forAll c fuel seed [] = (.ok (.falsified a start shrunk), tr, out)) :
    let failed := (calls .shrink tr).filter fun x => x.2.Rejects
    out.filterMap Line.simpler? = failed.map Prod.fst ∧
    out.filterMap Line.expectations? = (failed.map fun x => x.2.fails).filter (· ≠ []) ∧
    (fun i => (shrunk i).value) = (out.filterMap Line.simpler?).getLastD (fun i => (start i).value) := by
  obtain ⟨why, ls, h1, h2⟩ := C153_steps hc fuel seed a start shrunk tr out h
  have key : ∀ {vals last : Tup A} {cs : List (Args A × Ev Bool)} {ls : List (Line A K V)}, Steps vals cs ls last →
      ls.filterMap Line.simpler? = (cs.filter fun x => x.2.Rejects).map Prod.fst ∧
      ls.filterMap Line.expectations? = ((cs.filter fun x => x.2.Rejects).map fun x => x.2.fails).filter (· ≠ []) ∧
      (fun i => (last i).value) = (ls.filterMap Line.simpler?).getLastD (fun i => (vals i).value) := by
    intro vals last cs ls hs
    induction hs with
    | done vals => exact ⟨rfl, rfl, rfl⟩
    | passed vals N child e cs ls last g1 g2 _ ih => simpa [g2] using ih
    | adopted vals N child e cs ls last g1 g2 _ ih =>
      obtain ⟨i1, i2, i3⟩ := ih
      have hl : ∀ x : Args A, (x :: ls.filterMap Line.simpler?).getLastD (fun i => (vals i).value) =
          (ls.filterMap Line.simpler?).getLastD x := fun x => by
        cases ls.filterMap Line.simpler? <;> rfl
      by_cases he : e.fails = []
      · refine ⟨?_, ?_, ?_⟩
        · simp [Line.simpler?, he, g2, i1]
        · simp only [he, if_true, List.filterMap_cons, Line.expectations?, i2]
          simp [g2, he]
        · simp only [he, if_true, List.filterMap_cons, Line.simpler?]
          rw [hl]; exact i3
      · refine ⟨?_, ?_, ?_⟩
        · simp only [he, if_false, List.filterMap_cons, Line.simpler?, i1]
          simp [g2]
        · simp only [he, if_false, List.filterMap_cons, Line.expectations?, i2]
          simp [g2, he]
        · simp only [he, if_false, List.filterMap_cons, Line.simpler?]
          rw [hl]; exact i3
  obtain ⟨k1, k2, k3⟩ := key h2
  have e1 : out.filterMap Line.simpler? = ls.filterMap Line.simpler? := by
    rw [h1]; simp [Line.simpler?, List.filterMap_cons]
  have e2 : out.filterMap Line.expectations? = ls.filterMap Line.expectations? := by
    rw [h1]; simp [Line.expectations?, List.filterMap_cons]
  intro failed
  rw [e1, e2]
  exact ⟨k1, k2, k3⟩

/-- The steps shown, for samples. -/
def shownSteps (r : Outcome (Report (fun _ : Fin 1 => Nat)) × Trace (fun _ : Fin 1 => Nat) ×
    List (Line (fun _ : Fin 1 => Nat) Nat Nat)) : List (Option Nat × Option (List String)) :=
  r.2.2.map fun l => ((Line.simpler? l).map (fun a => a 0), Line.expectations? l)

-- 3 fails, shrinks to 2, an expectation fails at 2 and at 1, 0 passes
example : shownSteps (forAll (tagged (fun _ => chain3)
    (fun a => if a = 0 then returns true else if a = 3 then returns false else ⟨["x"], .ok true⟩) 5 (fun _ => [])) 5 0 []) =
    [(none, none), (none, none), (none, none), (some 2, none), (none, some ["x"]), (some 1, none), (none, some ["x"]),
      (none, none)] := by decide +kernel

end Output
end Verif
