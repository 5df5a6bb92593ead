import Verif.Model.Drawing
import Verif.Props.Combinator
import Verif.Lemmas.BinSearch
import Verif.Props.ChanceDep
/-
C179: dependent values need the engine they were generated with.
-/
namespace Verif
namespace Drawing
open Shr Comb Random Integral IntType
variable {σ α β : Type}

/-! ### Oracles that differ in places that do not matter -/

theorem lazyMap_congr {γ : Type} (f : α → σ → Outcome γ) {o o' : List Nat → σ} (t : Shr α) (p : List Nat)
    (h : ∀ q, p <:+ q → o q = o' q) : lazyMap f o p t = lazyMap f o' p t := by
  induction t using Shr.ind generalizing p with
  | h v ss ih =>
    have list : ∀ l : List (Shr α), (∀ c ∈ l, c ∈ ss) → ∀ i, lazyMapList f o p i l = lazyMapList f o' p i l := by
      intro l
      induction l with
      | nil => intros; simp [lazyMapList]
      | cons c cs ihl =>
        intro hl i
        rw [lazyMapList, lazyMapList, ih c (hl c (by simp)) (i :: p) fun q hq => h q ((List.suffix_cons i p).trans hq),
          ihl (fun d hd => hl d (by simp [hd])) (i + 1)]
    rw [lazyMap, lazyMap, h p (List.suffix_refl p), list ss (fun _ h => h) 0]

theorem lazyMapList_congr {γ : Type} (f : α → σ → Outcome γ) {o o' : List Nat → σ} (ss : List (Shr α)) (p : List Nat) (i : Nat)
    (h : ∀ j q, i ≤ j → (j :: p) <:+ q → o q = o' q) : lazyMapList f o p i ss = lazyMapList f o' p i ss := by
  induction ss generalizing i with
  | nil => simp [lazyMapList]
  | cons c cs ih =>
    rw [lazyMapList, lazyMapList, lazyMap_congr f c (i :: p) fun q hq => h i q le_rfl hq,
      ih (i + 1) fun j q hj hq => h j q (by omega) hq]

/-- One oracle for the first element of a stream, another one for the rest. -/
theorem oracle_cons {γ : Type} (f : α → σ → Outcome γ) (c : Shr α) (cs : List (Shr α)) (p : List Nat) (i : Nat)
    (o₁ o₂ : List Nat → σ) : ∃ o, lazyMap f o (i :: p) c = lazyMap f o₁ (i :: p) c ∧
      lazyMapList f o p (i + 1) cs = lazyMapList f o₂ p (i + 1) cs := by
  classical
  refine ⟨fun q => if (i :: p) <:+ q then o₁ q else o₂ q, lazyMap_congr f c _ fun q hq => if_pos hq,
    lazyMapList_congr f cs p (i + 1) fun j q hj hq => if_neg fun hq' => ?_⟩
  have h := List.suffix_of_suffix_length_le hq hq' (by simp)
  have := h.eq_of_length (by simp)
  simp only [List.cons.injEq, and_true] at this
  omega

/-! ### Shrinking with the engine -/

/-- The shrinks of a node whose first component is `c`, for an oracle. -/
def Offers (f : α → Gen σ β) (fails : α × β → Bool) (c : Shr α) (u : Shr β) (r : α × β) : Prop :=
  ∀ p, ∃ o, (fun x : α × Shr β => (x.1, x.2.value))
    (((node (c.value, u) (lazyMapList (inter f) o p 0 c.shrinks)).andThen expand).greedy fun x => fails (x.1, x.2.value)) = r

theorem evalShrink_ok {f : α → Gen σ β} {c : Shr α} {s s' : σ} {u : Shr β} (h : evalShrink f c s = .ok (u, s')) :
    ∃ s1, f c.value s = .ok (u, s1) ∧ peek f c.shrinks s1 = .ok s' := by
  unfold evalShrink at h
  obtain ⟨⟨u1, s1⟩, h1, h⟩ := Outcome.bind_eq_ok.mp h
  obtain ⟨s2, h2, h⟩ := Outcome.bind_eq_ok.mp h
  cases h
  exact ⟨s1, h1, h2⟩

theorem lazyMap_root {f : α → Gen σ β} {c : Shr α} {s s1 : σ} {u : Shr β} (h : f c.value s = .ok (u, s1)) (o : List Nat → σ)
    (p : List Nat) (ho : o p = s) :
    lazyMap (inter f) o p c = some (node (c.value, u) (lazyMapList (inter f) o p 0 c.shrinks)) := by
  obtain ⟨v, ss⟩ := c
  rw [lazyMap]
  simp only [value_node] at h
  simp [inter, ho, h]

/-- What the search finds, in terms of trees. -/
theorem search_ok {f : α → Gen σ β} {fails : α × β → Bool} {cur : α × β} (w : α × Shr β) (hw : (w.1, w.2.value) = cur)
    (ss : List (Shr α))
    (ih : ∀ c ∈ ss, ∀ u s r s', walk f fails c u s = .ok (r, s') → Offers f fails c u r)
    (pend : Option ((α × β) × (σ → Outcome ((α × β) × σ)))) (s s' : σ) (r : α × β)
    (h : search f fails cur ss pend s = .ok (r, s')) :
    (∃ x s1, pend = some x ∧ fails x.1 = true ∧ x.2 s1 = .ok (r, s')) ∨
    ((∀ x, pend = some x → fails x.1 = false) ∧ ∀ p i, ∃ o, (fun x : α × Shr β => (x.1, x.2.value))
      (greedyList (fun x => fails (x.1, x.2.value)) w ((lazyMapList (inter f) o p i ss).map (andThen expand))) = r ∧
      (ss ≠ [] → lazyMapList (inter f) o p i ss ≠ [])) := by
  induction ss generalizing pend s with
  | nil =>
    cases pend with
    | none =>
      rw [search] at h
      cases h
      exact .inr ⟨fun x hx => (by cases hx), fun p i => ⟨fun _ => s', by simpa [lazyMapList, greedyList] using hw, fun h => absurd rfl h⟩⟩
    | some x =>
      rw [search] at h
      split at h
      · next hx => exact .inl ⟨x, s, rfl, hx, h⟩
      · next hx =>
        cases h
        exact .inr ⟨fun y hy => (by cases hy; simpa using hx),
          fun p i => ⟨fun _ => s', by simpa [lazyMapList, greedyList] using hw, fun h => absurd rfl h⟩⟩
  | cons c cs ihl =>
    have key : ∀ u s0 s1, evalShrink f c s0 = .ok (u, s1) →
        search f fails cur cs (some ((c.value, u.value), fun s => walk f fails c u s)) s1 = .ok (r, s') →
        ∀ p i, ∃ o, (fun x : α × Shr β => (x.1, x.2.value))
          (greedyList (fun x => fails (x.1, x.2.value)) w ((lazyMapList (inter f) o p i (c :: cs)).map (andThen expand))) = r ∧
          (c :: cs ≠ [] → lazyMapList (inter f) o p i (c :: cs) ≠ []) := by
      intro u s0 s1 he h p i
      obtain ⟨s2, hf, -⟩ := evalShrink_ok he
      rcases ihl (fun d hd => ih d (by simp [hd])) _ _ h with ⟨x, s3, hx, hfx, hk⟩ | ⟨hp, ho⟩
      · cases hx
        obtain ⟨o, ho⟩ := ih c (by simp) u s3 r s' hk (i :: p)
        obtain ⟨o', h1, -⟩ := oracle_cons (inter f) c cs p i (fun q => if q = i :: p then s0 else o q) o
        have hroot := lazyMap_root hf (fun q => if q = i :: p then s0 else o q) (i :: p) (by simp)
        refine ⟨o', ?_, fun _ => by rw [lazyMapList, h1, hroot]; simp⟩
        rw [lazyMapList, h1, hroot]
        have hl : lazyMapList (inter f) (fun q => if q = i :: p then s0 else o q) (i :: p) 0 c.shrinks =
            lazyMapList (inter f) o (i :: p) 0 c.shrinks :=
          lazyMapList_congr _ _ _ _ fun j q _ hq => if_neg fun e => by
            have := hq.length_le
            simp [e] at this
        simp only [List.map_cons, greedyList, value_andThen, value_node]
        rw [if_pos hfx, hl]
        exact ho
      · have hfx := hp _ rfl
        obtain ⟨o, ho, -⟩ := ho p (i + 1)
        obtain ⟨o', h1, h2⟩ := oracle_cons (inter f) c cs p i (fun _ => s0) o
        have hroot := lazyMap_root hf (fun _ => s0) (i :: p) rfl
        refine ⟨o', ?_, fun _ => by rw [lazyMapList, h1, hroot]; simp⟩
        rw [lazyMapList, h1, hroot]
        simp only [List.map_cons, greedyList, value_andThen, value_node]
        simp only at hfx
        rw [if_neg (by simp [hfx]), h2]
        exact ho
    cases pend with
    | none =>
      rw [search] at h
      obtain ⟨⟨u, s1⟩, he, h⟩ := Outcome.bind_eq_ok.mp h
      exact .inr ⟨fun x hx => (by cases hx), key u s s1 he h⟩
    | some x =>
      rw [search] at h
      obtain ⟨⟨u, s1⟩, he, h⟩ := Outcome.bind_eq_ok.mp h
      dsimp only at h
      split at h
      · next hx => exact .inl ⟨x, s1, rfl, hx, h⟩
      · next hx => exact .inr ⟨fun y hy => (by cases hy; simpa using hx), key u s s1 he h⟩

theorem walk_ok {f : α → Gen σ β} {fails : α × β → Bool} (t : Shr α) : ∀ (u : Shr β) (s : σ) (r : α × β) (s' : σ),
    walk f fails t u s = .ok (r, s') → Offers f fails t u r := by
  induction t using Shr.ind with
  | h v ss ih =>
    intro u s r s' h p
    rw [walk] at h
    split at h
    · next hs =>
      cases h
      rw [List.isEmpty_iff] at hs
      subst hs
      refine ⟨fun _ => s, ?_⟩
      obtain ⟨b, us⟩ := u
      simp only [value_node, shrinks_node, lazyMapList, andThen, expand, List.isEmpty_nil, if_true]
      rw [flatMap_eq_map, map_node, shrinks_node]
      rw [greedy, greedy]
      have key : ∀ (l : List (Shr β)) (w : Shr β), (fun x : α × Shr β => (x.1, x.2.value))
          (greedyList (fun x : α × Shr β => fails (x.1, x.2.value)) (v, w) (l.map (Shr.map fun u => (leaf (v, leaf u)).value))) =
          (v, greedyList (fun b => fails (v, b)) w.value l) := by
        intro l
        induction l with
        | nil => intro w; rfl
        | cons c cs ihl =>
          intro w
          simp only [List.map_cons, greedyList, value_map]
          split
          · next hc =>
            rw [if_pos (by simpa [leaf] using hc), greedy_map]
            rfl
          · next hc =>
            rw [if_neg (by simpa [leaf] using hc)]
            exact ihl w
      exact key us (node b us)
    · next hs =>
      rw [List.isEmpty_iff] at hs
      rcases search_ok (v, u) rfl ss (fun c hc u s r s' h => ih c hc u s r s' h) none s s' r h with ⟨x, _, hx, -⟩ | ⟨-, ho⟩
      · cases hx
      · obtain ⟨o, ho, hne⟩ := ho p 0
        refine ⟨o, ?_⟩
        rw [← ho]
        simp only [value_node, shrinks_node, andThen, List.isEmpty_iff, hne hs, if_false, greedy, andThenList_eq]

/-! ### C179 -/

/-- **C179** The part that holds: while the engine lives, as it does in `forAll`, shrinking a dependent pair ends at the value
where it ends in a tree of shrinks that `dependency` (C38, C85, C86) makes, whatever the evaluation of the shrinks draws in
between. Missing: other uses, see below. -/
theorem C179_forAll_partial (gen1 : Gen σ α) (f : α → Gen σ β) (fails : α × β → Bool) (s s' : σ) (r : α × β)
    (h : shrinkPair gen1 f fails s = .ok (r, s')) :
    ∃ o t s'', dependency gen1 f o s = .ok (t, s'') ∧ t.greedy fails = r := by
  unfold shrinkPair at h
  obtain ⟨⟨t, s1⟩, h1, h⟩ := Outcome.bind_eq_ok.mp h
  obtain ⟨⟨u, s2⟩, h2, h⟩ := Outcome.bind_eq_ok.mp h
  obtain ⟨s3, h3, h⟩ := Outcome.bind_eq_ok.mp h
  obtain ⟨o, ho⟩ := walk_ok t u s3 r s' h []
  refine ⟨o, _, s3, by
    unfold dependency dependent; rw [h1]; simp only [Outcome.ok_bind]; rw [h2]; simp only [Outcome.ok_bind]; rw [h3]; rfl, ?_⟩
  rw [flatMap_eq_map, greedy_map]
  exact ho

/-- A number up to 3 and one up to it, for a property that fails from a sum of 2 on. The engine goes on
with 0, 0, 1, 0, 1, 1 while the shrinks are evaluated. -/
example : (match shrinkPair (interval script u8 0 3) (fun n => interval script u8 0 n) (fun x => decide (2 ≤ x.1 + x.2))
    [3, 2, 0, 0, 1, 0, 1, 1] with | .ok (r, s) => some (r, s) | _ => none) = some ((1, 1), [1, 1]) := by
  decide +kernel

theorem onRef_bind {α' β' : Type} (x : Outcome (α' × σ)) (k : α' × σ → Outcome (β' × σ)) (k' : α' × Option σ → Outcome (β' × Option σ))
    (hk : ∀ a s, k' (a, some s) = (k (a, s)).bind fun r => .ok (r.1, some r.2)) :
    ((x.bind fun r => .ok (r.1, some r.2)) >>= k') = (x >>= k).bind fun r => .ok (r.1, some r.2) := by
  cases x with
  | ok r => exact hk r.1 r.2
  | _ => rfl

theorem onRef_peek (f : α → Gen σ β) (ss : List (Shr α)) (s : σ) :
    peek (fun v => onRef (f v)) ss (some s) = (peek f ss s).bind fun s => .ok (some s) := by
  cases ss with
  | nil => rfl
  | cons c cs =>
    simp only [peek, onRef]
    cases f c.value s <;> rfl

theorem onRef_evalShrink (f : α → Gen σ β) (c : Shr α) (s : σ) :
    evalShrink (fun v => onRef (f v)) c (some s) = (evalShrink f c s).bind fun r => .ok (r.1, some r.2) := by
  refine onRef_bind (f c.value s) _ _ fun u s => ?_
  simp only [onRef_peek]
  cases peek f c.shrinks s <;> rfl

mutual
theorem onRef_walk (f : α → Gen σ β) (fails : α × β → Bool) : ∀ (t : Shr α) (u : Shr β) (s : σ),
    walk (fun v => onRef (f v)) fails t u (some s) = (walk f fails t u s).bind fun r => .ok (r.1, some r.2)
  | node v ss, u, s => by
    rw [walk, walk]
    split
    · rfl
    · exact onRef_search f fails (v, u.value) ss none none trivial s
theorem onRef_search (f : α → Gen σ β) (fails : α × β → Bool) (cur : α × β) : ∀ (cs : List (Shr α))
    (x : Option ((α × β) × (σ → Outcome ((α × β) × σ)))) (y : Option ((α × β) × (Option σ → Outcome ((α × β) × Option σ))))
    (_ : match x, y with
      | none, none => True
      | some x, some y => x.1 = y.1 ∧ ∀ s, y.2 (some s) = (x.2 s).bind fun r => .ok (r.1, some r.2)
      | _, _ => False) (s : σ),
    search (fun v => onRef (f v)) fails cur cs y (some s) = (search f fails cur cs x s).bind fun r => .ok (r.1, some r.2)
  | [], none, none, _, s => by rw [search, search]; rfl
  | [], some x, some y, h, s => by
    rw [search, search, h.1]
    split
    · exact h.2 s
    · rfl
  | c :: cs, none, none, _, s => by
    rw [search, search, onRef_evalShrink]
    refine onRef_bind _ _ _ fun u s => ?_
    exact onRef_search f fails cur cs (some ((c.value, u.value), _)) (some ((c.value, u.value), _))
        ⟨rfl, fun s => onRef_walk f fails c u s⟩ s
  | c :: cs, some x, some y, h, s => by
    rw [search, search, onRef_evalShrink]
    refine onRef_bind _ _ _ fun u s => ?_
    rw [h.1]
    dsimp only
    split
    · exact h.2 s
    · exact onRef_search f fails cur cs (some ((c.value, u.value), _)) (some ((c.value, u.value), _))
        ⟨rfl, fun s => onRef_walk f fails c u s⟩ s
end

/-- **C179** As long as the engine exists a reference to it is as good as the engine: the same shrinks, the same result of the search,
the same numbers drawn. -/
theorem C179_alive (gen1 : Gen σ α) (f : α → Gen σ β) (fails : α × β → Bool) (s : σ) :
    (∀ t, look (fun v => onRef (f v)) t (some s) = (look f t s).bind fun r => .ok (r.1, some r.2)) ∧
    shrinkPair (onRef gen1) (fun v => onRef (f v)) fails (some s) = (shrinkPair gen1 f fails s).bind fun r => .ok (r.1, some r.2) := by
  constructor
  · rintro ⟨v, _ | ⟨c, cs⟩⟩
    · rfl
    · simp only [look, Shr.shrinks, onRef_evalShrink]
      cases evalShrink f c s <;> rfl
  · refine onRef_bind (gen1 s) _ _ fun t s => ?_
    refine onRef_bind (f t.value s) _ _ fun u s => ?_
    simp only [onRef_peek]
    cases peek f t.shrinks s with
    | ok s => exact onRef_walk f fails t u s
    | _ => rfl

/-- The generator above, with a reference to the engine. -/
example : (match shrinkPair (onRef (interval script u8 0 3)) (fun n => onRef (interval script u8 0 n))
    (fun x => decide (2 ≤ x.1 + x.2)) (some [3, 2, 0, 0, 1, 0, 1, 1]) with | .ok (r, s) => some (r, s) | _ => none) =
    some ((1, 1), some [1, 1]) := by decide +kernel

/-- **C179** Also without the engine, if the first component has no shrinks: then nothing is drawn. -/
theorem C179_single_partial (f : α → Gen σ β) (v : α) (u : Shr β) (fails : α × β → Bool) :
    look (fun v => onRef (f v)) (leaf v) none = .ok (none, none) ∧
    walk (fun v => onRef (f v)) fails (leaf v) u none = .ok ((v, u.greedy fun b => fails (v, b)), none) := by
  constructor
  · rfl
  · rw [leaf, walk]
    rfl

/-- **C179** is violated: once the engine is gone, looking at the shrinks of a dependent pair is undefined behaviour, unless
its first component has none. -/
theorem C179_gone_violated (f : α → Gen σ β) (t : Shr α) (h : t.shrinks ≠ []) :
    look (fun v => onRef (f v)) t none = .ub ∧
    ∀ (u : Shr β) (fails : α × β → Bool), walk (fun v => onRef (f v)) fails t u none = .ub := by
  obtain ⟨v, ss⟩ := t
  cases ss with
  | nil => exact absurd rfl h
  | cons c cs =>
    refine ⟨rfl, fun u fails => ?_⟩
    rw [walk, if_neg (by simp), search]
    rfl

/-- The pair (3, 2) of the generator above, made with an engine that a function has declared and returned from. -/
example : ∃ t s, onRef (interval script u8 0 3) (some [3, 2, 0]) = .ok (t, s) ∧ t.value = 3 ∧ t.shrinks ≠ [] :=
  ⟨_, _, rfl, rfl, by simp⟩

/-- **C179** is violated: looking at the shrinks of a dependent pair draws from the engine, namely what the second generator
draws for the first shrink and for the first shrink of that. -/
theorem C179_looking_violated (f : α → Gen σ β) (t c : Shr α) (cs : List (Shr α)) (ht : t.shrinks = c :: cs) (u : Shr β)
    (s s1 s2 : σ) (h1 : f c.value s = .ok (u, s1))
    (h2 : (c.shrinks = [] ∧ s2 = s1) ∨ ∃ d ds x, c.shrinks = d :: ds ∧ f d.value s1 = .ok (x, s2)) :
    look f t s = .ok (some (c.value, u), s2) := by
  unfold look evalShrink
  rw [ht]
  simp only [h1, Outcome.ok_bind]
  rcases h2 with ⟨h2, rfl⟩ | ⟨d, ds, x, h2, h3⟩
  · rw [h2]; rfl
  · rw [h2, peek, h3]; rfl

/-- So the value generated next depends on whether somebody has looked: 7 or 5. -/
theorem C179_next_violated : ∃ (t : Shr Int) (s s' : List Int) (r : Option (Int × Shr Int)),
    dependency (interval script u8 0 1) (fun _ => interval script u8 0 3) (fun _ => []) [1, 3, 2, 7, 5] =
      .ok (node (1, 3) [leaf (0, 0)], s) ∧ interval script u8 0 1 [1, 3, 2, 7, 5] = .ok (t, [3, 2, 7, 5]) ∧
    look (fun _ => interval script u8 0 3) t s = .ok (r, s') ∧
    (∃ x s'', interval script u8 0 9 s = .ok (x, s'') ∧ x.value = 7) ∧
    (∃ x s'', interval script u8 0 9 s' = .ok (x, s'') ∧ x.value = 5) :=
  ⟨_, _, _, _, rfl, rfl, rfl, ⟨_, _, rfl, rfl⟩, _, _, rfl, rfl⟩

/-- **C179** is violated: already generating a dependent pair generates a second component for the first shrink of its first
component. If that throws, the pair is not generated, although it could be. -/
theorem C179_generation_violated (gen1 : Gen σ α) (f : α → Gen σ β) (o : List Nat → σ) (s s1 s2 : σ) (t c : Shr α)
    (cs : List (Shr α)) (u : Shr β) (h1 : gen1 s = .ok (t, s1)) (h2 : f t.value s1 = .ok (u, s2)) (ht : t.shrinks = c :: cs) :
    (∀ e, f c.value s2 = .throws e → dependency gen1 f o s = .throws e) ∧
    (∀ x s3, f c.value s2 = .ok (x, s3) → ∃ r, dependency gen1 f o s = .ok (r, s3) ∧ r.value = (t.value, u.value)) := by
  constructor
  · intro e he
    unfold dependency dependent
    rw [h1]; simp only [Outcome.ok_bind]; rw [h2]; simp only [Outcome.ok_bind]; rw [ht, peek, he]
    rfl
  · intro x s3 he
    refine ⟨_, by
      unfold dependency dependent
      rw [h1]; simp only [Outcome.ok_bind]; rw [h2]; simp only [Outcome.ok_bind]; rw [ht, peek, he]
      rfl, by simp [value_flatMap, leaf]⟩

/-- A second generator that does not accept 0 is asked for it nevertheless, after 1. -/
example : let f : Int → Gen (List Int) Int := fun n s => if n = 0 then .throws .discard else interval script u8 0 n s
    (∃ t c cs u s1 s2, interval script u8 0 3 [1, 1, 0] = .ok (t, s1) ∧ f t.value s1 = .ok (u, s2) ∧ t.shrinks = c :: cs ∧
      f c.value s2 = .throws .discard) ∧
    dependency (interval script u8 0 3) f (fun _ => []) [1, 1, 0] = .throws .discard :=
  ⟨⟨_, _, _, _, _, _, rfl, rfl, rfl, rfl⟩, rfl⟩

/-- **C179** is violated: if the first generator returns with probability `p`, always a value with shrinks, and the second one
with probability `q`, a pair is generated with probability `p * q * q`, not `p * q`. -/
theorem C179_returns_violated (g1 : Src (Shr α)) (g2 : α → Src (Shr β)) (o : ∀ σ : Type, Rng σ → σ → List Nat → σ) (p q : ℚ)
    (h1 : Chance g1 (fun _ => true) p) (h2 : ∀ v, Chance (g2 v) (fun _ => true) q)
    (h3 : ∀ t, Src.Makes g1 t → t.shrinks ≠ []) :
    Chance (valueOnly fun σ R s => dependency (g1 σ R) (fun v => g2 v σ R) (o σ R s) s) (fun _ => true) (p * q * q) := by
  obtain ⟨e1, he1, rfl⟩ := h1
  choose e2 he2 hm using h2
  refine ⟨_, follows_dependent he1 he2 o (fun a b => (a, b)) (fun p => leaf (p.1, p.2.value)) (fun _ => rfl) _
    (fun _ _ _ => rfl), ?_⟩
  rw [hit_eq, mean_andThen]
  have := mean_and e1 (fun _ => true) (q * q)
  rw [show e1.mean (hit fun _ => true) * q * q = q * q * e1.mean (hit fun _ => true) by ring, ← this]
  refine Exp.mean_congrIn (fun o ho => ?_) he1.made
  cases o with
  | ok t =>
    obtain ⟨c, cs, hc⟩ : ∃ c cs, t.shrinks = c :: cs := by
      cases h : t.shrinks with
      | nil => exact absurd h (h3 t (ho t rfl))
      | cons c cs => exact ⟨c, cs, rfl⟩
    simp only [val, if_true]
    rw [mean_andThen, hc]
    have hc' : ∀ x : α × β, ((peekExp e2 (c :: cs)).andThen fun _ => .ret (.ok x)).mean (val fun _ => (1 : ℚ)) = q := by
      intro x
      rw [mean_andThen, peekExp, mean_andThen, ← hm c.value, hit_eq]
      simp [Exp.mean, val]
    have := mean_and (e2 t.value) (fun _ => true) q
    rw [hm t.value] at this
    rw [← this]
    simp only [if_true, hc']
  | throws x => rfl
  | ub => rfl
  | diverges => rfl

/-- A second generator that throws dice and discards all but sixes: one pair in 36 attempts, not one in 6. -/
example (o : ∀ σ : Type, Rng σ → σ → List Nat → σ) :
    Chance (valueOnly fun σ R s => dependency (fun s => .ok (node true [leaf false], s))
      (fun _ s => die σ R s >>= fun r => if r.1.value = 6 then .ok (r.1, r.2) else .throws .discard) (o σ R s) s)
      (fun _ => true) (1 / 36) := by
  have hd := die_chance (fun v => decide (v = 6)) 1 (by decide)
  have h6 : Chance (fun σ R s => die σ R s >>= fun r => if r.1.value = 6 then .ok (r.1, r.2) else .throws .discard)
      (fun _ => true) (1 / 6) := by
    obtain ⟨e, he, hm⟩ := hd
    refine ⟨_, (he.bind fun t => Follows.const (if t.value = 6 then .ok t else .throws .discard)).congr fun σ R s => ?_, ?_⟩
    · cases die σ R s with
      | ok r =>
        simp only [Outcome.ok_bind]
        split_ifs <;> rfl
      | _ => rfl
    · rw [hit_eq, mean_andThen]
      norm_num at hm
      rw [← hm, hit_eq]
      congr 2
      funext t
      by_cases ht : t.value = 6 <;> simp [ht, Exp.mean, val]
  have := C179_returns_violated (fun _ _ s => .ok (node true [leaf false], s))
    (fun _ σ R s => die σ R s >>= fun r => if r.1.value = 6 then .ok (r.1, r.2) else .throws .discard) o 1 (1 / 6)
    ⟨_, Follows.pure _, rfl⟩ (fun _ => h6) (fun t ⟨_, _, _, _, ht⟩ => by cases ht; simp)
  norm_num at this ⊢
  exact this

end Drawing
end Verif
