import Verif.Lemmas.MapCommutes
import Verif.Spec.Tree
/-
C195: filtering twice, with both conditions, and with conditions that hold.
-/
namespace Verif
namespace Comb
open Shr
variable {σ α : Type}

/-- What a generated value and the engine are afterwards, without the shrinks. -/
def bare (o : Outcome (Shr α × σ)) : Outcome (α × σ) := o.bind fun r => .ok (r.1.value, r.2)

theorem bare_filter_succ (g : Gen σ α) (c : α → Bool) (n : Nat) (s : σ) :
    bare (filter g c (n + 1) s) = (bare (g s)).bind fun r => if c r.1 then .ok r else bare (filter g c n r.2) := by
  simp only [filter, bare]
  cases g s with
  | ok x =>
    simp only [Outcome.ok_bind, Outcome.bind]
    by_cases h : c x.1.value
    · simp [h, filterTol]
    · simp [h]
  | _ => rfl

theorem bare_filter_more (g : Gen σ α) (c : α → Bool) (n m : Nat) (hm : n ≤ m) (s : σ) (h : bare (filter g c n s) ≠ .diverges) :
    bare (filter g c m s) = bare (filter g c n s) := by
  induction n generalizing m s with
  | zero => exact absurd rfl h
  | succ n ih =>
    obtain ⟨m, rfl⟩ : ∃ k, m = k + 1 := ⟨m - 1, by omega⟩
    rw [bare_filter_succ] at h ⊢
    rw [bare_filter_succ]
    cases hg : bare (g s) with
    | ok x =>
      simp only [hg, Outcome.bind] at h ⊢
      split
      · rfl
      · rename_i hc
        simp only [hc, Bool.false_eq_true, ↓reduceIte] at h
        exact ih m (by omega) x.2 h
    | _ => rfl

/-- More attempts for the inner filter change nothing. -/
theorem bare_inner_more (g : Gen σ α) (c d : α → Bool) (n n' m : Nat) (hn : n ≤ n') (s : σ)
    (h : bare (filter (filter g c n) d m s) ≠ .diverges) :
    bare (filter (filter g c n') d m s) = bare (filter (filter g c n) d m s) := by
  induction m generalizing s with
  | zero => rfl
  | succ m ih =>
    rw [bare_filter_succ] at h ⊢
    rw [bare_filter_succ]
    have h1 : bare (filter g c n s) ≠ .diverges := by
      intro e; rw [e] at h; exact h rfl
    rw [bare_filter_more g c n n' hn s h1]
    cases hg : bare (filter g c n s) with
    | ok x =>
      simp only [hg, Outcome.bind] at h ⊢
      split
      · rfl
      · rename_i hc
        simp only [hc, Bool.false_eq_true, ↓reduceIte] at h
        exact ih x.2 h
    | _ => rfl

/-- **C195, values.** Filtering by a condition and then by another is filtering by both: whatever comes out of one of them (a value and
the state of the engine, an exception, undefined behaviour) after enough attempts comes out of the other one after enough attempts. -/
theorem C195_values (g : Gen σ α) (c d : α → Bool) (s : σ) (o : Outcome (α × σ)) (ho : o ≠ .diverges) :
    (∃ n m, bare (filter (filter g c n) d m s) = o) ↔ ∃ k, bare (filter g (fun v => c v && d v) k s) = o := by
  constructor
  · rintro ⟨n, m, h⟩
    induction m generalizing s with
    | zero => exact absurd h.symm ho
    | succ m ih =>
      rw [bare_filter_succ] at h
      have key : ∀ (j : Nat) (s : σ), ((bare (filter g c j s)).bind fun r => if d r.1 then .ok r else
          bare (filter (filter g c n) d m r.2)) = o → ∃ k, bare (filter g (fun v => c v && d v) k s) = o := by
        intro j
        induction j with
        | zero => intro s h; exact absurd h.symm ho
        | succ j ihj =>
          intro s h
          rw [bare_filter_succ] at h
          cases hg : bare (g s) with
          | ok x =>
            simp only [hg, Outcome.bind] at h
            by_cases hc : c x.1
            · by_cases hd : d x.1
              · simp only [hc, hd, ↓reduceIte] at h
                exact ⟨1, by rw [bare_filter_succ, hg]; simp [Outcome.bind, hc, hd, h]⟩
              · simp only [hc, hd, ↓reduceIte] at h
                obtain ⟨k, hk⟩ := ih x.2 h
                exact ⟨k + 1, by rw [bare_filter_succ, hg]; simp [Outcome.bind, hc, hd, hk]⟩
            · simp only [hc] at h
              obtain ⟨k, hk⟩ := ihj x.2 (by simpa [Outcome.bind] using h)
              exact ⟨k + 1, by rw [bare_filter_succ, hg]; simp [Outcome.bind, hc, hk]⟩
          | throws e => exact ⟨1, by rw [bare_filter_succ, hg]; simpa [hg, Outcome.bind] using h⟩
          | ub => exact ⟨1, by rw [bare_filter_succ, hg]; simpa [hg, Outcome.bind] using h⟩
          | diverges => exact absurd (by simpa [hg, Outcome.bind] using h.symm) ho
      exact key n s h
  · rintro ⟨k, h⟩
    induction k generalizing s with
    | zero => exact absurd h.symm ho
    | succ k ih =>
      rw [bare_filter_succ] at h
      cases hg : bare (g s) with
      | ok x =>
        simp only [hg, Outcome.bind] at h
        by_cases hc : c x.1
        · by_cases hd : d x.1
          · refine ⟨1, 1, ?_⟩
            rw [bare_filter_succ, bare_filter_succ, hg]
            simp only [hc, hd, Bool.and_self, ↓reduceIte] at h
            subst h
            simp [Outcome.bind, hc, hd]
          · obtain ⟨n, m, h'⟩ := ih x.2 (by simpa [hc, hd] using h)
            refine ⟨n + 1, m + 1, ?_⟩
            rw [bare_filter_succ, bare_filter_succ, hg]
            simp only [Outcome.bind, hc, hd, ↓reduceIte, Bool.false_eq_true]
            rw [bare_inner_more g c d n (n + 1) m (by omega) x.2 (by rw [h']; exact ho), h']
        · obtain ⟨n, m, h'⟩ := ih x.2 (by simpa [hc] using h)
          refine ⟨n + 1, m, ?_⟩
          cases m with
          | zero => exact absurd h'.symm ho
          | succ m =>
            rw [bare_filter_succ] at h' ⊢
            rw [bare_filter_succ, hg]
            simp only [Outcome.bind, hc, ↓reduceIte, Bool.false_eq_true] at h' ⊢
            cases hi : bare (filter g c n x.2) with
            | ok y =>
              simp only [hi] at h' ⊢
              split
              · rename_i hd
                simpa [hd] using h'
              · rename_i hd
                have h'' : bare (filter (filter g c n) d m y.2) = o := by simpa [hd] using h'
                rw [bare_inner_more g c d n (n + 1) m (by omega) y.2 (by rw [h'']; exact ho), h'']
            | _ => simpa [hi] using h'
      | throws e => exact ⟨1, 1, by rw [bare_filter_succ, bare_filter_succ, hg]; simpa [hg, Outcome.bind] using h⟩
      | ub => exact ⟨1, 1, by rw [bare_filter_succ, bare_filter_succ, hg]; simpa [hg, Outcome.bind] using h⟩
      | diverges => exact absurd (by simpa [hg, Outcome.bind] using h.symm) ho

/-- The first of a tree, its first shrink, the first shrink of that one and so on that satisfies the condition. -/
def firstOk (e : α → Bool) (t : Shr α) : Option (Shr α) :=
  if e t.value then some t
  else match h : t.shrinks with
    | [] => none
    | z :: _ => firstOk e z
termination_by nodes t
decreasing_by
  cases t
  simp only [shrinks] at h
  subst h
  simp only [nodes, nodes.go]
  omega

theorem firstOk_yes {e : α → Bool} {t : Shr α} (h : e t.value = true) : firstOk e t = some t := by
  rw [firstOk, if_pos h]

theorem firstOk_nil {e : α → Bool} {t : Shr α} (h : e t.value = false) (hs : t.shrinks = []) : firstOk e t = none := by
  rw [firstOk, if_neg (by simp [h])]
  split
  · rfl
  · simp_all

theorem firstOk_cons {e : α → Bool} {t z : Shr α} {zs : List (Shr α)} (h : e t.value = false) (hs : t.shrinks = z :: zs) :
    firstOk e t = firstOk e z := by
  rw [firstOk, if_neg (by simp [h])]
  split
  · simp_all
  · rename_i y ys hy
    rw [hs] at hy
    obtain ⟨rfl, _⟩ := List.cons.inj hy
    rfl

theorem filterStream_firstOk (e : α → Bool) (l : List (Shr α)) : filterStream e 1 l = l.filterMap (firstOk e) := by
  fun_induction filterStream e 1 l with
  | case1 => rfl
  | case2 s ss h ih => simp [firstOk_yes h, ih]
  | case3 s ss h ih =>
    have h : e s.value = false := by simpa using h
    rw [ih, List.filterMap_cons]
    cases hs : s.shrinks with
    | nil => simp [firstOk_nil h hs, takeInt]
    | cons z zs =>
      rw [firstOk_cons h hs]
      simp only [takeInt, one_ne_zero, ↓reduceIte, sub_self]
      cases zs <;> simp [takeInt, List.filterMap_cons]

theorem firstOk_both (c d : α → Bool) : ∀ (n : Nat) (s u : Shr α), nodes s ≤ n → firstOk (fun v => c v && d v) s = some u →
    ∃ s1, firstOk c s = some s1 ∧ firstOk d (filterTolKept c 1 s1) = some (filterTolKept c 1 u) := by
  intro n
  induction n with
  | zero => intro s u h; cases s; simp [nodes] at h
  | succ n ih =>
    intro s u hn hu
    by_cases hcd : (c s.value && d s.value) = true
    · rw [firstOk_yes (e := fun v => c v && d v) hcd] at hu
      obtain rfl := Option.some.inj hu
      simp only [Bool.and_eq_true] at hcd
      exact ⟨s, firstOk_yes hcd.1, firstOk_yes (by simpa using hcd.2)⟩
    · have hcd : (c s.value && d s.value) = false := by simpa using hcd
      cases hs : s.shrinks with
      | nil => rw [firstOk_nil (e := fun v => c v && d v) hcd hs] at hu; cases hu
      | cons z zs =>
        rw [firstOk_cons (e := fun v => c v && d v) hcd hs] at hu
        have hz : nodes z ≤ n := by
          cases s
          simp only [shrinks] at hs
          subst hs
          simp only [nodes, nodes.go] at hn
          omega
        obtain ⟨z1, h1, h2⟩ := ih z u hz hu
        by_cases hc : c s.value = true
        · have hd : d s.value = false := by simpa [hc] using hcd
          refine ⟨s, firstOk_yes hc, ?_⟩
          have : (filterTolKept c 1 s).shrinks = filterTolKept c 1 z1 :: (zs.filterMap (firstOk c)).map (filterTolKept c 1) := by
            simp [shrinks_filterTolKept, filterStream_firstOk, hs, h1]
          rw [firstOk_cons (by simpa using hd) this, h2]
        · exact ⟨z1, by rw [firstOk_cons (by simpa using hc) hs, h1], h2⟩

theorem reach_both (c d : α → Bool) (w : α) : ∀ (n : Nat) (t : Shr α), nodes t ≤ n →
    Reach (filterTolKept (fun v => c v && d v) 1 t) w → Reach (filterTolKept d 1 (filterTolKept c 1 t)) w := by
  intro n
  induction n with
  | zero => intro t h; cases t; simp [nodes] at h
  | succ n ih =>
    intro t hn hw
    rcases reach_iff.mp hw with h | ⟨r, hr, hw⟩
    · exact reach_iff.mpr (.inl (by simpa using h))
    · rw [shrinks_filterTolKept, List.mem_map] at hr
      obtain ⟨u, hu, rfl⟩ := hr
      have hun : nodes u ≤ n := by
        have h1 := nodes_lt_of_mem hu
        have h2 := nodes_go_filterStream (fun v => c v && d v) 1 t.shrinks
        cases t
        simp only [nodes, shrinks] at *
        omega
      rw [filterStream_firstOk, List.mem_filterMap] at hu
      obtain ⟨s, hs, hu⟩ := hu
      obtain ⟨s1, h1, h2⟩ := firstOk_both c d _ s u (Nat.le_refl _) hu
      refine Reach.child ?_ (ih u hun hw)
      simp only [shrinks_filterTolKept, filterStream_firstOk]
      refine List.mem_map.mpr ⟨_, List.mem_filterMap.mpr ⟨_, List.mem_map.mpr ⟨s1, List.mem_filterMap.mpr ⟨s, hs, h1⟩, rfl⟩, h2⟩, rfl⟩

/-- The generator of the shrinkables of another one, as values. -/
def asValues (g : Gen σ α) : Gen σ (Shr α) := fun s => (g s).bind fun r => .ok (leaf r.1, r.2)

theorem filter_asValues (g : Gen σ α) (c : α → Bool) (n : Nat) (s : σ) :
    filter g c n s = (bare (filter (asValues g) (fun t => c t.value) n s)).bind fun r => .ok (filterTolKept c 1 r.1, r.2) := by
  induction n generalizing s with
  | zero => rfl
  | succ n ih =>
    rw [bare_filter_succ]
    simp only [filter, bare, asValues]
    cases g s with
    | ok x =>
      simp only [Outcome.ok_bind, Outcome.bind, value_leaf]
      split
      · rename_i h
        simp [filterTol, h]
      · exact ih x.2
    | _ => rfl

theorem filter_asValues_twice (g : Gen σ α) (c d : α → Bool) (n m : Nat) (s : σ) :
    filter (filter g c n) d m s = (bare (filter (filter (asValues g) (fun t => c t.value) n) (fun t => d t.value) m s)).bind fun r =>
      .ok (filterTolKept d 1 (filterTolKept c 1 r.1), r.2) := by
  induction m generalizing s with
  | zero => rfl
  | succ m ih =>
    rw [bare_filter_succ]
    simp only [filter]
    rw [filter_asValues]
    cases bare (filter (asValues g) (fun t => c t.value) n s) with
    | ok x =>
      simp only [Outcome.ok_bind, Outcome.bind, value_filterTolKept]
      split
      · rename_i h
        simp [filterTol, h]
      · exact ih x.2
    | _ => rfl

/-- **C195, shrinks, partial.** A value filtered twice and a value filtered by both conditions, from the same state of the engine, are
the same value and leave the engine in the same state, and the values offered when shrinking the second are also offered when
shrinking the first. (The converse is not true, `C195_shrinks_violated`.) -/
theorem C195_shrinks_partial (g : Gen σ α) (c d : α → Bool) (n m k : Nat) (s s1 s2 : σ) (t t' : Shr α)
    (h1 : filter (filter g c n) d m s = .ok (t, s1)) (h2 : filter g (fun v => c v && d v) k s = .ok (t', s2)) :
    t.value = t'.value ∧ s1 = s2 ∧ ∀ w, Reach t' w → Reach t w := by
  rw [filter_asValues_twice] at h1
  rw [filter_asValues] at h2
  cases hb : bare (filter (filter (asValues g) (fun t => c t.value) n) (fun t => d t.value) m s) with
  | ok x =>
    obtain ⟨k', hk'⟩ := (C195_values (asValues g) (fun t => c t.value) (fun t => d t.value) s (.ok x) (by simp)).mp ⟨n, m, hb⟩
    cases hk : bare (filter (asValues g) (fun t => c t.value && d t.value) k s) with
    | ok y =>
      have e1 := bare_filter_more (asValues g) (fun t => c t.value && d t.value) k (max k k') (by omega) s (by rw [hk]; simp)
      have e2 := bare_filter_more (asValues g) (fun t => c t.value && d t.value) k' (max k k') (by omega) s (by rw [hk']; simp)
      rw [e2, hk, hk', Outcome.ok.injEq] at e1
      subst e1
      rw [hb] at h1
      rw [hk] at h2
      simp only [Outcome.bind, Outcome.ok.injEq, Prod.mk.injEq] at h1 h2
      obtain ⟨rfl, rfl⟩ := h1
      obtain ⟨rfl, rfl⟩ := h2
      exact ⟨by simp, rfl, fun w => reach_both c d w _ x.1 (Nat.le_refl _)⟩
    | _ => rw [hk] at h2; cases h2
  | _ => rw [hb] at h1; cases h1

/-- **C195, shrinks, violated.** The shrinks are not the same: a value that passes the first condition only is replaced by its first
shrink that passes the first condition, in the other case by its first shrink, whatever that is. For each first condition refused by
`x` and satisfied by three other values, and each second one refused by one of these, `y`, there is a shrinkable that can be
shrunk to `z` if it is filtered twice, but not if it is filtered by both. -/
theorem C195_shrinks_violated (c d : α → Bool) (v x y z : α) (hv : c v = true ∧ d v = true) (hx : c x = false)
    (hy : c y = true ∧ d y = false) (hz : c z = true ∧ d z = true) (hvz : v ≠ z) :
    ∃ g : Gen σ α, ∀ s, ∃ t t', filter (filter g c 1) d 1 s = .ok (t, s) ∧ filter g (fun v => c v && d v) 1 s = .ok (t', s) ∧
      Reach t z ∧ ¬ Reach t' z := by
  have k2 : ∀ w ss, (filterTolKept d 1 (.node w ss)) = .node w ((ss.filterMap (firstOk d)).map (filterTolKept d 1)) := fun w ss =>
    ext_value_shrinks (by simp) (by simp [filterStream_firstOk])
  refine ⟨fun s => .ok (.node v [.node y [.leaf x, .leaf z]], s), fun s => ?_⟩
  have e1 : filterTolKept c 1 (.node v [.node y [.leaf x, .leaf z]]) = .node v [.node y [.leaf z]] := by
    refine ext_value_shrinks (by simp) ?_
    have a1 : firstOk c (.node y [.leaf x, .leaf z]) = some (.node y [.leaf x, .leaf z]) := firstOk_yes hy.1
    have a2 : firstOk c (.leaf x : Shr α) = none := firstOk_nil hx rfl
    have a3 : firstOk c (.leaf z : Shr α) = some (.leaf z) := firstOk_yes hz.1
    have b : filterTolKept c 1 (.leaf z : Shr α) = .leaf z := ext_value_shrinks (by simp) (by simp [filterStream])
    have b' : filterTolKept c 1 (.node y [.leaf x, .leaf z]) = .node y [.leaf z] :=
      ext_value_shrinks (by simp) (by simp [filterStream_firstOk, a2, a3, b])
    simp [filterStream_firstOk, a1, b']
  have e2 : filterTolKept d 1 (.node v [.node y [.leaf z]]) = .node v [.leaf z] := by
    have a1 : firstOk d (.node y [.leaf z] : Shr α) = some (.leaf z) := by
      rw [firstOk_cons (zs := []) (z := .leaf z) hy.2 rfl, firstOk_yes (by exact hz.2)]
    have b : filterTolKept d 1 (.leaf z : Shr α) = .leaf z := ext_value_shrinks (by simp) (by simp [filterStream])
    exact ext_value_shrinks (by simp) (by simp [filterStream_firstOk, a1, b])
  have e3 : filterTolKept (fun v => c v && d v) 1 (.node v [.node y [.leaf x, .leaf z]]) = .leaf v := by
    have a1 : firstOk (fun v => c v && d v) (.node y [.leaf x, .leaf z] : Shr α) = none := by
      rw [firstOk_cons (zs := [.leaf z]) (z := .leaf x) (by simp [hy.2]) rfl, firstOk_nil (by simp [hx]) rfl]
    exact ext_value_shrinks (by simp) (by simp [filterStream_firstOk, a1])
  refine ⟨.node v [.leaf z], .leaf v, ?_, ?_, ?_, ?_⟩
  · simp [filter, filterTol, hv.1, hv.2, e1, e2]
  · simp [filter, filterTol, hv.1, hv.2, e3]
  · exact Reach.child (s := .leaf z) (by simp) (Reach.self _)
  · simpa using hvz

theorem filterTolKept_all (d : α → Bool) : ∀ (t : Shr α), (∀ w, Reach t w → d w = true) → filterTolKept d 1 t = t := by
  intro t
  induction t using Shr.ind with
  | h v ss ih =>
    intro h
    refine ext_value_shrinks (by simp) ?_
    have hs : ∀ s ∈ ss, d s.value = true := fun s hs => h _ (Reach.child (t := .node v ss) hs (Reach.self s))
    have e : ss.filterMap (firstOk d) = ss := by
      clear ih h
      induction ss with
      | nil => rfl
      | cons s ss ih => rw [List.filterMap_cons, firstOk_yes (hs s (by simp)), ih fun r hr => hs r (by simp [hr])]
    simp only [shrinks_filterTolKept, shrinks_node, filterStream_firstOk, e]
    conv => rhs; rw [← List.map_id ss]
    exact List.map_congr_left fun s hs => ih s hs fun w hw => h w (Reach.child (t := .node v ss) hs hw)

theorem reach_filtered {c : α → Bool} : ∀ (n : Nat) (t : Shr α), nodes t ≤ n → c t.value = true → ∀ w, Reach (filterTolKept c 1 t) w →
    c w = true := by
  intro n
  induction n with
  | zero => intro t h; cases t; simp [nodes] at h
  | succ n ih =>
    intro t hn hc w hw
    rcases reach_iff.mp hw with h | ⟨r, hr, hw⟩
    · rw [← h]; simpa using hc
    · rw [shrinks_filterTolKept, List.mem_map] at hr
      obtain ⟨u, hu, rfl⟩ := hr
      have h1 := nodes_lt_of_mem hu
      have h2 := nodes_go_filterStream c 1 t.shrinks
      have hcu : c u.value = true := by
        clear h1 h2 hw
        rw [filterStream_firstOk, List.mem_filterMap] at hu
        obtain ⟨s, hs, hu⟩ := hu
        clear hs
        fun_induction firstOk c s with
        | case1 s h => obtain rfl := Option.some.inj hu; exact h
        | case2 => cases hu
        | case3 s _ _ _ _ ih => exact ih hu
      refine ih u ?_ hcu w hw
      cases t
      simp only [nodes, shrinks] at *
      omega

/-- **C195, conditions that hold.** Filtering by a condition that follows from the condition filtered by before changes nothing: not the
values, not the shrinks, not the use of the engine. Filtering by a condition that all values and shrinks satisfy changes nothing. -/
theorem C195_implied (g : Gen σ α) (c d : α → Bool) (n m : Nat) :
    ((∀ v, c v = true → d v = true) → filter (filter g c n) d (m + 1) = filter g c n) ∧
    ((∀ t, g.Makes t → ∀ v, Reach t v → d v = true) → filter g d (m + 1) = g) := by
  have key : ∀ g : Gen σ α, (∀ t, g.Makes t → ∀ v, Reach t v → d v = true) → filter g d (m + 1) = g := by
    intro g h
    funext s
    simp only [filter]
    cases hg : g s with
    | ok x =>
      have hx := h x.1 ⟨s, x.2, hg⟩
      simp [filterTol, hx _ (Reach.self _), filterTolKept_all d x.1 hx]
    | _ => rfl
  refine ⟨fun h => key _ fun t ht v hv => h v ?_, key g⟩
  obtain ⟨s, s', hs⟩ := ht
  induction n generalizing s with
  | zero => cases hs
  | succ n ih =>
    simp only [filter] at hs
    cases hg : g s with
    | ok x =>
      rw [hg] at hs
      simp only [Outcome.ok_bind] at hs
      split at hs
      · rename_i hc
        simp only [filterTol, hc, ↓reduceIte, Outcome.ok_bind, Outcome.pure_eq, Outcome.ok.injEq, Prod.mk.injEq] at hs
        obtain ⟨rfl, rfl⟩ := hs
        exact reach_filtered _ x.1 (Nat.le_refl _) hc v hv
      · exact ih x.2 hs
    | _ => rw [hg] at hs; cases hs

/-- Even numbers that are not 2: 1, 2, 3 are refused. -/
private def counting : Gen Nat Nat := fun s => .ok (.node s [.node (s - 1) [.leaf (s - 2)], .leaf 0], s + 1)
example : bare (filter (filter counting (fun v => v % 2 == 0) 2) (fun v => v != 2) 2 1) = .ok (4, 5) := by decide +kernel
example : bare (filter counting (fun v => v % 2 == 0 && v != 2) 4 1) = .ok (4, 5) := by decide +kernel

/-- Conditions for `C195_shrinks_violated`: 5 is to be shrunk to 1. -/
example : ∃ g : Gen Nat Nat, ∀ s, ∃ t t', filter (filter g (fun v => v != 9) 1) (fun v => v != 3) 1 s = .ok (t, s) ∧
    filter g (fun v => v != 9 && v != 3) 1 s = .ok (t', s) ∧ Reach t 1 ∧ ¬ Reach t' 1 :=
  C195_shrinks_violated (fun v => v != 9) (fun v => v != 3) 5 9 3 1 (by decide) (by decide) (by decide) (by decide) (by decide)

/-- Multiples of 4 are even (`C195_implied`). -/
example : filter (filter counting (fun v => v % 4 == 0) 7) (fun v => v % 2 == 0) 1 = filter counting (fun v => v % 4 == 0) 7 :=
  (C195_implied counting (fun v => v % 4 == 0) (fun v => v % 2 == 0) 7 0).1 fun v h => by
    simp only [beq_iff_eq] at h ⊢; omega

end Comb
end Verif
