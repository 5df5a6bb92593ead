import Verif.Lemmas.PropertyRun
import Verif.Spec.Matrix
import Mathlib.Data.Fintype.Pi
import Mathlib.Data.Fintype.BigOperators
import Mathlib.Data.List.FinRange
/-
Helper lemmas about `example` and `matrix`.
-/
namespace Verif
namespace Engine
open PairTuple
variable {n : Nat} {A : Fin n → Type} {σ : Type}

theorem LexLt.irrefl (a : Fin n → Nat) : ¬ LexLt a a := fun ⟨_, _, h⟩ => by omega

theorem LexLt.trans {a b c : Fin n → Nat} (h1 : LexLt a b) (h2 : LexLt b c) : LexLt a c := by
  obtain ⟨M, h1, h1'⟩ := h1
  obtain ⟨N, h2, h2'⟩ := h2
  rcases lt_trichotomy M N with h | h | h
  · exact ⟨M, fun j hj => (h1 j hj).trans (h2 j (hj.trans h)), by rw [← h2 M h]; exact h1'⟩
  · subst h; exact ⟨M, fun j hj => (h1 j hj).trans (h2 j hj), h1'.trans h2'⟩
  · exact ⟨N, fun j hj => (h1 j (hj.trans h)).trans (h2 j hj), by rw [h1 N h]; exact h2'⟩

/-- All indices in range. -/
def InRange (lists : (i : Fin n) → List (A i)) (idx : Fin n → Nat) : Prop := ∀ i, idx i < (lists i).length

section
variable (lists : (i : Fin n) → List (A i))

theorem progressN_true (N : Fin n) (idx) : progressN lists N (true, idx) = (true, idx) := by
  simp [progressN]

theorem foldl_progress_true (l : List (Fin n)) (idx) :
    l.foldl (fun st N => progressN lists N st) (true, idx) = (true, idx) := by
  induction l with
  | nil => rfl
  | cons N l ih => rw [List.foldl_cons, progressN_true, ih]

/-- What `progress` does over a prefix of its steps. -/
theorem foldl_progress (l : List (Fin n)) (hl : l.Nodup) (idx : Fin n → Nat) :
    (∃ pre N post, l = pre ++ N :: post ∧ idx N + 1 < (lists N).length ∧
      (∀ j ∈ pre, (lists j).length ≤ idx j + 1) ∧
      l.foldl (fun st N => progressN lists N st) (false, idx) =
        (true, fun j => if j = N then idx N + 1 else if j ∈ pre then 0 else idx j)) ∨
    ((∀ j ∈ l, (lists j).length ≤ idx j + 1) ∧
      l.foldl (fun st N => progressN lists N st) (false, idx) = (false, fun j => if j ∈ l then 0 else idx j)) := by
  induction l generalizing idx with
  | nil => right; simp
  | cons M l ih =>
    rw [List.nodup_cons] at hl
    rw [List.foldl_cons]
    by_cases h : idx M + 1 < (lists M).length
    · left
      refine ⟨[], M, l, rfl, h, by simp, ?_⟩
      have e : progressN lists M (false, idx) = (true, Function.update idx M (idx M + 1)) := by
        simp only [progressN, Bool.false_eq_true, if_false]
        rw [if_pos (by omega)]
      rw [e, foldl_progress_true]
      congr 1
      funext j
      by_cases hj : j = M
      · subst hj; simp
      · simp [hj]
    · have e : progressN lists M (false, idx) = (false, Function.update idx M 0) := by
        simp only [progressN, Bool.false_eq_true, if_false]
        rw [if_neg (by omega)]
      rw [e]
      have hne : ∀ j ∈ l, j ≠ M := fun j hj hjm => hl.1 (hjm ▸ hj)
      rcases ih hl.2 (Function.update idx M 0) with ⟨pre, N, post, rfl, h1, h2, h3⟩ | ⟨h1, h2⟩
      · left
        have hN : N ≠ M := hne N (by simp)
        refine ⟨M :: pre, N, post, rfl, by simpa [hN] using h1, ?_, ?_⟩
        · intro j hj
          rcases List.mem_cons.mp hj with rfl | hj
          · omega
          · have := h2 j hj
            rwa [Function.update_of_ne (hne j (by simp [hj]))] at this
        · rw [h3]
          congr 1
          funext j
          by_cases hj : j = M
          · subst hj; simp [hN.symm]
          · simp [hj, hN]
      · right
        refine ⟨?_, ?_⟩
        · intro j hj
          rcases List.mem_cons.mp hj with rfl | hj
          · omega
          · have := h1 j hj
            rwa [Function.update_of_ne (hne j hj)] at this
        · rw [h2]
          congr 1
          funext j
          by_cases hj : j = M
          · subst hj; simp
          · simp [hj]

/-- `progress` either goes to the next index tuple or there is none. -/
theorem progress_spec (idx : Fin n → Nat) (hi : InRange lists idx) :
    (∃ idx', progress lists idx = (true, idx') ∧ InRange lists idx' ∧ LexLt idx idx' ∧
      ∀ t, InRange lists t → LexLt idx t → t = idx' ∨ LexLt idx' t) ∨
    (∃ idx', progress lists idx = (false, idx') ∧ ∀ t, InRange lists t → ¬ LexLt idx t) := by
  have hnd : (List.finRange n).reverse.Nodup := List.nodup_reverse.mpr (List.nodup_finRange n)
  rcases foldl_progress lists _ hnd idx with ⟨pre, N, post, hl, h1, h2, h3⟩ | ⟨h1, h2⟩
  · left
    -- the indices before `N` in the reversed list are the larger ones
    have hpw : (pre ++ N :: post).Pairwise (fun a b => b < a) := by
      rw [← hl, List.pairwise_reverse]
      exact List.pairwise_lt_finRange n
    have hpre : ∀ j, j ∈ pre ↔ N < j := by
      intro j
      rw [List.pairwise_append] at hpw
      constructor
      · intro hj
        exact hpw.2.2 j hj N (by simp)
      · intro hj
        have : j ∈ pre ++ N :: post := by rw [← hl]; simp
        rcases List.mem_append.mp this with h | h
        · exact h
        · rcases List.mem_cons.mp h with h | h
          · exact absurd hj (by rw [h]; exact lt_irrefl _)
          · have := (List.pairwise_cons.mp hpw.2.1).1 j h
            exact absurd this (by exact not_lt_of_gt hj)
    refine ⟨_, h3, ?_, ⟨N, ?_, ?_⟩, ?_⟩
    · intro i
      by_cases h : i = N
      · subst h; simpa using h1
      · have := hi i
        by_cases hp : i ∈ pre
        · simp only [h, hp, if_true, if_false]; omega
        · simpa [h, hp] using this
    · intro j hj
      have h : j ≠ N := ne_of_lt hj
      have hp : j ∉ pre := fun hp => absurd ((hpre j).mp hp) (not_lt_of_gt hj)
      simp [h, hp]
    · simp
    · rintro t ht ⟨M, hM, hM'⟩
      rcases lt_trichotomy M N with h | h | h
      · right
        refine ⟨M, fun j hj => ?_, ?_⟩
        · have hjN := hj.trans h
          have hp : j ∉ pre := fun hp => absurd ((hpre j).mp hp) (not_lt_of_gt hjN)
          simpa [ne_of_lt hjN, hp] using hM j hj
        · have hp : M ∉ pre := fun hp => absurd ((hpre M).mp hp) (not_lt_of_gt h)
          simpa [ne_of_lt h, hp] using hM'
      · subst h
        by_cases hgt : idx M + 1 < t M
        · right
          refine ⟨M, fun j hj => ?_, by simpa using hgt⟩
          have hp : j ∉ pre := fun hp => absurd ((hpre j).mp hp) (not_lt_of_gt hj)
          simpa [ne_of_lt hj, hp] using hM j hj
        · have htM : t M = idx M + 1 := by omega
          by_cases hz : ∃ j, M < j ∧ t j ≠ 0
          · right
            -- the first non-zero one
            classical
            obtain ⟨j, ⟨hj1, hj2⟩, hmin⟩ := WellFounded.has_min (wellFounded_lt (α := Fin n))
              {j | M < j ∧ t j ≠ 0} hz
            refine ⟨j, fun i hij => ?_, ?_⟩
            · rcases lt_trichotomy i M with h | h | h
              · have hp : i ∉ pre := fun hp => absurd ((hpre i).mp hp) (not_lt_of_gt h)
                simpa [ne_of_lt h, hp] using hM i h
              · subst h; simp [htM]
              · have hp : i ∈ pre := (hpre i).mpr h
                have : t i = 0 := by
                  by_contra hne
                  exact hmin i ⟨h, hne⟩ hij
                simp [ne_of_gt h, hp, this]
            · have hp : j ∈ pre := (hpre j).mpr hj1
              simp only [ne_of_gt hj1, hp, if_true, if_false]
              omega
          · left
            funext i
            rcases lt_trichotomy i M with h | h | h
            · have hp : i ∉ pre := fun hp => absurd ((hpre i).mp hp) (not_lt_of_gt h)
              simpa [ne_of_lt h, hp] using (hM i h).symm
            · subst h; simp [htM]
            · have hp : i ∈ pre := (hpre i).mpr h
              have : t i = 0 := by
                by_contra hne
                exact hz ⟨i, h, hne⟩
              simp [ne_of_gt h, hp, this]
      · exfalso
        have := h2 M ((hpre M).mpr h)
        have := ht M
        omega
  · right
    refine ⟨_, h2, ?_⟩
    rintro t ht ⟨M, _, hM⟩
    have := h1 M (by simp)
    have := ht M
    omega
end

/-- What `example` does: the property function is called once. -/
theorem example_quiet {c : Cfg σ A} (hq : c.Quiet) (args : Args A) (s : St σ A) (ev : Ev Bool)
    (hev : ev = c.func (suEv c .single ++ s.trace) args) :
    ∃ cu : Trace A, (∀ ph, calls ph cu = []) ∧
      «example» c args s =
        ((match ev.out with
          | .ok b => .ok b
          | .throws e => if e = .success then .ok true else if e.isStd then .ok false else .throws e
          | .ub => .ub
          | .diverges => .diverges),
        { s with trace := cu ++ .call .single args ev :: (suEv c .single ++ s.trace) }) := by
  unfold «example» Eng.withContext assertToProperty Eng.catchStd Eng.tryCatch
  simp only [Eng.bind_apply, runStartup_quiet hq.1, callFunc_apply, ← hev]
  cases ho : ev.out with
  | ok b =>
    refine ⟨cuEv c .single, fun _ => calls_cuEv _ _ _, ?_⟩
    simp only [runCleanup_quiet hq.2, Eng.pure_apply]
  | throws e =>
    refine ⟨[], fun _ => rfl, ?_⟩
    cases e <;> simp [Exn.isStd, Eng.throw, Eng.pure_apply]
  | ub => exact ⟨[], fun _ => rfl, rfl⟩
  | diverges => exact ⟨[], fun _ => rfl, rfl⟩

/-- The call returns or throws a std::exception. -/
def Ev.Ends (e : Ev Bool) : Prop := (∃ b, e.out = .ok b) ∨ ∃ x, e.out = .throws x ∧ x.isStd = true

open Classical in
/-- The index tuples still to come. -/
noncomputable def later (lists : (i : Fin n) → List (A i)) (idx : Fin n → Nat) : Finset (Fin n → Nat) :=
  (Fintype.piFinset (fun i => Finset.range (lists i).length)).filter (LexLt idx)

theorem mem_later (lists : (i : Fin n) → List (A i)) (idx t : Fin n → Nat) :
    t ∈ later lists idx ↔ InRange lists t ∧ LexLt idx t := by
  simp [later, InRange, Fintype.mem_piFinset]

theorem matrixLoop_spec {c : Cfg σ A} (hq : c.Quiet) (hf : ∀ tr a, (c.func tr a).Ends)
    (lists : (i : Fin n) → List (A i)) :
    ∀ (fuel : Nat) (idx : Fin n → Nat) (_ : InRange lists idx) (s : St σ A), (later lists idx).card < fuel →
    ∃ (s' : St σ A) (idxs : List (Fin n → Nat)),
      matrixLoop c lists fuel idx s = (.ok (), s') ∧
      (idx :: idxs).Pairwise LexLt ∧ (∀ t, t ∈ idxs ↔ InRange lists t ∧ LexLt idx t) ∧
      ((calls .single s'.trace).map Prod.fst).map (fun a => (fun i => some (a i) : (i : Fin n) → Option (A i))) =
        ((calls .single s.trace).map Prod.fst).map (fun a => (fun i => some (a i) : (i : Fin n) → Option (A i))) ++
          (idx :: idxs).map (fun t i => (lists i)[t i]?) := by
  intro fuel
  induction fuel with
  | zero => intro idx _ s h; omega
  | succ fuel ih =>
    intro idx hi s hfuel
    have hpick : pickEach lists idx = .ok (fun i => (lists i)[idx i]'(hi i)) := dif_pos hi
    obtain ⟨cu, hcu, hex⟩ := example_quiet hq (fun i => (lists i)[idx i]'(hi i)) s _ rfl
    have hok : ∃ b, (match (c.func (suEv c .single ++ s.trace) (fun i => (lists i)[idx i]'(hi i))).out with
          | .ok b => .ok b
          | .throws e => if e = .success then .ok true else if e.isStd then .ok false else .throws e
          | .ub => .ub
          | .diverges => .diverges : Outcome Bool) = .ok b := by
      rcases hf (suEv c .single ++ s.trace) (fun i => (lists i)[idx i]'(hi i)) with ⟨b, h⟩ | ⟨x, h, hx⟩
      · rw [h]; exact ⟨b, rfl⟩
      · rw [h]
        simp only [hx, if_true]
        by_cases hs : x = .success
        · exact ⟨true, by simp [hs]⟩
        · exact ⟨false, by simp [hs]⟩
    obtain ⟨b, hok⟩ := hok
    rw [hok] at hex
    have hcalls : (calls .single (cu ++ .call .single (fun i => (lists i)[idx i]'(hi i))
        (c.func (suEv c .single ++ s.trace) (fun i => (lists i)[idx i]'(hi i))) :: (suEv c .single ++ s.trace)))
        = calls .single s.trace ++ [((fun i => (lists i)[idx i]'(hi i)),
          (c.func (suEv c .single ++ s.trace) (fun i => (lists i)[idx i]'(hi i))))] := by
      rw [calls_append, hcu, calls_cons, calls_append, calls_suEv]
      simp [Event.call?]
    have hsome : (fun i => some ((lists i)[idx i]'(hi i))) = fun i => (lists i)[idx i]? := by
      funext i; rw [List.getElem?_eq_getElem (hi i)]
    rw [matrixLoop]
    simp only [Eng.bind_apply, Eng.lift, hpick, hex]
    rcases progress_spec lists idx hi with ⟨idx', hp, hi', hlt, hnext⟩ | ⟨idx', hp, hnone⟩
    · rw [hp]
      simp only [if_true]
      have hcard : (later lists idx').card < fuel := by
        have : (later lists idx').card < (later lists idx).card := by
          apply Finset.card_lt_card
          rw [Finset.ssubset_iff]
          refine ⟨idx', fun h => LexLt.irrefl _ ((mem_later _ _ _).mp h).2, ?_⟩
          intro t ht
          rcases Finset.mem_insert.mp ht with rfl | ht
          · exact (mem_later _ _ _).mpr ⟨hi', hlt⟩
          · have := (mem_later _ _ _).mp ht
            exact (mem_later _ _ _).mpr ⟨this.1, hlt.trans this.2⟩
        omega
      obtain ⟨s', idxs, h1, h2, h3, h4⟩ := ih idx' hi' _ hcard
      refine ⟨s', idx' :: idxs, h1, ?_, ?_, ?_⟩
      · rw [List.pairwise_cons]
        refine ⟨?_, h2⟩
        intro t ht
        rcases List.mem_cons.mp ht with rfl | ht
        · exact hlt
        · exact hlt.trans ((h3 t).mp ht).2
      · intro t
        constructor
        · intro ht
          rcases List.mem_cons.mp ht with rfl | ht
          · exact ⟨hi', hlt⟩
          · exact ⟨((h3 t).mp ht).1, hlt.trans ((h3 t).mp ht).2⟩
        · rintro ⟨ht1, ht2⟩
          rcases hnext t ht1 ht2 with rfl | h
          · simp
          · exact List.mem_cons_of_mem _ ((h3 t).mpr ⟨ht1, h⟩)
      · rw [h4]
        simp only [hcalls, List.map_append, List.map_cons, List.map_nil, hsome, List.append_assoc, List.cons_append,
          List.nil_append]
    · rw [hp]
      refine ⟨_, [], rfl, by simp, ?_, ?_⟩
      · intro t
        constructor
        · intro h; simp at h
        · rintro ⟨h1, h2⟩; exact absurd h2 (hnone t h1)
      · simp only [hcalls, List.map_append, List.map_cons, List.map_nil, hsome]

end Engine
end Verif
