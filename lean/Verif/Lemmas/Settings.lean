import Verif.Spec.Settings
/-
Auxiliary facts about chains of setters and the objects they leave.
-/
namespace Verif
namespace Settings
variable {E : Type}

/-- The calls that reach the object the chain starts with: all up to the first one that gives a copy back. -/
def upTo : List (Setter E) → List (Setter E)
  | [] => []
  | s :: ss => if s.copies then [s] else s :: upTo ss

/-- The calls one after the other on one object. -/
def applyAll (ss : List (Setter E)) (o : Obj E) : Obj E := ss.foldl (fun o s => s.apply o) o

theorem applyAll_cons (s : Setter E) (ss : List (Setter E)) (o : Obj E) :
    applyAll (s :: ss) o = applyAll ss (s.apply o) := rfl

theorem configured_applyAll (ss : List (Setter E)) : ∀ o : Obj E, Configured o ss (applyAll ss o) := by
  induction ss with
  | nil => intro o; exact ⟨rfl, rfl, rfl⟩
  | cons s ss ih =>
    intro o
    have h := ih (s.apply o)
    rw [applyAll_cons]
    cases s <;> exact ⟨h.lower, h.upper, h.elem⟩

theorem Configured.eq {o r : Obj E} {ss : List (Setter E)} (h : Configured o ss r) : r = applyAll ss o := by
  have h' := configured_applyAll ss o
  obtain ⟨a, b, c⟩ := r
  cases hq : applyAll ss o with
  | mk a' b' c' =>
    rw [hq] at h'
    have h1 := h.lower.trans h'.lower.symm
    have h2 := h.upper.trans h'.upper.symm
    have h3 := h.elem.trans h'.elem.symm
    simp only at h1 h2 h3
    subst h1 h2 h3
    rfl

theorem upTo_of_noCopy {ss : List (Setter E)} (h : ∀ s ∈ ss, s.copies = false) : upTo ss = ss := by
  induction ss with
  | nil => rfl
  | cons s ss ih =>
    rw [upTo, h s (by simp), ih fun s hs => h s (by simp [hs])]
    rfl

theorem upTo_of_dropLast {ss : List (Setter E)} (h : ∀ s ∈ ss.dropLast, s.copies = false) : upTo ss = ss := by
  induction ss with
  | nil => rfl
  | cons s ss ih =>
    cases ss with
    | nil => rw [upTo]; split <;> rfl
    | cons s' ss =>
      rw [upTo, h s (by simp), ih fun s hs => h s (by simp [hs])]
      rfl

/-- What a chain of calls does. -/
theorem chain_spec (ss : List (Setter E)) : ∀ (h : Heap E) (a : Nat), a < h.length →
    h.length ≤ (chain (h, a) ss).1.length ∧ (chain (h, a) ss).2 < (chain (h, a) ss).1.length ∧
    (∀ i < h.length, i ≠ a → (chain (h, a) ss).1[i]? = h[i]?) ∧
    (chain (h, a) ss).1[(chain (h, a) ss).2]? = h[a]?.map (Option.map (applyAll ss)) ∧
    (chain (h, a) ss).1[a]? = h[a]?.map (Option.map (applyAll (upTo ss))) ∧
    ((∀ s ∈ ss, s.copies = false) → (chain (h, a) ss).2 = a) ∧
    ((∃ s ∈ ss, s.copies = true) → h.length ≤ (chain (h, a) ss).2) := by
  induction ss with
  | nil =>
    intro h a ha
    have : (applyAll [] : Obj E → Obj E) = id := rfl
    refine ⟨Nat.le_refl _, ha, fun _ _ _ => rfl, ?_, ?_, fun _ => rfl, by simp⟩ <;>
    · show h[a]? = _
      simp [upTo, this]
  | cons s ss ih =>
    intro h a ha
    have hm : ∀ i, (h.modify a (Option.map s.apply))[i]? = if a = i then h[i]?.map (Option.map s.apply) else h[i]? := by
      intro i
      rw [List.getElem?_modify]
      split <;> simp_all
    have happ : (applyAll (s :: ss) : Obj E → Obj E) = applyAll ss ∘ s.apply := rfl
    by_cases hc : s.copies = true
    · have e : chain (h, a) (s :: ss) = chain (h.modify a (Option.map s.apply) ++
          [((h.modify a (Option.map s.apply))[a]?).join], (h.modify a (Option.map s.apply)).length) ss := by
        show chain (call (h, a) s) ss = _
        simp only [call, hc, if_true]
      have hl : (h.modify a (Option.map s.apply)).length = h.length := List.length_modify ..
      obtain ⟨i1, i2, i3, i4, i5, i6, i7⟩ := ih (h.modify a (Option.map s.apply) ++
          [((h.modify a (Option.map s.apply))[a]?).join]) (h.modify a (Option.map s.apply)).length (by simp)
      rw [← e] at i1 i2 i3 i4 i5 i6 i7
      simp only [List.length_append, List.length_singleton, hl] at i1 i3 i4 i5 i6 i7
      refine ⟨by omega, i2, fun i hi hia => ?_, ?_, ?_, fun hn => ?_, fun _ => ?_⟩
      · rw [i3 i (by omega) (by omega), List.getElem?_append_left (by omega), hm, if_neg (Ne.symm hia)]
      · rw [i4, List.getElem?_append_right (by omega), hl, Nat.sub_self, List.getElem?_cons_zero, hm, if_pos rfl,
          happ]
        obtain ⟨o, ho⟩ : ∃ o, h[a]? = some o := ⟨_, List.getElem?_eq_getElem ha⟩
        rw [ho]
        simp
      · have hu : upTo (s :: ss) = [s] := by rw [upTo, if_pos hc]
        rw [i3 a (by omega) (by omega), List.getElem?_append_left (by omega), hm, if_pos rfl, hu]
        rfl
      · have := hn s (by simp)
        simp [hc] at this
      · by_cases hs : ∃ s ∈ ss, s.copies = true
        · have := i7 hs; omega
        · rw [i6 (fun s' hs' => by
            cases hq : s'.copies with
            | false => rfl
            | true => exact absurd ⟨s', hs', hq⟩ hs)]
          exact Nat.le_refl _
    · simp only [Bool.not_eq_true] at hc
      have e : chain (h, a) (s :: ss) = chain (h.modify a (Option.map s.apply), a) ss := by
        show chain (call (h, a) s) ss = _
        simp only [call, hc, Bool.false_eq_true, if_false]
      have hl : (h.modify a (Option.map s.apply)).length = h.length := List.length_modify ..
      obtain ⟨i1, i2, i3, i4, i5, i6, i7⟩ := ih (h.modify a (Option.map s.apply)) a (by omega)
      rw [← e] at i1 i2 i3 i4 i5 i6 i7
      simp only [hl] at i1 i3 i7
      obtain ⟨o, ho⟩ : ∃ o, h[a]? = some o := ⟨_, List.getElem?_eq_getElem ha⟩
      refine ⟨by omega, i2, fun i hi hia => ?_, ?_, ?_, fun hn => ?_, fun he => ?_⟩
      · rw [i3 i hi hia, hm, if_neg (Ne.symm hia)]
      · rw [i4, hm, if_pos rfl, happ, ho]; simp
      · have hu : upTo (s :: ss) = s :: upTo ss := by rw [upTo, hc]; rfl
        rw [i5, hm, if_pos rfl, hu, ho]
        cases o <;> rfl
      · exact i6 fun s hs => hn s (by simp [hs])
      · refine i7 ?_
        obtain ⟨s', hs', hq⟩ := he
        rcases List.mem_cons.mp hs' with rfl | h1
        · rw [hc] at hq; cases hq
        · exact ⟨s', h1, hq⟩

theorem length_sweep (n : Nat) (h : Heap E) (hn : n ≤ h.length) : (sweep n h).length = h.length := by
  simp [sweep]; omega

theorem getElem?_sweep (n : Nat) (h : Heap E) (hn : n ≤ h.length) (i : Nat) (hi : i < n) : (sweep n h)[i]? = h[i]? := by
  rw [sweep, List.getElem?_append_left (by simp; omega), List.getElem?_take_of_lt hi]

theorem getElem?_sweep_dead (n : Nat) (h : Heap E) (hn : n ≤ h.length) (i : Nat) (hi : n ≤ i) :
    ((sweep n h)[i]?).join = none := by
  rw [sweep, List.getElem?_append_right (by simp; omega)]
  rw [List.getElem?_replicate]
  split <;> rfl

/-- What holds in every state: variables name different objects, which exist. -/
structure Good (st : Store E) : Prop where
  live : ∀ x a, st.vars x = some a → ∃ o, st.heap[a]? = some (some o)
  inj : ∀ x y a, st.vars x = some a → st.vars y = some a → x = y
  bound : ∀ g a, st.gens g = some a → a < st.heap.length

theorem Good.lt {st : Store E} (h : Good st) {x a : Nat} (e : st.vars x = some a) : a < st.heap.length := by
  obtain ⟨o, ho⟩ := h.live x a e
  exact (List.getElem?_eq_some_iff.mp ho).1

theorem good_empty : Good (Store.empty : Store E) :=
  ⟨fun _ _ h => (nomatch h), fun _ _ _ h => (nomatch h), fun _ _ h => (nomatch h)⟩

/-- An object that no variable names stays as it is. -/
theorem exec_frame {st st' : Store E} {c : Cmd E} (hg : Good st) (e : exec st c = some st') {b : Nat}
    (hb : b < st.heap.length) (hv : ∀ x, c.sets x → st.vars x ≠ some b) :
    st.heap.length ≤ st'.heap.length ∧ st'.heap[b]? = st.heap[b]? := by
  cases c with
  | new x o =>
    injection e with e; subst e
    exact ⟨by simp, List.getElem?_append_left hb⟩
  | set x ss =>
    simp only [exec, Option.bind_eq_bind, Option.bind_eq_some_iff] at e
    obtain ⟨a, ha, e⟩ := e
    injection e with e; subst e
    obtain ⟨h1, h2, h3, -⟩ := chain_spec ss st.heap a (hg.lt ha)
    refine ⟨by rw [length_sweep _ _ h1]; exact h1, ?_⟩
    dsimp only
    rw [getElem?_sweep _ _ h1 _ hb]
    exact h3 b hb fun hq => hv x rfl (hq ▸ ha)
  | bind y x ss =>
    simp only [exec, Option.bind_eq_bind, Option.bind_eq_some_iff] at e
    obtain ⟨a, ha, e⟩ := e
    injection e with e; subst e
    obtain ⟨h1, h2, h3, -⟩ := chain_spec ss st.heap a (hg.lt ha)
    refine ⟨by simp [length_sweep _ _ h1]; omega, ?_⟩
    dsimp only
    rw [List.getElem?_append_left (by rw [length_sweep _ _ h1]; omega), getElem?_sweep _ _ h1 _ hb]
    exact h3 b hb fun hq => hv x rfl (hq ▸ ha)
  | derive g x ss =>
    simp only [exec, Option.bind_eq_bind, Option.bind_eq_some_iff] at e
    obtain ⟨a, ha, e⟩ := e
    injection e with e; subst e
    obtain ⟨h1, h2, h3, -⟩ := chain_spec ss st.heap a (hg.lt ha)
    refine ⟨by simp [length_sweep _ _ h1]; omega, ?_⟩
    dsimp only
    rw [List.getElem?_append_left (by rw [length_sweep _ _ h1]; omega), getElem?_sweep _ _ h1 _ hb]
    exact h3 b hb fun hq => hv x rfl (hq ▸ ha)
  | refer g x ss =>
    simp only [exec, Option.bind_eq_bind, Option.bind_eq_some_iff] at e
    obtain ⟨a, ha, e⟩ := e
    injection e with e; subst e
    obtain ⟨h1, h2, h3, -⟩ := chain_spec ss st.heap a (hg.lt ha)
    refine ⟨by rw [length_sweep _ _ h1]; exact h1, ?_⟩
    dsimp only
    rw [getElem?_sweep _ _ h1 _ hb]
    exact h3 b hb fun hq => hv x rfl (hq ▸ ha)

/-- The object a chain starts with, after the statement. -/
theorem sweep_chain {st : Store E} (hg : Good st) {x a : Nat} (ha : st.vars x = some a) (ss : List (Setter E))
    {o : Obj E} (ho : st.heap[a]? = some (some o)) :
    (sweep st.heap.length (chain (st.heap, a) ss).1)[a]? = some (some (applyAll (upTo ss) o)) := by
  obtain ⟨h1, h2, h3, h4, h5, h6, h7⟩ := chain_spec ss st.heap a (hg.lt ha)
  rw [getElem?_sweep _ _ h1 _ (hg.lt ha), h5, ho]
  rfl

theorem sweep_live {st : Store E} (hg : Good st) {x a : Nat} (ha : st.vars x = some a) (ss : List (Setter E))
    {z b : Nat} (hb : st.vars z = some b) :
    ∃ o, (sweep st.heap.length (chain (st.heap, a) ss).1)[b]? = some (some o) := by
  obtain ⟨h1, h2, h3, h4, h5, h6, h7⟩ := chain_spec ss st.heap a (hg.lt ha)
  obtain ⟨o, ho⟩ := hg.live z b hb
  by_cases hab : b = a
  · subst hab
    exact ⟨_, sweep_chain hg ha ss ho⟩
  · exact ⟨o, by rw [getElem?_sweep _ _ h1 _ (hg.lt hb), h3 b (hg.lt hb) hab, ho]⟩

theorem chain_value {st : Store E} (hg : Good st) {x a : Nat} (ha : st.vars x = some a) (ss : List (Setter E))
    {o : Obj E} (ho : st.heap[a]? = some (some o)) :
    ((chain (st.heap, a) ss).1[(chain (st.heap, a) ss).2]?).join = some (applyAll ss o) := by
  obtain ⟨h1, h2, h3, h4, h5, h6, h7⟩ := chain_spec ss st.heap a (hg.lt ha)
  rw [h4, ho]
  rfl

theorem good_exec {st st' : Store E} {c : Cmd E} (hg : Good st) (e : exec st c = some st') : Good st' := by
  cases c with
  | new x o =>
    injection e with e; subst e
    refine ⟨fun z a h => ?_, fun z y a h h' => ?_, fun g a h => ?_⟩ <;> dsimp only at *
    · split at h
      · injection h with h; subst h
        exact ⟨o, by simp⟩
      · obtain ⟨o', ho⟩ := hg.live z a h
        exact ⟨o', by rw [List.getElem?_append_left (hg.lt h), ho]⟩
    · split at h <;> split at h'
      · simp_all
      · injection h with h; subst h; exact absurd (hg.lt h') (by omega)
      · injection h' with h'; subst h'; exact absurd (hg.lt h) (by omega)
      · exact hg.inj z y a h h'
    · have := hg.bound g a h
      simp; omega
  | set x ss =>
    simp only [exec, Option.bind_eq_bind, Option.bind_eq_some_iff] at e
    obtain ⟨a, ha, e⟩ := e
    injection e with e; subst e
    obtain ⟨h1, -⟩ := chain_spec ss st.heap a (hg.lt ha)
    refine ⟨fun z b h => sweep_live hg ha ss h, fun z y b h h' => hg.inj z y b h h', fun g b h => ?_⟩
    have := hg.bound g b h
    dsimp only
    rw [length_sweep _ _ h1]; omega
  | bind y x ss =>
    simp only [exec, Option.bind_eq_bind, Option.bind_eq_some_iff] at e
    obtain ⟨a, ha, e⟩ := e
    injection e with e; subst e
    obtain ⟨h1, -⟩ := chain_spec ss st.heap a (hg.lt ha)
    have hl := length_sweep _ _ h1
    obtain ⟨o, ho⟩ := hg.live x a ha
    refine ⟨fun z b h => ?_, fun z y b h h' => ?_, fun g b h => ?_⟩ <;> dsimp only at *
    · split at h
      · injection h with h; subst h
        refine ⟨applyAll ss o, ?_⟩
        rw [List.getElem?_append_right (by omega), hl, Nat.sub_self, List.getElem?_cons_zero,
          chain_value hg ha ss ho]
      · obtain ⟨o', ho'⟩ := sweep_live hg ha ss h
        exact ⟨o', by rw [List.getElem?_append_left (by have := hg.lt h; omega), ho']⟩
    · split at h <;> split at h'
      · simp_all
      · injection h with h; subst h; exact absurd (hg.lt h') (by omega)
      · injection h' with h'; subst h'; exact absurd (hg.lt h) (by omega)
      · exact hg.inj z y b h h'
    · have := hg.bound g b h
      simp [hl]; omega
  | derive g x ss =>
    simp only [exec, Option.bind_eq_bind, Option.bind_eq_some_iff] at e
    obtain ⟨a, ha, e⟩ := e
    injection e with e; subst e
    obtain ⟨h1, -⟩ := chain_spec ss st.heap a (hg.lt ha)
    have hl := length_sweep _ _ h1
    refine ⟨fun z b h => ?_, fun z y b h h' => hg.inj z y b h h', fun g' b h => ?_⟩ <;> dsimp only at *
    · obtain ⟨o', ho'⟩ := sweep_live hg ha ss h
      exact ⟨o', by rw [List.getElem?_append_left (by have := hg.lt h; omega), ho']⟩
    · simp only [List.length_append, hl, List.length_singleton]
      split at h
      · injection h with h; subst h; omega
      · have := hg.bound g' b h; omega
  | refer g x ss =>
    simp only [exec, Option.bind_eq_bind, Option.bind_eq_some_iff] at e
    obtain ⟨a, ha, e⟩ := e
    injection e with e; subst e
    obtain ⟨h1, h2, -⟩ := chain_spec ss st.heap a (hg.lt ha)
    refine ⟨fun z b h => sweep_live hg ha ss h, fun z y b h h' => hg.inj z y b h h', fun g' b h => ?_⟩
    dsimp only at *
    rw [length_sweep _ _ h1]
    split at h
    · injection h with h; subst h; omega
    · have := hg.bound g' b h; omega

theorem good_execAll {cs : List (Cmd E)} : ∀ {st st' : Store E}, Good st → execAll st cs = some st' → Good st' := by
  induction cs with
  | nil => intro st st' hg e; injection e with e; exact e ▸ hg
  | cons c cs ih =>
    intro st st' hg e
    simp only [execAll, Option.bind_eq_some_iff] at e
    obtain ⟨st1, e1, e2⟩ := e
    exact ih (good_exec hg e1) e2

theorem Reached.good {st : Store E} (h : Reached st) : Good st := by
  obtain ⟨cs, e⟩ := h
  exact good_execAll good_empty e

theorem execAll_append (cs ds : List (Cmd E)) : ∀ st : Store E,
    execAll st (cs ++ ds) = (execAll st cs).bind fun st => execAll st ds := by
  induction cs with
  | nil => intro st; rfl
  | cons c cs ih =>
    intro st
    simp only [List.cons_append, execAll]
    cases exec st c with
    | none => rfl
    | some st1 => exact ih st1

/-- Later statements do not name an object anew that no variable names. -/
theorem exec_vars {st st' : Store E} {c : Cmd E} (hg : Good st) (e : exec st c = some st') {b : Nat}
    (hb : b < st.heap.length) {x : Nat} (hx : st'.vars x = some b) : st.vars x = some b := by
  cases c with
  | new y o =>
    injection e with e; subst e
    dsimp only at hx
    split at hx
    · injection hx with hx; omega
    · exact hx
  | bind y z ss =>
    simp only [exec, Option.bind_eq_bind, Option.bind_eq_some_iff] at e
    obtain ⟨a, ha, e⟩ := e
    injection e with e; subst e
    obtain ⟨h1, -⟩ := chain_spec ss st.heap a (hg.lt ha)
    dsimp only at hx
    split at hx
    · injection hx with hx; omega
    · exact hx
  | set y ss | derive g y ss | refer g y ss =>
    simp only [exec, Option.bind_eq_bind, Option.bind_eq_some_iff] at e
    obtain ⟨a, ha, e⟩ := e
    injection e with e; subst e
    exact hx

theorem exec_gens {st st' : Store E} {c : Cmd E} (e : exec st c = some st') {g : Nat} (h : ¬ c.defines g) :
    st'.gens g = st.gens g := by
  cases c with
  | new y o => injection e with e; subst e; rfl
  | set y ss | bind y z ss =>
    simp only [exec, Option.bind_eq_bind, Option.bind_eq_some_iff] at e
    obtain ⟨a, ha, e⟩ := e
    injection e with e; subst e
    rfl
  | derive g' y ss | refer g' y ss =>
    simp only [exec, Option.bind_eq_bind, Option.bind_eq_some_iff] at e
    obtain ⟨a, ha, e⟩ := e
    injection e with e; subst e
    exact if_neg fun hq => h hq.symm

theorem exec_vars_eq {st st' : Store E} {c : Cmd E} (e : exec st c = some st') {x : Nat} (h : ¬ c.declares x) :
    st'.vars x = st.vars x := by
  cases c with
  | new y o => injection e with e; subst e; exact if_neg fun hq => h hq.symm
  | bind y z ss =>
    simp only [exec, Option.bind_eq_bind, Option.bind_eq_some_iff] at e
    obtain ⟨a, ha, e⟩ := e
    injection e with e; subst e
    exact if_neg fun hq => h hq.symm
  | set y ss | derive g' y ss | refer g' y ss =>
    simp only [exec, Option.bind_eq_bind, Option.bind_eq_some_iff] at e
    obtain ⟨a, ha, e⟩ := e
    injection e with e; subst e
    rfl

/-- An object without a name keeps its settings (or stays destroyed) for ever. -/
theorem execAll_frame {cs : List (Cmd E)} : ∀ {st st' : Store E}, Good st → execAll st cs = some st' → ∀ {b : Nat},
    b < st.heap.length → (∀ x, st.vars x ≠ some b) → st'.heap[b]? = st.heap[b]? := by
  induction cs with
  | nil => intro st st' hg e b hb hv; injection e with e; rw [e]
  | cons c cs ih =>
    intro st st' hg e b hb hv
    simp only [execAll, Option.bind_eq_some_iff] at e
    obtain ⟨st1, e1, e2⟩ := e
    obtain ⟨h1, h2⟩ := exec_frame hg e1 hb fun x _ => hv x
    rw [ih (good_exec hg e1) e2 (by omega) fun x hx => hv x (exec_vars hg e1 hb hx), h2]

theorem execAll_gens {cs : List (Cmd E)} {g : Nat} : ∀ {st st' : Store E}, execAll st cs = some st' →
    (∀ c ∈ cs, ¬ c.defines g) → st'.gens g = st.gens g := by
  induction cs with
  | nil => intro st st' e _; injection e with e; rw [e]
  | cons c cs ih =>
    intro st st' e h
    simp only [execAll, Option.bind_eq_some_iff] at e
    obtain ⟨st1, e1, e2⟩ := e
    rw [ih e2 fun c hc => h c (by simp [hc]), exec_gens e1 (h c (by simp))]

theorem execAll_vars_eq {cs : List (Cmd E)} {x : Nat} : ∀ {st st' : Store E}, execAll st cs = some st' →
    (∀ c ∈ cs, ¬ c.declares x) → st'.vars x = st.vars x := by
  induction cs with
  | nil => intro st st' e _; injection e with e; rw [e]
  | cons c cs ih =>
    intro st st' e h
    simp only [execAll, Option.bind_eq_some_iff] at e
    obtain ⟨st1, e1, e2⟩ := e
    rw [ih e2 fun c hc => h c (by simp [hc]), exec_vars_eq e1 (h c (by simp))]

end Settings
end Verif
