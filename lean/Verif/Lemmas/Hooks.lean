import Verif.Spec.Hooks
import Verif.Lemmas.PropertyLoop
/-
Helper lemmas about the property engine for hooks that may do anything.
-/
namespace Verif
namespace Engine
open PairTuple
variable {n : Nat} {A : Fin n → Type} {σ : Type} {α β : Type}

/-- Hoare triple with separate postconditions for a normal end and an exception. -/
def Tri (P : St σ A → Prop) (m : Eng σ A α) (Q : α → St σ A → Prop) (E : Exn → St σ A → Prop) : Prop :=
  ∀ s, P s → (∀ a s', m s = (.ok a, s') → Q a s') ∧ (∀ e s', m s = (.throws e, s') → E e s')

theorem Tri.bind {P : St σ A → Prop} {m : Eng σ A α} {Q : α → St σ A → Prop} {E : Exn → St σ A → Prop}
    {f : α → Eng σ A β} {R : β → St σ A → Prop} (h : Tri P m Q E) (hf : ∀ a, Tri (Q a) (f a) R E) :
    Tri P (m >>= f) R E := by
  intro s hs
  obtain ⟨h1, h2⟩ := h s hs
  rw [Eng.bind_apply]
  cases hm : m s with
  | mk o s1 =>
    cases o with
    | ok a => exact hf a s1 (h1 a s1 hm)
    | throws e =>
      refine ⟨fun a s' h => (by cases h), fun e' s' h => ?_⟩
      cases h
      exact h2 e s1 hm
    | ub => exact ⟨fun a s' h => (by cases h), fun e' s' h => (by cases h)⟩
    | diverges => exact ⟨fun a s' h => (by cases h), fun e' s' h => (by cases h)⟩

theorem Tri.pure {P : St σ A → Prop} {Q : α → St σ A → Prop} {E : Exn → St σ A → Prop} {a : α}
    (h : ∀ s, P s → Q a s) : Tri P (pure a : Eng σ A α) Q E := by
  intro s hs
  rw [Eng.pure_apply]
  refine ⟨fun a' s' e => ?_, fun e' s' e => (by cases e)⟩
  cases e
  exact h s hs

theorem Tri.reads {P : St σ A → Prop} {Q : α → St σ A → Prop} {E : Exn → St σ A → Prop} {f : St σ A → α}
    (h : ∀ s, P s → Q (f s) s) : Tri P (Eng.reads f) Q E := by
  intro s hs
  refine ⟨fun a' s' e => ?_, fun e' s' e => (by cases e)⟩
  cases e
  exact h s hs

theorem Tri.modify {P : St σ A → Prop} {Q : Unit → St σ A → Prop} {E : Exn → St σ A → Prop}
    {f : St σ A → St σ A} (h : ∀ s, P s → Q () (f s)) : Tri P (Eng.modify f) Q E := by
  intro s hs
  refine ⟨fun a' s' e => ?_, fun e' s' e => (by cases e)⟩
  cases e
  exact h s hs

theorem Tri.throw {P : St σ A → Prop} {Q : α → St σ A → Prop} {E : Exn → St σ A → Prop} {x : Exn}
    (h : ∀ s, P s → E x s) : Tri P (Eng.throw x : Eng σ A α) Q E := by
  intro s hs
  refine ⟨fun a' s' e => (by cases e), fun e' s' e => ?_⟩
  cases e
  exact h s hs

theorem Tri.tryCatch {P : St σ A → Prop} {m : Eng σ A α} {Q : α → St σ A → Prop} {E E' : Exn → St σ A → Prop}
    {k : Exn → Eng σ A α} (h : Tri P m Q E) (hk : ∀ e, Tri (E e) (k e) Q E') : Tri P (Eng.tryCatch m k) Q E' := by
  intro s hs
  obtain ⟨h1, h2⟩ := h s hs
  unfold Eng.tryCatch
  cases hm : m s with
  | mk o s1 =>
    cases o with
    | ok a =>
      refine ⟨fun a' s' h => ?_, fun e' s' h => (by cases h)⟩
      cases h
      exact h1 a s1 hm
    | throws e => exact hk e s1 (h2 e s1 hm)
    | ub => exact ⟨fun a s' h => (by cases h), fun e' s' h => (by cases h)⟩
    | diverges => exact ⟨fun a s' h => (by cases h), fun e' s' h => (by cases h)⟩

theorem Tri.weaken {P P' : St σ A → Prop} {m : Eng σ A α} {Q Q' : α → St σ A → Prop} {E E' : Exn → St σ A → Prop}
    (h : Tri P m Q E) (hP : ∀ s, P' s → P s) (hQ : ∀ a s, Q a s → Q' a s) (hE : ∀ e s, E e s → E' e s) :
    Tri P' m Q' E' := fun s hs =>
  ⟨fun a s' e => hQ a s' ((h s (hP s hs)).1 a s' e), fun x s' e => hE x s' ((h s (hP s hs)).2 x s' e)⟩

theorem Tri.record {P : St σ A → Prop} {ev : Ev α} {x : Event A} {Q : α → St σ A → Prop}
    {E : Exn → St σ A → Prop}
    (hQ : ∀ s a, P s → ev.out = .ok a → Q a { s with fails := s.fails ++ ev.fails, trace := x :: s.trace })
    (hE : ∀ s e, P s → ev.out = .throws e → E e { s with fails := s.fails ++ ev.fails, trace := x :: s.trace }) :
    Tri P (record ev x) Q E := by
  intro s hs
  unfold Engine.record
  refine ⟨fun a s' h => ?_, fun e s' h => ?_⟩
  · obtain ⟨h1, h2⟩ := Prod.mk.inj h
    subst h2
    exact hQ s a hs h1
  · obtain ⟨h1, h2⟩ := Prod.mk.inj h
    subst h2
    exact hE s e hs h1

/-- `m` keeps a property of the history, however it ends. -/
def Keeps (P : Trace A → Prop) (m : Eng σ A α) : Prop := ∀ s, P s.trace → P (m s).2.trace

theorem Keeps.bind {P : Trace A → Prop} {m : Eng σ A α} {f : α → Eng σ A β} (h : Keeps P m)
    (hf : ∀ a, Keeps P (f a)) : Keeps P (m >>= f) := by
  intro s hs
  have h1 := h s hs
  rw [Eng.bind_apply]
  cases hm : m s with
  | mk o s1 =>
    rw [hm] at h1
    cases o with
    | ok a => exact hf a s1 h1
    | throws e => exact h1
    | ub => exact h1
    | diverges => exact h1

theorem Keeps.pure {P : Trace A → Prop} (a : α) : Keeps P (pure a : Eng σ A α) := fun _ h => h

theorem Keeps.catchStd {P : Trace A → Prop} {m k : Eng σ A α} (h : Keeps P m) (hk : Keeps P k) :
    Keeps P (Eng.catchStd m k) := by
  intro s hs
  have h1 := h s hs
  unfold Eng.catchStd Eng.tryCatch
  cases hm : m s with
  | mk o s1 =>
    rw [hm] at h1
    cases o with
    | ok a => exact h1
    | throws e =>
      simp only
      split
      · exact hk s1 h1
      · exact h1
    | ub => exact h1
    | diverges => exact h1

/-- `shrink` keeps what the history shows. -/
theorem shrink_grows {c : Cfg σ A} {P : Event A → Prop} (s : St σ A) (h : ∃ ev ∈ s.trace, P ev) :
    ∃ ev ∈ (shrink c s).2.trace, P ev := by
  have hcons : ∀ (x : Event A) (tr : Trace A), (∃ ev ∈ tr, P ev) → ∃ ev ∈ x :: tr, P ev :=
    fun x tr ⟨ev, h1, h2⟩ => ⟨ev, List.mem_cons_of_mem _ h1, h2⟩
  refine shrink_inv (P := fun tr => ∃ ev ∈ tr, P ev) (fun N vals next => ?_) (fun e tr h => hcons _ _ h) s h
  change Keeps (fun tr => ∃ ev ∈ tr, P ev) (test c vals N next)
  refine Keeps.catchStd (Keeps.bind ?_ fun _ => Keeps.bind ?_ fun b => Keeps.bind ?_ fun _ => Keeps.pure b)
    (Keeps.pure false)
  · intro s hs
    unfold runStartup
    cases c.startup with
    | none => exact hs
    | some k => exact hcons _ _ hs
  · intro s hs
    exact hcons _ _ hs
  · intro s hs
    unfold runCleanup
    cases c.cleanup with
    | none => exact hs
    | some k => exact hcons _ _ hs

theorem shrinkEach_foreign (c : Cfg σ A) : ∀ (order : List (Fin n)) (vals : Tup A) (s : St σ A) (e : Exn),
    (shrinkEach c order vals s).1 = .throws e → e.isStd = false
  | [], vals, s, e => fun h => by rw [shrinkEach, Eng.pure_apply] at h; cases h
  | M :: rest, vals, s, e => by
    intro h
    have h1 := shrinkN_bounded c vals M (vals M) s
    rw [shrinkEach, Eng.bind_apply, Eng.mk_apply] at h
    cases hm : shrinkN c vals M (vals M) s with
    | mk o s1 =>
      rw [hm] at h h1
      cases o with
      | ok v => exact shrinkEach_foreign c rest v s1 e h
      | throws e' => cases h; exact h1.foreign e rfl
      | ub => cases h
      | diverges => cases h

/-- A `std::exception` leaves `shrink` only if a generator throws it. -/
theorem shrink_throws {c : Cfg σ A} {s s' : St σ A} {e : Exn}
    (h : shrink c s = (.throws e, s')) (he : e.isStd = true) :
    s' = { s with saved := c.thrown s.saved, trace := .genThrew .shrink e :: s.trace } := by
  rw [shrink_apply] at h
  cases hd : Gen.drawTuple c.gens c.orderShrink s.saved with
  | throws e' => rw [hd] at h; cases h; rfl
  | ub => rw [hd] at h; cases h
  | diverges => rw [hd] at h; cases h
  | ok p =>
    obtain ⟨ts, r⟩ := p
    rw [hd] at h
    have h1 := shrinkEach_foreign c c.orderEach ts { s with saved := r }
    simp only at h
    cases hm : shrinkEach c c.orderEach ts { s with saved := r } with
    | mk o s1 =>
      rw [hm] at h h1
      cases o with
      | ok v => cases h
      | ub => cases h
      | diverges => cases h
      | throws e' =>
        cases h
        have := h1 e rfl
        rw [he] at this
        cases this

/-! ### Something failed -/

/-- A failure is on record. -/
def Bad (s : St σ A) : Prop := ∃ ev ∈ s.trace, ev.Failing

/-- Failed expectations not yet looked at come from an event on record. -/
def Explained (s : St σ A) : Prop := s.fails ≠ [] → Bad s

/-- What holds when an exception leaves a part of a run. -/
def Thrown (e : Exn) (s : St σ A) : Prop := Explained s ∧ (Exn.IsError e → Bad s)

theorem Bad.cons {s : St σ A} (h : Bad s) (x : Event A) (r : σ) (r' : σ) (i : Nat) (fs : List String) :
    Bad ⟨r, r', i, fs, x :: s.trace⟩ := by
  obtain ⟨ev, h1, h2⟩ := h
  exact ⟨ev, List.mem_cons_of_mem _ h1, h2⟩

theorem Bad.here {x : Event A} (h : x.Failing) (r : σ) (r' : σ) (i : Nat) (fs : List String) (tr : Trace A) :
    Bad ⟨r, r', i, fs, x :: tr⟩ := ⟨x, List.mem_cons_self, h⟩

theorem explained_cons {s : St σ A} (h : Explained s) (x : Event A) (fs : List String)
    (hx : fs ≠ [] → x.Failing) : Explained { s with fails := s.fails ++ fs, trace := x :: s.trace } := by
  intro h1
  by_cases hf : fs = []
  · refine Bad.cons (h ?_) x _ _ _ _
    intro h2
    simp [hf, h2] at h1
  · exact Bad.here (hx hf) _ _ _ _ _

theorem tri_hook {b : Prop} {h : Option (Trace A → Ev Unit)} {mkEv : Ev Unit → Event A} {m : Eng σ A Unit}
    (hev : ∀ e, e.HookFails → (mkEv e).Failing) (hn : h = none → m = fun s => (.ok (), s))
    (hs : ∀ k, h = some k → m = fun s => record (k s.trace) (mkEv (k s.trace)) s) :
    Tri (fun s : St σ A => Explained s ∧ (b → Bad s)) m (fun _ s => Explained s ∧ (b → Bad s)) Thrown := by
  cases h with
  | none =>
    rw [hn rfl]
    intro s hs
    refine ⟨fun a s' h => ?_, fun e' s' h => (by cases h)⟩
    cases h
    exact hs
  | some k =>
    rw [hs k rfl]
    intro s hs
    refine Tri.record (P := fun t => t = s) (fun t a ht _ => ?_) (fun t e ht he => ?_) s rfl
    · subst ht
      exact ⟨explained_cons hs.1 _ _ fun h => hev _ (Or.inl h), fun hb => Bad.cons (hs.2 hb) _ _ _ _ _⟩
    · subst ht
      exact ⟨explained_cons hs.1 _ _ fun h => hev _ (Or.inl h),
        fun hx => Bad.here (hev _ (Or.inr ⟨e, he, hx⟩)) _ _ _ _ _⟩

theorem runStartup_none {c : Cfg σ A} {ph : Phase} (h : c.startup = none) :
    runStartup c ph = fun s => (.ok (), s) := by
  funext s; simp only [runStartup, h]

theorem runStartup_some {c : Cfg σ A} {ph : Phase} (k : Trace A → Ev Unit) (h : c.startup = some k) :
    runStartup c ph = fun s => record (k s.trace) (.startup ph (k s.trace)) s := by
  funext s; simp only [runStartup, h]

theorem runCleanup_none {c : Cfg σ A} {ph : Phase} (h : c.cleanup = none) :
    runCleanup c ph = fun s => (.ok (), s) := by
  funext s; simp only [runCleanup, h]

theorem runCleanup_some {c : Cfg σ A} {ph : Phase} (k : Trace A → Ev Unit) (h : c.cleanup = some k) :
    runCleanup c ph = fun s => record (k s.trace) (.cleanup ph (k s.trace)) s := by
  funext s; simp only [runCleanup, h]

theorem tri_call {c : Cfg σ A} {args : Args A} :
    Tri (fun s : St σ A => Explained s) (assertToProperty (callFunc c .run args))
      (fun b s => Explained s ∧ (b = false → Bad s)) Thrown := by
  refine Tri.tryCatch (E := Thrown) ?_ (fun e => ?_)
  · intro s hs
    refine Tri.record (P := fun t => t = s) (fun t a ht ha => ?_) (fun t e ht he => ?_) s rfl
    · subst ht
      refine ⟨explained_cons hs _ _ fun h => Or.inr (Or.inr h), fun hb => ?_⟩
      subst hb
      exact Bad.here (x := .call .run args _) (Or.inl ha) _ _ _ _ _
    · subst ht
      exact ⟨explained_cons hs _ _ fun h => Or.inr (Or.inr h),
        fun hx => Bad.here (x := .call .run args _) (Or.inr (Or.inl ⟨e, he, hx⟩)) _ _ _ _ _⟩
  · split
    · next h =>
      refine Tri.throw fun s hs => ⟨hs.1, fun _ => hs.2 ?_⟩
      subst h
      exact ⟨rfl, by decide, by decide⟩
    · exact Tri.throw fun s hs => hs

theorem tri_drawRun {c : Cfg σ A} :
    Tri (fun s : St σ A => Explained s) (drawRun c) (fun _ s => Explained s) Thrown := by
  intro s hs
  rw [drawRun_apply]
  cases Gen.drawTuple c.gens c.orderRun s.rand with
  | ok p =>
    refine ⟨fun a s' h => ?_, fun e' s' h => (by cases h)⟩
    cases h
    exact hs
  | throws e =>
    refine ⟨fun a s' h => (by cases h), fun e' s' h => ?_⟩
    cases h
    exact ⟨fun h => Bad.cons (hs h) _ _ _ _ _, fun hx => Bad.here (x := .genThrew .run e) hx _ _ _ _ _⟩
  | ub => exact ⟨fun a s' h => (by cases h), fun e' s' h => (by cases h)⟩
  | diverges => exact ⟨fun a s' h => (by cases h), fun e' s' h => (by cases h)⟩

theorem tri_shrink {c : Cfg σ A} :
    Tri (fun s : St σ A => Bad s) (shrink c) (fun _ s => Bad s) (fun _ s => Bad s) := by
  intro s hs
  have h := shrink_grows (c := c) (P := Event.Failing) s hs
  refine ⟨fun a s' e => ?_, fun e' s' e => ?_⟩
  · rw [e] at h; exact h
  · rw [e] at h; exact h

/-- What one attempt leaves behind. -/
def Step.Explained (v : Step A) (s : St σ A) : Prop := Engine.Explained s ∧ ∀ r, v = .stop r → Bad s

theorem tri_attempt {c : Cfg σ A} : Tri (fun s : St σ A => Explained s) (attempt c) Step.Explained Thrown := by
  unfold attempt
  refine Tri.bind (Q := fun _ s => Explained s) (Tri.modify fun s hs => hs) fun _ => ?_
  refine Tri.bind (Q := fun _ s => Explained s) ((tri_hook (b := False) (h := c.startup)
    (mkEv := .startup .run) (fun _ h => h) runStartup_none runStartup_some).weaken (fun s h => ⟨h, False.elim⟩) (fun _ s h => h.1) fun _ _ h => h)
    fun _ => ?_
  refine Tri.bind (Q := fun b s => Explained s ∧ (b = false → Bad s)) (Tri.bind tri_drawRun fun ts => tri_call)
    fun b => ?_
  refine Tri.bind (tri_hook (b := b = false) (h := c.cleanup) (mkEv := .cleanup .run) (fun _ h => h) runCleanup_none
    runCleanup_some) fun _ => ?_
  refine Tri.bind (Q := fun fs s => Explained s ∧ (fs ≠ [] ∨ b = false → Bad s)) ?_ fun fs => ?_
  · intro s hs
    refine ⟨fun a s' h => ?_, fun e' s' h => (by cases h)⟩
    cases h
    exact ⟨fun h => absurd rfl h, fun h => h.elim hs.1 hs.2⟩
  · have hstop : Tri (fun s : St σ A => Bad s) (do let r ← shrink c; pure (.stop r)) Step.Explained Thrown :=
      Tri.bind (tri_shrink.weaken (fun _ h => h) (fun _ _ h => h) fun _ s h => ⟨fun _ => h, fun _ => h⟩)
        fun r => Tri.pure fun s hs => ⟨fun _ => hs, fun _ _ => hs⟩
    split
    · next h =>
      exact hstop.weaken (fun s hs => hs.2 (Or.inl (by intro e; simp [e] at h))) (fun _ _ h => h) fun _ _ h => h
    · split
      · next h =>
        exact hstop.weaken (fun s hs => hs.2 (Or.inr (by simpa using h))) (fun _ _ h => h) fun _ _ h => h
      · exact Tri.pure fun s hs => ⟨hs.1, fun r h => (by cases h)⟩

theorem tri_guarded {c : Cfg σ A} : Tri (fun s : St σ A => Explained s) (guarded c) Step.Explained
    (fun e s => e.isStd = true → Bad s) := by
  refine Tri.tryCatch tri_attempt fun e => ?_
  split
  · exact Tri.pure fun s hs => ⟨hs.1, fun r h => (by cases h)⟩
  · next h1 =>
    split
    · exact Tri.pure fun s hs => ⟨hs.1, fun r h => (by cases h)⟩
    · next h2 => exact Tri.throw fun s hs hstd => hs.2 ⟨hstd, h2, h1⟩

theorem tri_doWhile {c : Cfg σ A} : ∀ fuel : Nat, Tri (fun s : St σ A => Explained s) (doWhile c fuel)
    (fun v s => Explained s ∧ ∀ r, v = some r → Bad s) (fun e s => e.isStd = true → Bad s)
  | 0 => fun s _ => ⟨fun a s' h => (by cases h), fun e' s' h => (by cases h)⟩
  | fuel + 1 => by
    rw [doWhile]
    refine Tri.bind tri_guarded fun v => ?_
    cases v with
    | pass => exact Tri.pure fun s hs => ⟨hs.1, fun r h => (by cases h)⟩
    | again => exact (tri_doWhile fuel).weaken (fun s hs => hs.1) (fun _ _ h => h) fun _ _ h => h
    | stop r => exact Tri.pure fun s hs => ⟨hs.1, fun r' _ => hs.2 r rfl⟩

theorem tri_forLoop {c : Cfg σ A} (fuel : Nat) : ∀ left : Nat, Tri (fun s : St σ A => Explained s)
    (forLoop c fuel left) (fun r s => r.verdict = false → Bad s) (fun e s => e.isStd = true → Bad s)
  | 0 => Tri.pure fun s _ h => (by cases h)
  | left + 1 => by
    rw [forLoop]
    refine Tri.bind (Q := fun _ s => Explained s) (Tri.reads fun s hs => hs) fun el => ?_
    split
    · exact Tri.reads fun s hs h => (by cases h)
    · refine Tri.bind (tri_doWhile fuel) fun v => ?_
      cases v with
      | some r => exact Tri.pure fun s hs _ => hs.2 r rfl
      | none =>
        refine Tri.bind (Q := fun _ s => Explained s) (Tri.modify fun s hs => hs.1) fun _ => ?_
        exact tri_forLoop fuel left

theorem forAll_bad {c : Cfg σ A} {fuel : Nat} {seed : σ} {r : Report A} {tr : Trace A}
    (h : forAll c fuel seed [] = (.ok r, tr)) (hv : r.verdict = false) : ∃ ev ∈ tr, ev.Failing := by
  have T : Tri (fun s : St σ A => Explained s) (Eng.catchStd (forLoop c fuel c.numRuns) (shrink c))
      (fun r s => r.verdict = false → Bad s) (fun _ _ => True) := by
    refine Tri.tryCatch (tri_forLoop fuel c.numRuns) fun e => ?_
    split
    · next he => exact tri_shrink.weaken (fun s hs => hs he) (fun _ _ h _ => h) fun _ _ _ => trivial
    · exact Tri.throw fun _ _ => trivial
  unfold forAll runForAll Eng.withContext at h
  simp only at h
  obtain ⟨h1, h2⟩ := Prod.mk.inj h
  have := (T ⟨seed, seed, 0, [], []⟩ (fun h => absurd rfl h)).1 r _ (Prod.ext h1 rfl) hv
  rw [← h2]
  exact this

/-! ### Nothing failed -/

/-- Discard or Success is on record. -/
def Intr (s : St σ A) : Prop := ∃ ev ∈ s.trace, ev.Interrupts

/-- The history consists of `k` good runs and the given events, oldest first. -/
def Hist (c : Cfg σ A) (k : Nat) (s : St σ A) (rest : List (Event A)) : Prop :=
  ∃ as : List (Args A), as.length = k ∧ s.trace.reverse = as.flatMap c.goodRun ++ rest

/-- The events of the startup hook in a good run. -/
def suGood (c : Cfg σ A) : List (Event A) := if c.startup.isSome then [.startup .run ⟨[], .ok ()⟩] else []

/-- Between two runs: Discard or Success was thrown before, or there were `k` good runs. -/
def Ready (c : Cfg σ A) (k : Nat) (s : St σ A) : Prop :=
  s.i = k ∧ (Intr s ∨ (s.fails = [] ∧ Hist c k s []))

/-- What holds when an exception leaves a run. -/
def Left (k : Nat) (e : Exn) (s : St σ A) : Prop := (e = .discard ∨ e = .success) → s.i = k ∧ Intr s

theorem Intr.cons {s : St σ A} (h : Intr s) (x : Event A) (r : σ) (r' : σ) (i : Nat) (fs : List String) :
    Intr ⟨r, r', i, fs, x :: s.trace⟩ := by
  obtain ⟨ev, h1, h2⟩ := h
  exact ⟨ev, List.mem_cons_of_mem _ h1, h2⟩

theorem Intr.here {x : Event A} (h : x.Interrupts) (r : σ) (r' : σ) (i : Nat) (fs : List String) (tr : Trace A) :
    Intr ⟨r, r', i, fs, x :: tr⟩ := ⟨x, List.mem_cons_self, h⟩

theorem Hist.cons {c : Cfg σ A} {k : Nat} {s : St σ A} {rest : List (Event A)} (h : Hist c k s rest) (x : Event A)
    (r : σ) (r' : σ) (i : Nat) (fs : List String) : Hist c k ⟨r, r', i, fs, x :: s.trace⟩ (rest ++ [x]) := by
  obtain ⟨as, h1, h2⟩ := h
  exact ⟨as, h1, by simp [h2]⟩

theorem good_startup {c : Cfg σ A} {k : Nat} : Tri (Ready c k) (runStartup c .run)
    (fun _ s => s.i = k ∧ (Intr s ∨ s.fails ≠ [] ∨ Hist c k s (suGood c))) (Left k) := by
  cases hst : c.startup with
  | none =>
    rw [runStartup_none hst]
    intro s hs
    refine ⟨fun a s' h => ?_, fun e' s' h => (by cases h)⟩
    cases h
    refine ⟨hs.1, hs.2.imp id fun h => Or.inr ?_⟩
    simpa [suGood, hst] using h.2
  | some f =>
    rw [runStartup_some f hst]
    intro s hs
    refine Tri.record (P := fun t => t = s) (fun t a ht ha => ?_) (fun t e ht he => ?_) s rfl
    · subst ht
      refine ⟨hs.1, ?_⟩
      rcases hs.2 with h | ⟨h1, h2⟩
      · exact Or.inl (h.cons _ _ _ _ _)
      · refine Or.inr ?_
        by_cases hf : (f t.trace).fails = []
        · refine Or.inr ?_
          have e : f t.trace = ⟨[], .ok ()⟩ := by
            rw [← hf, ← ha]
          rw [e]
          have := h2.cons (.startup .run ⟨[], .ok ()⟩) t.rand t.saved t.i (t.fails ++ [])
          simpa [suGood, hst] using this
        · exact Or.inl (by simp [hf])
    · subst ht
      intro hx
      refine ⟨hs.1, Intr.here (x := .startup .run _) ?_ _ _ _ _ _⟩
      rcases hx with hx | hx
      · exact Or.inl (hx ▸ he)
      · exact Or.inr (hx ▸ he)

theorem good_draw {c : Cfg σ A} {k : Nat} {P : St σ A → Prop} (hP : ∀ s r, P s → P { s with rand := r })
    (hi : ∀ s, P s → s.i = k) : Tri P (drawRun c) (fun _ s => P s) (Left k) := by
  intro s hs
  rw [drawRun_apply]
  cases Gen.drawTuple c.gens c.orderRun s.rand with
  | ok p =>
    refine ⟨fun a s' h => ?_, fun e' s' h => (by cases h)⟩
    cases h
    exact hP s p.2 hs
  | throws e =>
    refine ⟨fun a s' h => (by cases h), fun e' s' h => ?_⟩
    cases h
    exact fun hx => ⟨hi s hs, Intr.here (x := .genThrew .run e) hx _ _ _ _ _⟩
  | ub => exact ⟨fun a s' h => (by cases h), fun e' s' h => (by cases h)⟩
  | diverges => exact ⟨fun a s' h => (by cases h), fun e' s' h => (by cases h)⟩

theorem good_call {c : Cfg σ A} {k : Nat} {args : Args A} :
    Tri (fun s => s.i = k ∧ (Intr s ∨ s.fails ≠ [] ∨ Hist c k s (suGood c)))
      (assertToProperty (callFunc c .run args))
      (fun b s => s.i = k ∧ (Intr s ∨ s.fails ≠ [] ∨ b = false ∨
        ∃ a, Hist c k s (suGood c ++ [.call .run a ⟨[], .ok true⟩]))) (Left k) := by
  refine Tri.tryCatch (E := Left k) ?_ (fun e => ?_)
  · intro s hs
    refine Tri.record (P := fun t => t = s) (fun t b ht hb => ?_) (fun t e ht he => ?_) s rfl
    · subst ht
      refine ⟨hs.1, ?_⟩
      rcases hs.2 with h | h | h
      · exact Or.inl (h.cons _ _ _ _ _)
      · exact Or.inr (Or.inl (by simp [h]))
      · refine Or.inr ?_
        by_cases hf : (c.func t.trace args).fails = []
        · refine Or.inr ?_
          cases b with
          | false => exact Or.inl rfl
          | true =>
            refine Or.inr ⟨args, ?_⟩
            have e : c.func t.trace args = ⟨[], .ok true⟩ := by
              rw [← hf, ← hb]
            rw [e]
            exact h.cons _ _ _ _ _
        · exact Or.inl (by simp [hf])
    · subst ht
      intro hx
      refine ⟨hs.1, Intr.here (x := .call .run args _) ?_ _ _ _ _ _⟩
      rcases hx with hx | hx
      · exact Or.inl (hx ▸ he)
      · exact Or.inr (hx ▸ he)
  · split
    · exact Tri.throw fun s hs hx => by rcases hx with hx | hx <;> cases hx
    · exact Tri.throw fun s hs => hs

theorem good_cleanup {c : Cfg σ A} {k : Nat} {b : Bool} :
    Tri (fun s => s.i = k ∧ (Intr s ∨ s.fails ≠ [] ∨ b = false ∨
        ∃ a, Hist c k s (suGood c ++ [.call .run a ⟨[], .ok true⟩])))
      (runCleanup c .run)
      (fun _ s => s.i = k ∧ (Intr s ∨ s.fails ≠ [] ∨ b = false ∨ Hist c (k + 1) s [])) (Left k) := by
  have close : ∀ (s : St σ A) (a : Args A) (cu : List (Event A)),
      c.goodRun a = suGood c ++ [.call .run a ⟨[], .ok true⟩] ++ cu →
      Hist c k s (suGood c ++ [.call .run a ⟨[], .ok true⟩] ++ cu) → Hist c (k + 1) s [] := by
    intro s a cu hg ⟨as, h1, h2⟩
    refine ⟨as ++ [a], by simp [h1], ?_⟩
    rw [h2, ← hg]
    simp
  cases hst : c.cleanup with
  | none =>
    rw [runCleanup_none hst]
    intro s hs
    refine ⟨fun a s' h => ?_, fun e' s' h => (by cases h)⟩
    cases h
    refine ⟨hs.1, hs.2.imp id (Or.imp id (Or.imp id ?_))⟩
    rintro ⟨a, h⟩
    exact close s a [] (by simp [Cfg.goodRun, suGood, hst]) (by simpa using h)
  | some f =>
    rw [runCleanup_some f hst]
    intro s hs
    refine Tri.record (P := fun t => t = s) (fun t b ht hb => ?_) (fun t e ht he => ?_) s rfl
    · subst ht
      refine ⟨hs.1, ?_⟩
      rcases hs.2 with h | h | h | ⟨a, h⟩
      · exact Or.inl (h.cons _ _ _ _ _)
      · exact Or.inr (Or.inl (by simp [h]))
      · exact Or.inr (Or.inr (Or.inl h))
      · refine Or.inr ?_
        by_cases hf : (f t.trace).fails = []
        · refine Or.inr (Or.inr ?_)
          have e : f t.trace = ⟨[], .ok ()⟩ := by
            rw [← hf, ← hb]
          rw [e]
          exact close _ a [.cleanup .run ⟨[], .ok ()⟩] (by simp [Cfg.goodRun, suGood, hst]) (h.cons _ _ _ _ _)
        · exact Or.inl (by simp [hf])
    · subst ht
      intro hx
      refine ⟨hs.1, Intr.here (x := .cleanup .run _) ?_ _ _ _ _ _⟩
      rcases hx with hx | hx
      · exact Or.inl (hx ▸ he)
      · exact Or.inr (hx ▸ he)

theorem good_shrink {c : Cfg σ A} {k : Nat} :
    Tri (fun s : St σ A => s.i = k) (shrink c) (fun _ _ => True) (Left k) := by
  intro s hs
  refine ⟨fun _ _ _ => trivial, fun e s' h hx => ?_⟩
  have := shrink_throws h (by rcases hx with hx | hx <;> subst hx <;> rfl)
  subst this
  exact ⟨hs, Intr.here (x := .genThrew .shrink e) hx _ _ _ _ _⟩

/-- What one attempt leaves behind. -/
def Step.Good (c : Cfg σ A) (k : Nat) (v : Step A) (s : St σ A) : Prop := v = .pass → s.i = k ∧
  (Intr s ∨ (s.fails = [] ∧ Hist c (k + 1) s []))

theorem good_attempt {c : Cfg σ A} {k : Nat} : Tri (Ready c k) (attempt c)
    (fun v s => v ≠ .again ∧ v.Good c k s) (Left k) := by
  unfold attempt
  refine Tri.bind (Q := fun _ => Ready c k) (Tri.modify fun s hs => hs) fun _ => ?_
  refine Tri.bind good_startup fun _ => ?_
  refine Tri.bind (Tri.bind (good_draw (fun s r h => h) fun s h => h.1) fun ts => good_call) fun b => ?_
  refine Tri.bind good_cleanup fun _ => ?_
  refine Tri.bind (Q := fun fs s => s.i = k ∧
    (fs ≠ [] ∨ b = false ∨ Intr s ∨ (s.fails = [] ∧ Hist c (k + 1) s []))) ?_ fun fs => ?_
  · intro s hs
    refine ⟨fun a s' h => ?_, fun e' s' h => (by cases h)⟩
    cases h
    refine ⟨hs.1, ?_⟩
    rcases hs.2 with h | h | h | h
    · exact Or.inr (Or.inr (Or.inl h))
    · exact Or.inl h
    · exact Or.inr (Or.inl h)
    · exact Or.inr (Or.inr (Or.inr ⟨rfl, h⟩))
  · have hstop : Tri (fun s : St σ A => s.i = k) (do let r ← shrink c; pure (.stop r))
        (fun v s => v ≠ .again ∧ Step.Good c k v s) (Left k) :=
      Tri.bind good_shrink fun r => Tri.pure fun s _ => ⟨fun h => (by cases h), fun h => (by cases h)⟩
    split
    · exact hstop.weaken (fun s hs => hs.1) (fun _ _ h => h) fun _ _ h => h
    · next h1 =>
      split
      · exact hstop.weaken (fun s hs => hs.1) (fun _ _ h => h) fun _ _ h => h
      · next h2 =>
        refine Tri.pure fun s hs => ⟨fun h => (by cases h), fun _ => ⟨hs.1, ?_⟩⟩
        rcases hs.2 with h | h | h
        · exact absurd (by simpa using h1) h
        · simp [h] at h2
        · exact h

theorem good_guarded {c : Cfg σ A} {k : Nat} : Tri (Ready c k) (guarded c)
    (fun v s => v.Good c k s ∧ (v = .again → Ready c k s)) (fun _ _ => True) := by
  refine Tri.tryCatch (good_attempt.weaken (fun _ h => h) (fun v s h => ⟨h.2, fun h' => absurd h' h.1⟩)
    fun _ _ h => h) fun e => ?_
  split
  · next he =>
    exact Tri.pure fun s hs => ⟨fun _ => ⟨(hs (Or.inr he)).1, Or.inl (hs (Or.inr he)).2⟩, fun h => (by cases h)⟩
  · split
    · next he =>
      exact Tri.pure fun s hs => ⟨fun h => (by cases h), fun _ => ⟨(hs (Or.inl he)).1, Or.inl (hs (Or.inl he)).2⟩⟩
    · exact Tri.throw fun _ _ => trivial

/-- What a report of success says. -/
def Report.Good (c : Cfg σ A) (total : Nat) (r : Report A) (s : St σ A) : Prop :=
  (r = .passed → Intr s ∨ Hist c total s []) ∧ ∀ j, r = .timedOut j → j < total ∧ (Intr s ∨ Hist c j s [])

/-- The report of a shrink phase is never one of success. -/
theorem shrink_falsified {c : Cfg σ A} : Tri (fun _ : St σ A => True) (shrink c)
    (fun r _ => r.verdict = false) (fun _ _ => True) := by
  intro s _
  refine ⟨fun r s' h => ?_, fun _ _ _ => trivial⟩
  rw [shrink_apply] at h
  cases hd : Gen.drawTuple c.gens c.orderShrink s.saved with
  | throws e' => rw [hd] at h; cases h
  | ub => rw [hd] at h; cases h
  | diverges => rw [hd] at h; cases h
  | ok p =>
    obtain ⟨ts, q⟩ := p
    rw [hd] at h
    simp only at h
    cases hm : shrinkEach c c.orderEach ts { s with saved := q } with
    | mk o s1 =>
      rw [hm] at h
      cases o with
      | ok v => cases h; rfl
      | ub => cases h
      | diverges => cases h
      | throws e' => cases h

theorem stop_attempt {c : Cfg σ A} : Tri (fun _ : St σ A => True) (attempt c)
    (fun v _ => ∀ r, v = .stop r → r.verdict = false) (fun _ _ => True) := by
  have triv : ∀ {α : Type} (m : Eng σ A α), Tri (fun _ => True) m (fun _ _ => True) (fun _ _ => True) :=
    fun m s _ => ⟨fun _ _ _ => trivial, fun _ _ _ => trivial⟩
  have hstop : Tri (fun _ : St σ A => True) (do let r ← shrink c; pure (.stop r))
      (fun (v : Step A) _ => ∀ r, v = .stop r → r.verdict = false) (fun _ _ => True) :=
    Tri.bind shrink_falsified fun r => Tri.pure fun s hs r' h => by cases h; exact hs
  unfold attempt
  refine Tri.bind (triv _) fun _ => Tri.bind (triv _) fun _ => Tri.bind (triv _) fun _ => Tri.bind (triv _) fun _ =>
    Tri.bind (triv _) fun _ => ?_
  split
  · exact hstop
  · split
    · exact hstop
    · exact Tri.pure fun _ _ r h => (by cases h)

theorem stop_guarded {c : Cfg σ A} : Tri (fun _ : St σ A => True) (guarded c)
    (fun v _ => ∀ r, v = .stop r → r.verdict = false) (fun _ _ => True) := by
  refine Tri.tryCatch stop_attempt fun e => ?_
  split
  · exact Tri.pure fun _ _ r h => (by cases h)
  · split
    · exact Tri.pure fun _ _ r h => (by cases h)
    · exact Tri.throw fun _ _ => trivial

theorem good_doWhile {c : Cfg σ A} {k : Nat} : ∀ fuel : Nat, Tri (Ready c k) (doWhile c fuel)
    (fun v s => (v = none → s.i = k ∧ (Intr s ∨ (s.fails = [] ∧ Hist c (k + 1) s []))) ∧
      ∀ r, v = some r → r.verdict = false) (fun _ _ => True)
  | 0 => fun s _ => ⟨fun a s' h => (by cases h), fun e' s' h => (by cases h)⟩
  | fuel + 1 => by
    rw [doWhile]
    refine Tri.bind (Q := fun v s => (v.Good c k s ∧ (v = .again → Ready c k s)) ∧
      ∀ r, v = .stop r → r.verdict = false) (E := fun _ _ => True) ?_ fun v => ?_
    · intro s hs
      exact ⟨fun a s' h => ⟨(good_guarded s hs).1 a s' h, (stop_guarded s trivial).1 a s' h⟩, fun _ _ _ => trivial⟩
    cases v with
    | pass => exact Tri.pure fun s hs => ⟨fun _ => hs.1.1 rfl, fun r h => (by cases h)⟩
    | again => exact (good_doWhile fuel).weaken (fun s hs => hs.1.2 rfl) (fun _ _ h => h) fun _ _ h => h
    | stop r => exact Tri.pure fun s hs => ⟨fun h => (by cases h), fun r' h => by cases h; exact hs.2 r rfl⟩

theorem good_forLoop {c : Cfg σ A} (fuel : Nat) : ∀ left k : Nat, Tri (Ready c k)
    (forLoop c fuel left) (fun r s => Report.Good c (k + left) r s) (fun _ _ => True)
  | 0, k => Tri.pure fun s hs => ⟨fun _ => hs.2.imp id And.right, fun j h => (by cases h)⟩
  | left + 1, k => by
    rw [forLoop]
    refine Tri.bind (Q := fun _ => Ready c k) (Tri.reads fun s hs => hs) fun el => ?_
    split
    · refine Tri.reads fun s hs => ⟨fun h => (by cases h), fun j h => ?_⟩
      cases h
      rw [hs.1]
      exact ⟨by omega, hs.2.imp id And.right⟩
    · refine Tri.bind (good_doWhile fuel) fun v => ?_
      cases v with
      | some r =>
        refine Tri.pure fun s hs => ?_
        have := hs.2 r rfl
        refine ⟨fun h => ?_, fun j h => ?_⟩ <;> subst h <;> cases this
      | none =>
        refine Tri.bind (Q := fun _ => Ready c (k + 1)) (Tri.modify fun s hs => ?_) fun _ => ?_
        · obtain ⟨h1, h2⟩ := hs.1 rfl
          exact ⟨by simp [h1], h2⟩
        · have := good_forLoop (c := c) fuel left (k + 1)
          rwa [show k + 1 + left = k + (left + 1) by omega] at this

theorem forAll_good {c : Cfg σ A} {fuel : Nat} {seed : σ} {r : Report A} {tr : Trace A}
    (h : forAll c fuel seed [] = (.ok r, tr)) (hv : r.verdict = true) :
    (∃ ev ∈ tr, ev.Interrupts) ∨ ∃ as : List (Args A), tr.reverse = as.flatMap c.goodRun ∧
      (r = .passed ∧ as.length = c.numRuns ∨ r = .timedOut as.length ∧ as.length < c.numRuns) := by
  have T : Tri (Ready c 0) (Eng.catchStd (forLoop c fuel c.numRuns) (shrink c))
      (fun r s => Report.Good c c.numRuns r s) (fun _ _ => True) := by
    refine Tri.tryCatch ((good_forLoop fuel c.numRuns 0).weaken (fun _ h => h) (fun _ _ h => by simpa using h)
      fun _ _ h => h) fun e => ?_
    split
    · refine shrink_falsified.weaken (fun _ _ => trivial) (fun r s h => ?_) fun _ _ h => h
      refine ⟨fun h' => ?_, fun j h' => ?_⟩ <;> subst h' <;> cases h
    · exact Tri.throw fun _ _ => trivial
  unfold forAll runForAll Eng.withContext at h
  simp only at h
  obtain ⟨h1, h2⟩ := Prod.mk.inj h
  have hg := (T ⟨seed, seed, 0, [], []⟩ ⟨rfl, Or.inr ⟨rfl, [], rfl, rfl⟩⟩).1 r _ (Prod.ext h1 rfl)
  subst h2
  cases r with
  | falsified a b d => cases hv
  | passed =>
    refine (hg.1 rfl).imp id ?_
    rintro ⟨as, h3, h4⟩
    exact ⟨as, by simpa using h4, Or.inl ⟨rfl, h3⟩⟩
  | timedOut j =>
    obtain ⟨h5, h6⟩ := hg.2 j rfl
    refine h6.imp id ?_
    rintro ⟨as, h3, h4⟩
    exact ⟨as, by simpa using h4, Or.inr ⟨by rw [h3], by omega⟩⟩

end Engine
end Verif
