import Verif.Lemmas.ConcurrencyRun
import Verif.Spec.Interleavings
/-
Which orders of the actions of the rear threads can happen, and what actions that commute do in any order.
-/
namespace Verif
namespace Concurrency
open Engine Stateful
variable {O M : Type} {N : Nat}

/-! ### Every order can happen -/

/-- Five steps of a thread at the start of an action that returns do the action. -/
theorem five_steps {F : Nat} {rears : Fin N → List (Act O M)} {s : Sys N O M} {hist : List (Fin N)}
    (hi : Inv F rears s hist) {t : Fin N} {a : Act O M} {as : List (Act O M)} {m m' : M} {o' : O}
    (ht : s.thr t = ⟨a :: as, .start, m⟩) (ha : (a s.obj m).out = .ok (o', m')) :
    ∃ s', run (List.replicate 5 t) s = .running s' ∧ s'.obj = o' ∧
      (∀ u, s'.thr u = if u = t then ⟨as, .start, m'⟩ else s.thr u) ∧ ∃ hist', Inv F rears s' hist' := by
  obtain ⟨s1, e1, o1, t1⟩ : ∃ s1, step s t = .running s1 ∧ s1.obj = s.obj ∧
      ∀ u, s1.thr u = if u = t then ⟨a :: as, .startStore s.counter, m⟩ else s.thr u := by
    simp only [step, ht]; exact ⟨_, rfl, rfl, fun _ => rfl⟩
  obtain ⟨h1, i1⟩ := hi.step e1
  obtain ⟨s2, e2, o2, t2⟩ : ∃ s2, step s1 t = .running s2 ∧ s2.obj = s1.obj ∧
      ∀ u, s2.thr u = if u = t then ⟨a :: as, .act, m⟩ else s1.thr u := by
    have hp := i1.pending_lt (t := t) (i := s.counter) (by rw [t1 t, if_pos rfl]; rfl)
    have := t1 t
    rw [if_pos rfl] at this
    simp only [step, this, if_pos hp]; exact ⟨_, rfl, rfl, fun _ => rfl⟩
  obtain ⟨h2, i2⟩ := i1.step e2
  obtain ⟨s3, e3, o3, t3⟩ : ∃ s3, step s2 t = .running s3 ∧ s3.obj = o' ∧
      ∀ u, s3.thr u = if u = t then ⟨a :: as, .stop, m'⟩ else s2.thr u := by
    have := t2 t
    rw [if_pos rfl] at this
    simp only [step, this, o2, o1, ha]; exact ⟨_, rfl, rfl, fun _ => rfl⟩
  obtain ⟨h3, i3⟩ := i2.step e3
  obtain ⟨s4, e4, o4, t4⟩ : ∃ s4, step s3 t = .running s4 ∧ s4.obj = s3.obj ∧
      ∀ u, s4.thr u = if u = t then ⟨a :: as, .stopStore s3.counter, m'⟩ else s3.thr u := by
    have := t3 t
    rw [if_pos rfl] at this
    simp only [step, this]; exact ⟨_, rfl, rfl, fun _ => rfl⟩
  obtain ⟨h4, i4⟩ := i3.step e4
  obtain ⟨s5, e5, o5, t5⟩ : ∃ s5, step s4 t = .running s5 ∧ s5.obj = s4.obj ∧
      ∀ u, s5.thr u = if u = t then ⟨as, .start, m'⟩ else s4.thr u := by
    have hp := i4.pending_lt (t := t) (i := s3.counter) (by rw [t4 t, if_pos rfl]; rfl)
    have := t4 t
    rw [if_pos rfl] at this
    simp only [step, this, if_pos hp]; exact ⟨_, rfl, rfl, fun _ => rfl⟩
  refine ⟨s5, by simp only [List.replicate, run, e1, e2, e3, e4, e5], by rw [o5, o4, o3], fun u => ?_, i4.step e5⟩
  rw [t5, t4, t3, t2, t1]
  split_ifs <;> rfl

/-- The schedule that does the actions one after the other in the given order. -/
def inOrder (order : List (Fin N × Act O M)) : List (Fin N) := order.flatMap fun x => List.replicate 5 x.1

theorem reach_order (F : Nat) (rears : Fin N → List (Act O M)) {obj : O} {model : M}
    {order : List (Fin N × Act O M)} {o : O} {ms : Fin N → M} (h : Linear obj model order o ms) :
    ∀ rests : Fin N → List (Act O M), (∀ t, ofThread t order ++ rests t = rears t) →
      ∃ s, run (inOrder order) (rearInit F rears obj model) = .running s ∧ s.obj = o ∧
        (∀ t, s.thr t = ⟨rests t, .start, ms t⟩) := by
  induction h with
  | nil =>
    intro rests hr
    refine ⟨_, rfl, rfl, fun t => ?_⟩
    have := hr t
    simp only [ofThread, List.filter_nil, List.map_nil, List.nil_append] at this
    simp [rearInit, this]
  | snoc order o ms t a o' m' _ ha ih =>
    intro rests hr
    obtain ⟨s, h1, h2, h3⟩ := ih (fun u => if u = t then a :: rests t else rests u) (fun u => by
      have := hr u
      rw [ofThread_snoc] at this
      by_cases hu : u = t
      · subst hu; simpa using this
      · simpa [hu] using this)
    obtain ⟨hist, hi⟩ := run_inv h1
    have ht := h3 t
    rw [if_pos rfl] at ht
    obtain ⟨s', g1, g2, g3, _⟩ := five_steps hi ht (by rw [h2]; exact ha)
    refine ⟨s', ?_, g2, fun u => ?_⟩
    · rw [inOrder, List.flatMap_append, ← inOrder, run_append, h1]
      simpa using g1
    · rw [g3]
      by_cases hu : u = t
      · subst hu; simp
      · simp [hu, h3 u]

/-! ### Actions that commute -/

/-- The actions, done one after the other, lead from one object and models of the threads to others. -/
def Performs : List (Fin N × Act O M) → O → (Fin N → M) → O → (Fin N → M) → Prop
  | [], o, ms, o', ms' => o = o' ∧ ms = ms'
  | (t, a) :: l, o, ms, o', ms' =>
    ∃ p q, (a o (ms t)).out = .ok (p, q) ∧ Performs l p (fun u => if u = t then q else ms u) o' ms'

theorem Performs.append (l l' : List (Fin N × Act O M)) (o : O) (ms : Fin N → M) (o' : O) (ms' : Fin N → M) :
    Performs (l ++ l') o ms o' ms' ↔ ∃ p ps, Performs l o ms p ps ∧ Performs l' p ps o' ms' := by
  induction l generalizing o ms with
  | nil =>
    simp only [List.nil_append, Performs]
    constructor
    · intro h; exact ⟨o, ms, ⟨rfl, rfl⟩, h⟩
    · rintro ⟨_, _, ⟨rfl, rfl⟩, h⟩; exact h
  | cons x l ih =>
    obtain ⟨t, a⟩ := x
    simp only [List.cons_append, Performs, ih]
    constructor
    · rintro ⟨p, q, h, p', ps', h', h''⟩; exact ⟨p', ps', ⟨p, q, h, h'⟩, h''⟩
    · rintro ⟨p', ps', ⟨p, q, h, h'⟩, h''⟩; exact ⟨p, q, h, p', ps', h', h''⟩

theorem Linear.performs {obj : O} {model : M} {order : List (Fin N × Act O M)} {o : O} {ms : Fin N → M}
    (h : Linear obj model order o ms) : Performs order obj (fun _ => model) o ms := by
  induction h with
  | nil => exact ⟨rfl, rfl⟩
  | snoc order o ms t a o' m' _ ha ih =>
    rw [Performs.append]
    exact ⟨o, ms, ih, o', m', ha, rfl, rfl⟩

theorem Performs.unique {l : List (Fin N × Act O M)} {o p q : O} {ms ps qs : Fin N → M}
    (h : Performs l o ms p ps) (h' : Performs l o ms q qs) : p = q ∧ ps = qs := by
  induction l generalizing o ms with
  | nil => exact ⟨h.1.symm.trans h'.1, h.2.symm.trans h'.2⟩
  | cons x l ih =>
    obtain ⟨p1, q1, h1, h2⟩ := h
    obtain ⟨p2, q2, h3, h4⟩ := h'
    rw [h1] at h3
    cases h3
    exact ih h2 h4

theorem Performs.swap {t u : Fin N} {a b : Act O M} (hn : t ≠ u) (hc : Commute a b) (l : List (Fin N × Act O M)) (o : O)
    (ms : Fin N → M) (o' : O) (ms' : Fin N → M) :
    Performs ((t, a) :: (u, b) :: l) o ms o' ms' ↔ Performs ((u, b) :: (t, a) :: l) o ms o' ms' := by
  simp only [Performs, if_neg hn, if_neg (Ne.symm hn)]
  constructor
  · rintro ⟨p, q, h1, p', q', h2, h3⟩
    obtain ⟨r, h4, h5⟩ := (hc o (ms t) (ms u) p' q q').1 ⟨p, h1, h2⟩
    refine ⟨r, q', h4, p', q, h5, ?_⟩
    convert h3 using 2 with v
    by_cases h6 : v = t
    · subst h6; simp [hn]
    · simp [h6]
  · rintro ⟨p, q, h1, p', q', h2, h3⟩
    obtain ⟨r, h4, h5⟩ := (hc o (ms t) (ms u) p' q' q).2 ⟨p, h1, h2⟩
    refine ⟨r, q', h4, p', q, h5, ?_⟩
    convert h3 using 2 with v
    by_cases h6 : v = t
    · subst h6; simp [hn]
    · simp [h6]

theorem Performs.move {t : Fin N} {a : Act O M} (pre l : List (Fin N × Act O M))
    (hp : ∀ x ∈ pre, t ≠ x.1 ∧ Commute a x.2) (o : O) (ms : Fin N → M) (o' : O) (ms' : Fin N → M) :
    Performs (pre ++ (t, a) :: l) o ms o' ms' ↔ Performs ((t, a) :: (pre ++ l)) o ms o' ms' := by
  induction pre generalizing o ms with
  | nil => exact Iff.rfl
  | cons x pre ih =>
    obtain ⟨u, b⟩ := x
    have hx := hp (u, b) (by simp)
    rw [List.cons_append, List.cons_append, Performs.swap hx.1 hx.2]
    simp only [Performs]
    refine exists_congr fun p => exists_congr fun q => and_congr_right fun _ => ?_
    rw [ih fun y hy => hp y (by simp [hy])]
    rfl

theorem ofThread_cons {α : Type} (u t : Fin N) (x : α) (l : List (Fin N × α)) :
    ofThread u ((t, x) :: l) = if t = u then x :: ofThread u l else ofThread u l := by
  unfold ofThread
  by_cases h : t = u <;> simp [h]

theorem ofThread_append {α : Type} (u : Fin N) (l l' : List (Fin N × α)) :
    ofThread u (l ++ l') = ofThread u l ++ ofThread u l' := by
  simp [ofThread]

theorem mem_ofThread {α : Type} {t : Fin N} {a : α} {l : List (Fin N × α)} : a ∈ ofThread t l ↔ (t, a) ∈ l := by
  simp only [ofThread, List.mem_map, List.mem_filter, decide_eq_true_eq, Prod.exists]
  constructor
  · rintro ⟨u, b, ⟨h, rfl⟩, rfl⟩; exact h
  · intro h; exact ⟨t, a, ⟨h, rfl⟩, rfl⟩

theorem ofThread_split {α : Type} {t : Fin N} {a : α} {as : List α} {l : List (Fin N × α)}
    (h : ofThread t l = a :: as) : ∃ pre post, l = pre ++ (t, a) :: post ∧ (∀ x ∈ pre, t ≠ x.1) := by
  induction l with
  | nil => cases h
  | cons x l ih =>
    obtain ⟨u, b⟩ := x
    rw [ofThread_cons] at h
    by_cases hu : u = t
    · rw [if_pos hu] at h
      cases h
      subst hu
      exact ⟨[], l, rfl, by simp⟩
    · rw [if_neg hu] at h
      obtain ⟨pre, post, h1, h2⟩ := ih h
      refine ⟨(u, b) :: pre, post, by rw [h1]; rfl, ?_⟩
      intro y hy
      rcases List.mem_cons.1 hy with rfl | hy
      · exact Ne.symm hu
      · exact h2 y hy

theorem Performs.any_order (l l' : List (Fin N × Act O M)) (he : ∀ t, ofThread t l = ofThread t l')
    (hc : Commuting fun t => ofThread t l) (o : O) (ms : Fin N → M) (o' : O) (ms' : Fin N → M) :
    Performs l o ms o' ms' ↔ Performs l' o ms o' ms' := by
  induction l generalizing l' o ms with
  | nil =>
    have : l' = [] := by
      cases l' with
      | nil => rfl
      | cons x l' =>
        have := he x.1
        rw [ofThread_cons, if_pos rfl] at this
        cases this
    rw [this]
  | cons x l ih =>
    obtain ⟨t, a⟩ := x
    have ht := he t
    rw [ofThread_cons, if_pos rfl] at ht
    obtain ⟨pre, post, rfl, h2⟩ := ofThread_split ht.symm
    have h3 : ∀ x ∈ pre, t ≠ x.1 ∧ Commute a x.2 := fun x hx => by
      refine ⟨h2 x hx, hc t x.1 (h2 x hx) a ?_ x.2 ?_⟩
      · simp only [ofThread_cons, if_pos]; simp
      · show x.2 ∈ ofThread x.1 ((t, a) :: l)
        rw [he x.1, mem_ofThread]
        simp [hx]
    rw [Performs.move pre post h3]
    simp only [Performs]
    refine exists_congr fun p => exists_congr fun q => and_congr_right fun _ => ?_
    refine ih (pre ++ post) (fun u => ?_) (fun u v huv b hb c hd => ?_) _ _
    · have hu := he u
      rw [ofThread_append, ofThread_cons, ofThread_cons] at hu
      by_cases h : t = u
      · subst h
        rw [if_pos rfl, if_pos rfl] at hu
        have hpre : ofThread t pre = [] := by
          rw [List.eq_nil_iff_forall_not_mem]
          intro b hb
          exact h2 _ (mem_ofThread.1 hb) rfl
        rw [hpre] at hu
        rw [ofThread_append, hpre]
        simpa using hu
      · rw [if_neg h, if_neg h] at hu
        rw [ofThread_append, hu]
    · refine hc u v huv b ?_ c ?_
      · rw [mem_ofThread] at hb ⊢; simp [hb]
      · rw [mem_ofThread] at hd ⊢; simp [hd]

/-- All actions of the lists, one thread after the other. -/
def listing (rears : Fin N → List (Act O M)) : List (Fin N × Act O M) :=
  (List.finRange N).flatMap fun t => (rears t).map fun a => (t, a)

theorem ofThread_listing (rears : Fin N → List (Act O M)) (t : Fin N) : ofThread t (listing rears) = rears t := by
  have key : ∀ l : List (Fin N), l.Nodup →
      ofThread t (l.flatMap fun t => (rears t).map fun a => (t, a)) = if t ∈ l then rears t else [] := by
    intro l
    induction l with
    | nil => intro _; rfl
    | cons u l ih =>
      intro hn
      rw [List.nodup_cons] at hn
      rw [List.flatMap_cons, ofThread_append, ih hn.2]
      by_cases h : u = t
      · subst h
        have : ofThread u ((rears u).map fun a => (u, a)) = rears u := by
          simp [ofThread, List.filter_map, Function.comp_def]
        rw [this]; simp [hn.1]
      · have : ofThread t ((rears u).map fun a => (u, a)) = [] := by
          simp [ofThread, List.filter_map, Function.comp_def, h]
        rw [this]; simp [Ne.symm h]
  rw [listing, key _ (List.nodup_finRange N), if_pos (List.mem_finRange t)]

/-- If the actions commute and can all be done in some order, an action about to be done returns. -/
theorem commuting_acts {F : Nat} {rears : Fin N → List (Act O M)} {obj : O} {model : M} (hc : Commuting rears)
    {order : List (Fin N × Act O M)} {o' : O} {ms' : Fin N → M} (hl : Linear obj model order o' ms')
    (ho : ∀ t, ofThread t order = rears t) {sched : List (Fin N)} {s : Sys N O M}
    (hr : run sched (rearInit F rears obj model) = .running s) {t : Fin N} {a : Act O M} {as : List (Act O M)} {m : M}
    (ht : s.thr t = ⟨a :: as, .act, m⟩) : ∃ r, (a s.obj m).out = .ok r := by
  obtain ⟨done, h1, h2⟩ := run_lin hr
  have hp := hl.performs
  rw [Performs.any_order order (done ++ (t, a) :: listing fun u => if u = t then as else (s.thr u).todo)
    (fun u => ?_) (fun u v huv b hb c hd => ?_)] at hp
  · rw [Performs.append] at hp
    obtain ⟨p, ps, h3, p', q', h4, _⟩ := hp
    obtain ⟨rfl, rfl⟩ := h1.performs.unique h3
    simp only [ht] at h4
    exact ⟨_, h4⟩
  · rw [ho u, ofThread_append, ofThread_cons, ofThread_listing, ← h2 u]
    by_cases hu : t = u
    · subst hu; simp [ht, Thr.todo]
    · simp [hu, Ne.symm hu]
  · simp only [ho] at hb hd
    exact hc u v huv b hb c hd

theorem commuting_finishes {F : Nat} {rears : Fin N → List (Act O M)} {obj : O} {model : M} (hc : Commuting rears)
    {order : List (Fin N × Act O M)} {o' : O} {ms' : Fin N → M} (hl : Linear obj model order o' ms')
    (ho : ∀ t, ofThread t order = rears t) (sched done : List (Fin N)) (s : Sys N O M)
    (hr : run done (rearInit F rears obj model) = .running s) : ∃ s', run sched s = .running s' ∧
      ((∀ t, (s.thr t).left ≤ sched.count t) → s'.Joined) := by
  induction sched generalizing s done with
  | nil =>
    refine ⟨s, rfl, fun hcount t => ?_⟩
    have := hcount t
    have hd : (s.thr t).pc.done ≤ 4 := by cases (s.thr t).pc <;> simp [Pc.done]
    simp only [List.count_nil, Thr.left] at this
    exact List.length_eq_zero_iff.mp (by omega)
  | cons t l ih =>
    obtain ⟨hist, h⟩ := run_inv hr
    obtain ⟨s1, h1, h2, h3⟩ : ∃ s', Concurrency.step s t = .running s' ∧ (s'.thr t).left = (s.thr t).left - 1 ∧
        ∀ u, u ≠ t → s'.thr u = s.thr u := by
      unfold Concurrency.step
      split
      · next p m ht => exact ⟨s, rfl, by rw [ht]; simp [Thr.left], fun _ _ => rfl⟩
      · next a as m ht =>
        refine ⟨_, rfl, ?_, fun u hu => by simp [Sys.setThr, hu]⟩
        rw [ht]; simp [Sys.setThr, Thr.left, Pc.done]
      · next a as i m ht =>
        rw [if_pos (h.pending_lt (t := t) (by rw [ht]; rfl))]
        refine ⟨_, rfl, ?_, fun u hu => by simp [Sys.setThr, hu]⟩
        rw [ht]; simp [Sys.setThr, Thr.left, Pc.done]; omega
      · next a as m ht =>
        obtain ⟨⟨o, m'⟩, hq⟩ := commuting_acts hc hl ho hr ht
        rw [hq]
        refine ⟨_, rfl, ?_, fun u hu => by simp [Sys.setThr, hu]⟩
        rw [ht]; simp [Sys.setThr, Thr.left, Pc.done]; omega
      · next a as m ht =>
        refine ⟨_, rfl, ?_, fun u hu => by simp [Sys.setThr, hu]⟩
        rw [ht]; simp [Sys.setThr, Thr.left, Pc.done]; omega
      · next a as i m ht =>
        rw [if_pos (h.pending_lt (t := t) (by rw [ht]; rfl))]
        refine ⟨_, rfl, ?_, fun u hu => by simp [Sys.setThr, hu]⟩
        rw [ht]; simp [Sys.setThr, Thr.left, Pc.done]; omega
    obtain ⟨s', g1, g2⟩ := ih (done ++ [t]) s1 (by rw [run_append, hr]; simp [run, h1])
    refine ⟨s', by simp only [run, h1]; exact g1, fun hcount => g2 fun u => ?_⟩
    have hu := hcount u
    by_cases he : u = t
    · subst he
      rw [List.count_cons_self] at hu
      omega
    · rw [h3 u he]
      rw [List.count_cons_of_ne (Ne.symm he)] at hu
      exact hu

theorem Performs.linear {obj : O} {model : M} {l : List (Fin N × Act O M)} {o' : O} {ms' : Fin N → M}
    (h : Performs l obj (fun _ => model) o' ms') : Linear obj model l o' ms' := by
  have key : ∀ (l done : List (Fin N × Act O M)) (o : O) (ms : Fin N → M), Linear obj model done o ms →
      Performs l o ms o' ms' → Linear obj model (done ++ l) o' ms' := by
    intro l
    induction l with
    | nil =>
      rintro done o ms h1 ⟨rfl, rfl⟩
      simpa using h1
    | cons x l ih =>
      obtain ⟨t, a⟩ := x
      rintro done o ms h1 ⟨p, q, h2, h3⟩
      have := ih (done ++ [(t, a)]) p _ (.snoc done o ms t a p q h1 h2) h3
      simpa using this
  simpa using key l [] obj _ .nil h

theorem runActions_performs (order : List (Fin N × Act O M)) (ho : ∀ x ∈ order, ObjectOnly x.2) (o : O) (m : M)
    (ms : Fin N → M) (o' : O) :
    (∃ m', (runActions (order.map (·.2)) (o, m)).out = .ok (o', m')) ↔ ∃ ms', Performs order o ms o' ms' := by
  induction order generalizing o m ms with
  | nil =>
    simp only [List.map_nil, runActions, Performs, Outcome.ok.injEq, Prod.mk.injEq]
    constructor
    · rintro ⟨m', rfl, rfl⟩; exact ⟨ms, rfl, rfl⟩
    · rintro ⟨ms', rfl, rfl⟩; exact ⟨m, rfl, rfl⟩
  | cons x l ih =>
    obtain ⟨t, a⟩ := x
    have ha : ObjectOnly a := ho (t, a) (by simp)
    have ih := ih fun x hx => ho x (by simp [hx])
    simp only [List.map_cons, runActions, Performs]
    constructor
    · rintro ⟨m', h⟩
      cases hq : (a o m).out with
      | ok r =>
        obtain ⟨p, q⟩ := r
        rw [andThen, hq] at h
        obtain ⟨q', hq'⟩ := (ha o m (ms t) p).1 ⟨q, hq⟩
        obtain ⟨ms', h'⟩ := (ih p q fun u => if u = t then q' else ms u).1 ⟨m', h⟩
        exact ⟨ms', p, q', hq', h'⟩
      | throws e => rw [andThen, hq] at h; cases h
      | ub => rw [andThen, hq] at h; cases h
      | diverges => rw [andThen, hq] at h; cases h
    · rintro ⟨ms', p, q', hq', h'⟩
      obtain ⟨q, hq⟩ := (ha o m (ms t) p).2 ⟨q', hq'⟩
      obtain ⟨m', h⟩ := (ih p q fun u => if u = t then q' else ms u).2 ⟨ms', h'⟩
      exact ⟨m', by rw [andThen, hq]; exact h⟩

/-! ### Actions that throw -/

theorem terminated_step {sched : List (Fin N)} {s : Sys N O M} (h : run sched s = .terminated) :
    ∃ done s' t, run done s = .running s' ∧ step s' t = .terminated := by
  induction sched generalizing s with
  | nil => cases h
  | cons t l ih =>
    simp only [run] at h
    split at h
    · next s1 h1 =>
      obtain ⟨done, s', u, h2, h3⟩ := ih h
      exact ⟨t :: done, s', u, by simp only [run, h1, h2], h3⟩
    · cases h
    · next h1 => exact ⟨[], s, t, rfl, h1⟩

theorem step_terminated {s : Sys N O M} {t : Fin N} (h : step s t = .terminated) :
    ∃ a as m x, s.thr t = ⟨a :: as, .act, m⟩ ∧ (a s.obj m).out = .throws x := by
  unfold step at h
  split at h
  · cases h
  · cases h
  · split at h <;> cases h
  · next a as m ht =>
    split at h
    · cases h
    · next x hx => exact ⟨a, as, m, x, ht, hx⟩
    · cases h
    · cases h
  · cases h
  · split at h <;> cases h

/-- Three steps of a thread at the start of an action that throws end the program. -/
theorem three_steps {F : Nat} {rears : Fin N → List (Act O M)} {s : Sys N O M} {hist : List (Fin N)}
    (hi : Inv F rears s hist) {t : Fin N} {a : Act O M} {as : List (Act O M)} {m : M} {x : Exn}
    (ht : s.thr t = ⟨a :: as, .start, m⟩) (ha : (a s.obj m).out = .throws x) :
    run (List.replicate 3 t) s = .terminated := by
  obtain ⟨s1, e1, o1, t1⟩ : ∃ s1, step s t = .running s1 ∧ s1.obj = s.obj ∧
      s1.thr t = ⟨a :: as, .startStore s.counter, m⟩ := by
    simp only [step, ht]; exact ⟨_, rfl, rfl, by simp [Sys.setThr]⟩
  obtain ⟨h1, i1⟩ := hi.step e1
  obtain ⟨s2, e2, o2, t2⟩ : ∃ s2, step s1 t = .running s2 ∧ s2.obj = s1.obj ∧ s2.thr t = ⟨a :: as, .act, m⟩ := by
    have hp := i1.pending_lt (t := t) (i := s.counter) (by rw [t1]; rfl)
    simp only [step, t1, if_pos hp]; exact ⟨_, rfl, rfl, by simp [Sys.setThr]⟩
  have e3 : step s2 t = .terminated := by simp only [step, t2, o2, o1, ha]
  simp only [List.replicate, run, e1, e2, e3]

/-! ### Class style -/

/-- The thread has these things to do. -/
def Fits (x : ClassThr O M) (es : List (ClassAct O M × ClassDoes)) : Prop :=
  (x.pc = .pre ∧ InTurn x.rest es) ∨
    ∃ a as es', x = ⟨a :: as, .run⟩ ∧ es = (a, .run) :: es' ∧ InTurn as es'

/-- The steps of a thread for what it does. -/
def classInOrder (order : List (Fin 2 × ClassAct O M × ClassDoes)) : List (Fin 2) :=
  order.flatMap fun x => match x.2.2 with
    | .check _ => [x.1]
    | .run => List.replicate 3 x.1

theorem classRun_append (s : ClassSys O M) (l l' : List (Fin 2)) :
    classRun (l ++ l') s = match classRun l s with
      | .running s' => classRun l' s'
      | .ub => .ub
      | .terminated => .terminated := by
  induction l generalizing s with
  | nil => rfl
  | cons t l ih =>
    simp only [List.cons_append, classRun]
    split
    · rw [ih]
    · rfl
    · rfl

theorem class_reach_order (rears : Fin 2 → List (ClassAct O M)) (hlen : (rears 0).length + (rears 1).length ≤ classLogSize)
    {obj : O} {model : M} {order : List (Fin 2 × ClassAct O M × ClassDoes)} {o : O} {m : M}
    (h : ClassLinear obj model order o m) :
    ∀ rem : Fin 2 → List (ClassAct O M × ClassDoes), (∀ t, InTurn (rears t) (ofThread t order ++ rem t)) →
      ∃ s, classRun (classInOrder order) (classInit rears obj model) = .running s ∧ s.obj = o ∧ s.model = m ∧
        ∀ t, Fits (s.thr t) (rem t) := by
  induction h with
  | nil =>
    intro rem hr
    exact ⟨_, rfl, rfl, rfl, fun t => .inl ⟨rfl, by simpa [ofThread, classInit] using hr t⟩⟩
  | @check order o m t a b _ ha ih =>
    intro rem hr
    obtain ⟨s, h1, h2, h3, h4⟩ := ih (fun u => if u = t then (a, .check b) :: rem t else rem u) (fun u => by
      have := hr u
      rw [ofThread_snoc] at this
      by_cases hu : u = t
      · subst hu; simpa using this
      · simpa [hu] using this)
    have ht := h4 t
    rw [if_pos rfl] at ht
    obtain ⟨x, hx⟩ : ∃ x, s.thr t = x := ⟨_, rfl⟩
    rw [hx] at ht
    obtain ⟨xr, xp⟩ := x
    rcases ht with ⟨hpc, hin⟩ | ⟨_, _, _, _, he, _⟩
    · simp only at hpc hin
      subst hpc
      have hstep : ∃ s', classStep s t = .running s' ∧ s'.obj = s.obj ∧ s'.model = s.model ∧
          (∀ u, u ≠ t → s'.thr u = s.thr u) ∧ Fits (s'.thr t) (rem t) := by
        generalize rem t = rt at hin ⊢
        cases hin with
        | @skip as es a hin =>
          rw [← h2, ← h3] at ha
          simp only [classStep, hx, ha]
          exact ⟨_, rfl, rfl, rfl, fun u hu => by simp [ClassSys.setThr, hu],
            .inl ⟨by simp [ClassSys.setThr], by simpa [ClassSys.setThr] using hin⟩⟩
        | @exec as es a hin =>
          rw [← h2, ← h3] at ha
          simp only [classStep, hx, ha]
          exact ⟨_, rfl, rfl, rfl, fun u hu => by simp [ClassSys.setThr, hu],
            .inr ⟨a, as, es, by simp [ClassSys.setThr], rfl, hin⟩⟩
      obtain ⟨s', g1, g2, g3, g4, g5⟩ := hstep
      refine ⟨s', ?_, g2.trans h2, g3.trans h3, fun u => ?_⟩
      · rw [classInOrder, List.flatMap_append, ← classInOrder, classRun_append, h1]
        simp [classRun, g1]
      · by_cases hu : u = t
        · subst hu; exact g5
        · rw [g4 u hu]; have := h4 u; rwa [if_neg hu] at this
    · cases he
  | @run order o m t a o' m' _ ha ih =>
    intro rem hr
    obtain ⟨s, h1, h2, h3, h4⟩ := ih (fun u => if u = t then (a, .run) :: rem t else rem u) (fun u => by
      have := hr u
      rw [ofThread_snoc] at this
      by_cases hu : u = t
      · subst hu; simpa using this
      · simpa [hu] using this)
    have ht := h4 t
    rw [if_pos rfl] at ht
    rcases ht with ⟨_, hin⟩ | ⟨a', as, es', hx, he, hin⟩
    · generalize (s.thr t).rest = r at hin
      cases hin
    · cases he
      rw [← h2, ← h3] at ha
      obtain ⟨s1, e1, o1, m1, t1⟩ : ∃ s1, classStep s t = .running s1 ∧ s1.obj = o' ∧ s1.model = m' ∧
          ∀ u, s1.thr u = if u = t then ⟨a :: as, .fetch⟩ else s.thr u := by
        simp only [classStep, hx, ha]; exact ⟨_, rfl, rfl, rfl, fun _ => rfl⟩
      obtain ⟨s2, e2, o2, m2, t2⟩ : ∃ s2, classStep s1 t = .running s2 ∧ s2.obj = s1.obj ∧ s2.model = s1.model ∧
          ∀ u, s2.thr u = if u = t then ⟨a :: as, .store s1.counter⟩ else s1.thr u := by
        have := t1 t
        rw [if_pos rfl] at this
        simp only [classStep, this]; exact ⟨_, rfl, rfl, rfl, fun _ => rfl⟩
      have i2 := ((classRun_inv h1).step e1).step e2
      obtain ⟨s3, e3, o3, m3, t3⟩ : ∃ s3, classStep s2 t = .running s3 ∧ s3.obj = s2.obj ∧ s3.model = s2.model ∧
          ∀ u, s3.thr u = if u = t then ⟨as, .pre⟩ else s2.thr u := by
        have := t2 t
        rw [if_pos rfl] at this
        have hb := i2.below t s1.counter (by rw [this]; rfl)
        have hroom := i2.room
        have hlt : s1.counter < s2.log.length := by rw [i2.size]; omega
        simp only [classStep, this, if_pos hlt]; exact ⟨_, rfl, rfl, rfl, fun _ => rfl⟩
      refine ⟨s3, ?_, by rw [o3, o2, o1], by rw [m3, m2, m1], fun u => ?_⟩
      · rw [classInOrder, List.flatMap_append, ← classInOrder, classRun_append, h1]
        simp [classRun, e1, e2, e3, List.replicate]
      · rw [t3, t2, t1]
        by_cases hu : u = t
        · subst hu; rw [if_pos rfl]; exact .inl ⟨rfl, hin⟩
        · have := h4 u
          rw [if_neg hu] at this
          simpa [hu] using this

/-! ### Class style actions that commute -/

/-- The things done, one after the other, lead from one object and model to others. -/
def ClassPerforms : List (Fin 2 × ClassAct O M × ClassDoes) → O → M → O → M → Prop
  | [], o, m, o', m' => o = o' ∧ m = m'
  | (_, a, .check b) :: l, o, m, o', m' => (a.precondition o m).out = .ok b ∧ ClassPerforms l o m o' m'
  | (_, a, .run) :: l, o, m, o', m' => ∃ p q, (a.run o m).out = .ok (true, p, q) ∧ ClassPerforms l p q o' m'

theorem ClassPerforms.snoc_check {l : List (Fin 2 × ClassAct O M × ClassDoes)} {o p : O} {m q : M} (t : Fin 2)
    {a : ClassAct O M} {b : Bool} (h : ClassPerforms l o m p q) (ha : (a.precondition p q).out = .ok b) :
    ClassPerforms (l ++ [(t, a, .check b)]) o m p q := by
  induction l generalizing o m with
  | nil => obtain ⟨rfl, rfl⟩ := h; exact ⟨ha, rfl, rfl⟩
  | cons x l ih =>
    obtain ⟨u, c, d⟩ := x
    cases d with
    | check d => exact ⟨h.1, ih h.2⟩
    | run => obtain ⟨p1, q1, h1, h2⟩ := h; exact ⟨p1, q1, h1, ih h2⟩

theorem ClassPerforms.snoc_run {l : List (Fin 2 × ClassAct O M × ClassDoes)} {o p p' : O} {m q q' : M} (t : Fin 2)
    {a : ClassAct O M} (h : ClassPerforms l o m p q) (ha : (a.run p q).out = .ok (true, p', q')) :
    ClassPerforms (l ++ [(t, a, .run)]) o m p' q' := by
  induction l generalizing o m with
  | nil => obtain ⟨rfl, rfl⟩ := h; exact ⟨p', q', ha, rfl, rfl⟩
  | cons x l ih =>
    obtain ⟨u, c, d⟩ := x
    cases d with
    | check d => exact ⟨h.1, ih h.2⟩
    | run => obtain ⟨p1, q1, h1, h2⟩ := h; exact ⟨p1, q1, h1, ih h2⟩

theorem ClassLinear.performs {obj : O} {model : M} {order : List (Fin 2 × ClassAct O M × ClassDoes)} {o : O} {m : M}
    (h : ClassLinear obj model order o m) : ClassPerforms order obj model o m := by
  induction h with
  | nil => exact ⟨rfl, rfl⟩
  | check t a b _ ha ih => exact ih.snoc_check t ha
  | run t a o' m' _ ha ih => exact ih.snoc_run t ha

/-- An evaluation of a precondition may be done first. -/
theorem ClassPerforms.move_check {t : Fin 2} {a : ClassAct O M} {b : Bool}
    (pre post : List (Fin 2 × ClassAct O M × ClassDoes)) (hp : ∀ x ∈ pre, ClassCommute a x.2.1) {o o' : O} {m m' : M}
    (h : ClassPerforms (pre ++ (t, a, .check b) :: post) o m o' m') :
    (a.precondition o m).out = .ok b ∧ ClassPerforms (pre ++ post) o m o' m' := by
  induction pre generalizing o m with
  | nil => exact h
  | cons x pre ih =>
    obtain ⟨u, c, d⟩ := x
    have ih := @ih fun x hx => hp x (by simp [hx])
    cases d with
    | check d => obtain ⟨h1, h2⟩ := ih h.2; exact ⟨h1, h.1, h2⟩
    | run =>
      obtain ⟨p, q, h1, h2⟩ := h
      obtain ⟨h3, h4⟩ := ih h2
      exact ⟨by rw [← (hp (u, c, .run) (by simp)).2.1 o m p q h1]; exact h3, p, q, h1, h4⟩

/-- An execution of an action may be done first. -/
theorem ClassPerforms.move_run {t : Fin 2} {a : ClassAct O M}
    (pre post : List (Fin 2 × ClassAct O M × ClassDoes)) (hp : ∀ x ∈ pre, ClassCommute a x.2.1) {o o' : O} {m m' : M}
    (h : ClassPerforms (pre ++ (t, a, .run) :: post) o m o' m') :
    ∃ p q, (a.run o m).out = .ok (true, p, q) ∧ ClassPerforms (pre ++ post) p q o' m' := by
  induction pre generalizing o m with
  | nil => exact h
  | cons x pre ih =>
    obtain ⟨u, c, d⟩ := x
    have ih := @ih fun x hx => hp x (by simp [hx])
    have hx := hp (u, c, d) (by simp)
    cases d with
    | check d =>
      obtain ⟨p, q, h1, h2⟩ := ih h.2
      exact ⟨p, q, h1, by rw [hx.1 o m p q h1]; exact h.1, h2⟩
    | run =>
      obtain ⟨p, q, h1, h2⟩ := h
      obtain ⟨p', q', h3, h4⟩ := ih h2
      obtain ⟨r, s, h5, h6⟩ := (hx.2.2 o m p' q').2 ⟨p, q, h1, h3⟩
      exact ⟨r, s, h5, p', q', h6, h4⟩

/-- The thread has these things to do after what it is doing. -/
def Ahead (x : ClassThr O M) (es : List (ClassAct O M × ClassDoes)) : Prop :=
  match x.pc with
  | .pre => InTurn x.rest es
  | .run => ∃ a as es', x.rest = a :: as ∧ es = (a, .run) :: es' ∧ InTurn as es'
  | _ => InTurn x.rest.tail es

theorem InTurn.subset {as : List (ClassAct O M)} {es : List (ClassAct O M × ClassDoes)} (h : InTurn as es) :
    ∀ e ∈ es, e.1 ∈ as := by
  induction h with
  | nil => simp
  | skip a _ ih =>
    intro e he
    rcases List.mem_cons.1 he with rfl | he
    · simp
    · exact List.mem_cons_of_mem _ (ih e he)
  | exec a _ ih =>
    intro e he
    rcases List.mem_cons.1 he with rfl | he
    · simp
    · rcases List.mem_cons.1 he with rfl | he
      · simp
      · exact List.mem_cons_of_mem _ (ih e he)

theorem Ahead.subset {x : ClassThr O M} {es : List (ClassAct O M × ClassDoes)} (h : Ahead x es) :
    ∀ e ∈ es, e.1 ∈ x.rest := by
  obtain ⟨r, pc⟩ := x
  cases pc with
  | pre => exact InTurn.subset h
  | run =>
    obtain ⟨a, as, es', h1, rfl, h3⟩ := h
    simp only at h1
    subst h1
    intro e he
    rcases List.mem_cons.1 he with rfl | he
    · simp
    · exact List.mem_cons_of_mem _ (h3.subset e he)
  | fetch => exact fun e he => List.mem_of_mem_tail (InTurn.subset h e he)
  | store i => exact fun e he => List.mem_of_mem_tail (InTurn.subset h e he)

/-- The rest of the run can be done in some order and then leads to the given object and model. -/
def Leads (o' : O) (m' : M) (s : ClassSys O M) : Prop :=
  ∃ l, ClassPerforms l s.obj s.model o' m' ∧ ∀ t, Ahead (s.thr t) (ofThread t l)

theorem Leads.step {rears : Fin 2 → List (ClassAct O M)} {total : Nat} {o' : O} {m' : M} {s : ClassSys O M}
    (hc : ClassCommuting rears) (hi : ClassInv total s) (hf : ClassSuff rears s) (htot : total ≤ classLogSize)
    (h : Leads o' m' s) (t : Fin 2) :
    ∃ s', classStep s t = .running s' ∧ Leads o' m' s' ∧ (s'.thr t).left ≤ (s.thr t).left - 1 ∧
      ∀ u, u ≠ t → s'.thr u = s.thr u := by
  obtain ⟨l, h1, h2⟩ := h
  have hpre : ∀ (a : ClassAct O M) (pre : List (Fin 2 × ClassAct O M × ClassDoes)), a ∈ (s.thr t).rest →
      (∀ x ∈ pre, t ≠ x.1) → (∀ x ∈ pre, x ∈ l) → ∀ x ∈ pre, ClassCommute a x.2.1 := by
    intro a pre ha hp hl x hx
    refine hc t x.1 (hp x hx) a ((hf t).subset ha) x.2.1 ((hf x.1).subset ((h2 x.1).subset x.2 ?_))
    rw [mem_ofThread]; exact hl x hx
  have hdrop : ∀ (pre post : List (Fin 2 × ClassAct O M × ClassDoes)) (e : ClassAct O M × ClassDoes)
      (es : List (ClassAct O M × ClassDoes)), (∀ x ∈ pre, t ≠ x.1) → l = pre ++ (t, e) :: post → ofThread t l = e :: es →
      ofThread t (pre ++ post) = es ∧ ∀ u, u ≠ t → ofThread u (pre ++ post) = ofThread u l := by
    rintro pre post e es hp rfl he
    have hn : ofThread t pre = [] := by
      rw [List.eq_nil_iff_forall_not_mem]
      intro b hb
      exact hp _ (mem_ofThread.1 hb) rfl
    constructor
    · rw [ofThread_append, ofThread_cons, if_pos rfl, hn] at he
      rw [ofThread_append, hn]
      simpa using he
    · intro u hu
      rw [ofThread_append, ofThread_append, ofThread_cons, if_neg (Ne.symm hu)]
  have ht := h2 t
  obtain ⟨x, hx⟩ : ∃ x, s.thr t = x := ⟨_, rfl⟩
  rw [hx] at ht
  obtain ⟨rest, pc⟩ := x
  cases rest with
  | nil =>
    refine ⟨s, ?_, ⟨l, h1, h2⟩, ?_, fun _ _ => rfl⟩
    · simp only [classStep, hx]
    · rw [hx]; simp [ClassThr.left]
  | cons a as =>
    cases pc with
    | pre =>
      generalize hes : ofThread t l = es at ht
      have ht' : InTurn (a :: as) es := ht
      cases ht' with
      | @skip _ es a hin =>
        obtain ⟨pre, post, rfl, hp⟩ := ofThread_split hes
        obtain ⟨g1, g2⟩ := ClassPerforms.move_check pre post
          (hpre a pre (by rw [hx]; simp) hp fun x hx => by simp [hx]) h1
        obtain ⟨d1, d2⟩ := hdrop pre post _ es hp rfl hes
        refine ⟨s.setThr t ⟨as, .pre⟩, by simp only [classStep, hx, g1], ⟨pre ++ post, g2, fun u => ?_⟩, ?_,
          fun u hu => by simp [ClassSys.setThr, hu]⟩
        · by_cases hu : u = t
          · subst hu
            rw [d1]
            simp only [ClassSys.setThr, if_pos]
            exact hin
          · rw [d2 u hu]; simpa [ClassSys.setThr, hu] using h2 u
        · rw [hx]; simp [ClassSys.setThr, ClassThr.left, ClassPc.done]; omega
      | @exec _ es a hin =>
        obtain ⟨pre, post, rfl, hp⟩ := ofThread_split hes
        obtain ⟨g1, g2⟩ := ClassPerforms.move_check pre post
          (hpre a pre (by rw [hx]; simp) hp fun x hx => by simp [hx]) h1
        obtain ⟨d1, d2⟩ := hdrop pre post _ ((a, .run) :: es) hp rfl hes
        refine ⟨s.setThr t ⟨a :: as, .run⟩, by simp only [classStep, hx, g1], ⟨pre ++ post, g2, fun u => ?_⟩, ?_,
          fun u hu => by simp [ClassSys.setThr, hu]⟩
        · by_cases hu : u = t
          · subst hu
            rw [d1]
            simp only [ClassSys.setThr, if_pos]
            exact ⟨a, as, es, rfl, rfl, hin⟩
          · rw [d2 u hu]; simpa [ClassSys.setThr, hu] using h2 u
        · rw [hx]; simp [ClassSys.setThr, ClassThr.left, ClassPc.done]
    | run =>
      obtain ⟨a', as', es, e1, e2, hin⟩ := ht
      cases e1
      obtain ⟨pre, post, rfl, hp⟩ := ofThread_split e2
      obtain ⟨p, q, g1, g2⟩ := ClassPerforms.move_run pre post
        (hpre a pre (by rw [hx]; simp) hp fun x hx => by simp [hx]) h1
      obtain ⟨d1, d2⟩ := hdrop pre post _ es hp rfl e2
      refine ⟨{ s.setThr t ⟨a :: as, .fetch⟩ with obj := p, model := q }, by simp only [classStep, hx, g1],
        ⟨pre ++ post, g2, fun u => ?_⟩, ?_, fun u hu => by simp [ClassSys.setThr, hu]⟩
      · by_cases hu : u = t
        · subst hu
          rw [d1]
          simp only [ClassSys.setThr, if_pos]
          exact hin
        · rw [d2 u hu]; simpa [ClassSys.setThr, hu] using h2 u
      · rw [hx]; simp [ClassSys.setThr, ClassThr.left, ClassPc.done]; omega
    | fetch =>
      refine ⟨{ s.setThr t ⟨a :: as, .store s.counter⟩ with counter := s.counter + 1 }, by simp only [classStep, hx],
        ⟨l, h1, fun u => ?_⟩, ?_, fun u hu => by simp [ClassSys.setThr, hu]⟩
      · by_cases hu : u = t
        · subst hu
          simp only [ClassSys.setThr, if_pos]
          exact ht
        · simpa [ClassSys.setThr, hu] using h2 u
      · rw [hx]; simp [ClassSys.setThr, ClassThr.left, ClassPc.done]; omega
    | store i =>
      have hb := hi.below t i (by rw [hx]; rfl)
      have hroom := hi.room
      have hlt : i < s.log.length := by rw [hi.size]; omega
      refine ⟨{ s.setThr t ⟨as, .pre⟩ with log := s.log.set i ((t : Nat) + 1) },
        by simp only [classStep, hx, if_pos hlt], ⟨l, h1, fun u => ?_⟩, ?_, fun u hu => by simp [ClassSys.setThr, hu]⟩
      · by_cases hu : u = t
        · subst hu
          simp only [ClassSys.setThr, if_pos]
          exact ht
        · simpa [ClassSys.setThr, hu] using h2 u
      · rw [hx]; simp [ClassSys.setThr, ClassThr.left, ClassPc.done]; omega

theorem Leads.finishes {rears : Fin 2 → List (ClassAct O M)} {total : Nat} {o' : O} {m' : M}
    (hc : ClassCommuting rears) (htot : total ≤ classLogSize) (sched : List (Fin 2)) (s : ClassSys O M)
    (hi : ClassInv total s) (hf : ClassSuff rears s) (h : Leads o' m' s)
    (hcount : ∀ t, (s.thr t).left ≤ sched.count t) :
    ∃ s', classRun sched s = .running s' ∧ s'.Joined ∧ s'.obj = o' ∧ s'.model = m' := by
  induction sched generalizing s with
  | nil =>
    have hj : s.Joined := fun t => by
      have := hcount t
      have hd : (s.thr t).pc.done ≤ 3 := by cases (s.thr t).pc <;> simp [ClassPc.done]
      simp only [List.count_nil, ClassThr.left] at this
      exact List.length_eq_zero_iff.mp (by omega)
    obtain ⟨l, h1, h2⟩ := h
    have hl : l = [] := by
      rw [List.eq_nil_iff_forall_not_mem]
      rintro ⟨t, e⟩ he
      have := (h2 t).subset e (mem_ofThread.2 he)
      rw [hj t] at this
      cases this
    subst hl
    exact ⟨s, rfl, hj, h1.1, h1.2⟩
  | cons t l ih =>
    obtain ⟨s1, h1, h2, h3, h4⟩ := h.step hc hi hf htot t
    obtain ⟨s', g1, g2⟩ := ih s1 (hi.step h1) (hf.step h1) h2 fun u => by
      have hu := hcount u
      by_cases he : u = t
      · subst he
        rw [List.count_cons_self] at hu
        omega
      · rw [h4 u he]
        rw [List.count_cons_of_ne (Ne.symm he)] at hu
        exact hu
    exact ⟨s', by simp only [classRun, h1]; exact g1, g2⟩

end Concurrency
end Verif
