import Verif.Spec.Live
namespace Verif
namespace Live
variable {σ α β γ : Type}

theorem has_flatMap {f : α → σ → Outcome (β × σ)} {r : Run σ α} {c : LShr σ β} (h : (r.flatMap f).Has c) :
    ∃ d, r.Has d ∧ (∃ s s', f d.value s = .ok (c.value, s')) ∧ c.shrinks = fun s => (d.shrinks s).flatMap f := by
  induction r with
  | stop o => cases h
  | nil s => cases h
  | cons s v shrinks tail _ iht =>
    simp only [Run.flatMap, Run.after] at h
    split at h
    · rename_i b s' hb
      cases h with
      | head => exact ⟨_, .head _ _ _ _, ⟨_, _, hb⟩, rfl⟩
      | tail _ s1 _ _ _ _ h =>
        obtain ⟨d, hd, hr⟩ := iht s1 h
        exact ⟨d, .tail _ s1 _ _ _ _ hd, hr⟩
    all_goals cases h

/-- What is met below a transformed stream. -/
theorem desc_flatMap {f : α → σ → Outcome (β × σ)} {c e : LShr σ β} (h : c.Desc e) :
    ∀ d : LShr σ α, c.shrinks = (fun s => (d.shrinks s).flatMap f) → e = c ∨ ∃ d', d.Desc d' ∧ ∃ s s', f d'.value s = .ok (e.value, s') := by
  induction h with
  | self t => exact fun _ _ => .inl rfl
  | step t c' e s hc _ ih =>
    intro d hd
    rw [hd] at hc
    obtain ⟨d', hd', hv, hs⟩ := has_flatMap hc
    rcases ih d' hs with rfl | ⟨d'', hd'', hr⟩
    · exact .inr ⟨d', .step _ _ _ _ hd' (.self _), hv⟩
    · exact .inr ⟨d'', .step _ _ _ _ hd' hd'', hr⟩

theorem reach_flatMap {f : α → σ → Outcome (β × σ)} {t : LShr σ α} {u : LShr σ β} {s s' : σ} (h : t.flatMap f s = .ok (u, s'))
    {b : β} (hr : u.Reach b) : ∃ d, t.Desc d ∧ ∃ s s', f d.value s = .ok (b, s') := by
  obtain ⟨e, he, rfl⟩ := hr
  simp only [LShr.flatMap] at h
  obtain ⟨⟨b', s1⟩, hb, h⟩ := Outcome.bind_eq_ok.1 h
  simp only [Outcome.pure_eq, Outcome.ok.injEq, Prod.mk.injEq] at h
  obtain ⟨rfl, _⟩ := h
  rcases desc_flatMap he t rfl with rfl | ⟨d, hd, hr⟩
  · exact ⟨t, .self t, _, _, hb⟩
  · exact ⟨d, hd, hr⟩

/-- What `andThen` offers: shrinks of the stream, transformed. `Via thn d c`: `c` is `d` after `andThen`. -/
inductive Via (thn : LShr σ α → σ → Run σ α) : LShr σ α → LShr σ α → Prop where
  | empty (d : LShr σ α) : Via thn d ⟨d.value, thn d⟩
  | more (d : LShr σ α) : Via thn d ⟨d.value, fun s => (d.shrinks s).andThen thn⟩

theorem has_andThen {thn : LShr σ α → σ → Run σ α} {r : Run σ α} {c : LShr σ α} (h : (r.andThen thn).Has c) :
    ∃ d, r.Has d ∧ Via thn d c := by
  induction r with
  | stop o => cases h
  | nil s => cases h
  | cons s v shrinks tail _ iht =>
    simp only [Run.andThen] at h
    split at h
    · rename_i s' hs
      cases h with
      | head =>
        refine ⟨_, .head _ _ _ _, ?_⟩
        split
        · exact .empty _
        · exact .more _
      | tail _ s1 _ _ _ _ h =>
        obtain ⟨d, hd, hr⟩ := iht s1 h
        exact ⟨d, .tail _ s1 _ _ _ _ hd, hr⟩
    all_goals cases h

/-- What is met below `andThen`: a value below the shrinkable itself, or something below what `thn` makes of one of them. -/
theorem desc_andThen {thn : LShr σ α → σ → Run σ α} {c e : LShr σ α} (h : c.Desc e) :
    ∀ d : LShr σ α, Via thn d c → (∃ d', d.Desc d' ∧ Via thn d' e) ∨ ∃ d' s x, d.Desc d' ∧ (thn d' s).Has x ∧ x.Desc e := by
  induction h with
  | self t => exact fun d hv => .inl ⟨d, .self _, hv⟩
  | step t c' e s hc hrest ih =>
    intro d hv
    cases hv with
    | empty => exact .inr ⟨d, s, c', .self _, hc, hrest⟩
    | more =>
      obtain ⟨d', hd', hv'⟩ := has_andThen hc
      rcases ih d' hv' with ⟨d'', h1, h2⟩ | ⟨d'', s1, x, h1, h2⟩
      · exact .inl ⟨d'', .step _ _ _ _ hd' h1, h2⟩
      · exact .inr ⟨d'', s1, x, .step _ _ _ _ hd' h1, h2⟩

theorem desc_trans {a b c : LShr σ α} (h1 : a.Desc b) (h2 : b.Desc c) : a.Desc c := by
  induction h1 with
  | self => exact h2
  | step t c' d s hc _ ih => exact .step _ _ _ _ hc (ih h2)

/-- What a dependent generator gives: a value of the first generator with a shrinkable for it. -/
theorem dependent_gives {gen1 : LGen σ α} {f : α → LGen σ β} {p : α × LShr σ β} (h : LGen.Gives (dependent gen1 f) p) :
    LGen.Gives gen1 p.1 ∧ ∀ w, p.2.value = w → LGen.Gives (f p.1) w := by
  obtain ⟨s, t, s', h, d, hd, rfl⟩ := h
  simp only [dependent] at h
  obtain ⟨⟨t1, s1⟩, h1, h⟩ := Outcome.bind_eq_ok.1 h
  obtain ⟨⟨i, s2⟩, h2, h⟩ := Outcome.bind_eq_ok.1 h
  simp only [LShr.andThen] at h
  obtain ⟨s3, _, h⟩ := Outcome.bind_eq_ok.1 h
  simp only [Outcome.pure_eq, Outcome.ok.injEq, Prod.mk.injEq] at h
  obtain ⟨rfl, _⟩ := h
  -- every shrinkable below the intermediate one
  have key : ∀ e : LShr σ (α × LShr σ β), i.Desc e → LGen.Gives gen1 e.value.1 ∧ ∃ s s', f e.value.1 s = .ok (e.value.2, s') := by
    intro e he
    obtain ⟨d, hd, x, y, hf⟩ := reach_flatMap h2 ⟨e, he, rfl⟩
    simp only [inter] at hf
    obtain ⟨⟨u, z⟩, hu, hf⟩ := Outcome.bind_eq_ok.1 hf
    simp only [Outcome.pure_eq, Outcome.ok.injEq, Prod.mk.injEq] at hf
    obtain ⟨hf, _⟩ := hf
    rw [← hf]
    exact ⟨⟨_, _, _, h1, d, hd, rfl⟩, _, _, hu⟩
  have hv : Via expand i ⟨i.value, if (i.shrinks s2).isEmpty = true then expand i else fun s => (i.shrinks s).andThen expand⟩ := by
    split
    · exact .empty _
    · exact .more _
  rcases desc_andThen hd i hv with ⟨e, he, hve⟩ | ⟨e, s4, x, he, hx, hxd⟩
  · have hval : d.value = e.value := by cases hve <;> rfl
    obtain ⟨k1, s5, s6, k2⟩ := key e he
    rw [hval]
    exact ⟨k1, fun w hw => ⟨_, _, _, k2, _, .self _, hw⟩⟩
  · obtain ⟨k1, s5, s6, k2⟩ := key e he
    simp only [expand] at hx
    obtain ⟨y, hy, ⟨a, b, hval⟩, hsh⟩ := has_flatMap hx
    rcases desc_flatMap hxd y hsh with rfl | ⟨y', hy', a', b', hval'⟩
    · simp only [Outcome.ok.injEq, Prod.mk.injEq] at hval
      rw [← hval.1]
      exact ⟨k1, fun w hw => ⟨_, _, _, k2, y, .step _ _ _ _ hy (.self _), by simpa [leaf] using hw⟩⟩
    · simp only [Outcome.ok.injEq, Prod.mk.injEq] at hval'
      rw [← hval'.1]
      exact ⟨k1, fun w hw => ⟨_, _, _, k2, y', .step _ _ _ _ hy hy', by simpa [leaf] using hw⟩⟩

/-- What a dependent generator gives after the reformatting. -/
theorem reformat_gives {gen1 : LGen σ α} {f : α → LGen σ β} {k : α × LShr σ β → γ} {x : γ}
    (h : LGen.Gives (fun s => do
      let (i, s) ← dependent gen1 f s
      i.flatMap (fun p s => .ok (k p, s)) s) x) :
    ∃ p, k p = x ∧ LGen.Gives gen1 p.1 ∧ LGen.Gives (f p.1) p.2.value := by
  obtain ⟨s, t, s', h, hr⟩ := h
  obtain ⟨⟨i, s1⟩, h1, h⟩ := Outcome.bind_eq_ok.1 h
  obtain ⟨d, hd, a, b, hf⟩ := reach_flatMap h hr
  simp only [Outcome.ok.injEq, Prod.mk.injEq] at hf
  have := dependent_gives (p := d.value) ⟨_, _, _, h1, d, hd, rfl⟩
  exact ⟨d.value, hf.1, this.1, this.2 _ rfl⟩

/-- Searching ends at a failing value below, all of whose shrinks, as they are made then, pass. -/
theorem search_ok {fails : α → Bool} {v : α} {s' : σ} : ∀ (r : Run σ α) (cur : α), search fails cur r = .ok (v, s') →
    (v = cur ∧ ∃ vs, r.read = .ok (vs, s') ∧ ∀ x ∈ vs, fails x = false) ∨
    ∃ c d s vs, r.Has c ∧ c.Desc d ∧ d.value = v ∧ fails v = true ∧ (d.shrinks s).read = .ok (vs, s') ∧
      ∀ x ∈ vs, fails x = false := by
  intro r
  induction r with
  | stop o =>
    intro cur h
    cases o with
    | ok a => cases a
    | _ => simp [search, Outcome.bind] at h
  | nil s =>
    intro cur h
    simp only [search, Outcome.ok.injEq, Prod.mk.injEq] at h
    obtain ⟨rfl, rfl⟩ := h
    exact .inl ⟨rfl, [], rfl, by simp⟩
  | cons s w shrinks tail ihs iht =>
    intro cur h
    simp only [search] at h
    split at h
    · rename_i s1 hs1
      split at h
      · rename_i hw
        right
        rcases ihs s1 w h with ⟨rfl, vs, h1, h2⟩ | ⟨c, d, s2, vs, h1, h2, h3⟩
        · exact ⟨_, _, s1, vs, .head _ _ _ _, .self _, rfl, hw, h1, h2⟩
        · exact ⟨⟨w, shrinks⟩, d, s2, vs, .head _ _ _ _, .step _ _ _ s1 h1 h2, h3⟩
      · rename_i hw
        rcases iht s cur h with ⟨rfl, vs, h1, h2⟩ | ⟨c, d, s2, vs, h1, h2, h3⟩
        · refine .inl ⟨rfl, w :: vs, by simp [Run.read, h1], ?_⟩
          intro x hx
          rcases List.mem_cons.1 hx with rfl | hx
          · simpa using hw
          · exact h2 x hx
        · exact .inr ⟨c, d, s2, vs, .tail _ _ _ _ _ _ h1, h2, h3⟩
    all_goals simp at h

theorem calm_state {r : Run σ α} (h : r.Calm) : ∃ s, r.state = .ok s := by
  cases r with
  | stop o => exact h.elim
  | nil s => exact ⟨s, rfl⟩
  | cons s v sh tl => exact ⟨s, rfl⟩

theorem calm_flatMap {f : α → σ → Outcome (β × σ)} (hf : ∀ v s, ∃ b s', f v s = .ok (b, s')) {r : Run σ α} (h : r.Calm) :
    (r.flatMap f).Calm := by
  induction r with
  | stop o => exact h.elim
  | nil s => trivial
  | cons s v sh tl ihs iht =>
    obtain ⟨b, s', hb⟩ := hf v s
    simp only [Run.flatMap, hb, Run.after]
    exact ⟨fun s => ihs s (h.1 s), fun s => iht s (h.2 s)⟩

theorem calm_andThen {thn : LShr σ α → σ → Run σ α} (P : α → Prop) (ht : ∀ d s, P d.value → (thn d s).Calm) {r : Run σ α} (h : r.Calm)
    (hP : ∀ c, r.Has c → ∀ d, c.Desc d → P d.value) : (r.andThen thn).Calm := by
  induction r with
  | stop o => exact h.elim
  | nil s => trivial
  | cons s v sh tl ihs iht =>
    obtain ⟨s', hs'⟩ := calm_state (h.1 s)
    simp only [Run.andThen, hs']
    refine ⟨fun s2 => ?_, fun s2 => iht s2 (h.2 s2) fun c hc => hP c (.tail _ _ _ _ _ _ hc)⟩
    split
    · exact ht _ _ (hP _ (.head _ _ _ _) _ (.self _))
    · exact ihs s2 (h.1 s2) fun c hc d hd => hP _ (.head _ _ _ _) _ (.step _ _ _ _ hc hd)

theorem calm_search {fails : α → Bool} : ∀ (r : Run σ α) (cur : α), r.Calm → ∃ v s', search fails cur r = .ok (v, s') := by
  intro r
  induction r with
  | stop o => exact fun _ h => h.elim
  | nil s => exact fun cur _ => ⟨cur, s, rfl⟩
  | cons s w sh tl ihs iht =>
    intro cur h
    obtain ⟨s1, hs1⟩ := calm_state (h.2 s)
    simp only [search, hs1]
    split
    · exact ihs s1 w (h.1 s1)
    · exact iht s cur (h.2 s)

theorem dependent_total {gen1 : LGen σ α} {f : α → LGen σ β} (h1 : LGen.Total gen1) (h2 : ∀ v, LGen.Total (f v)) :
    ∀ s, ∃ t s', dependent gen1 f s = .ok (t, s') ∧ ∀ s, (t.shrinks s).Calm := by
  intro s
  obtain ⟨t, s1, ht, hc⟩ := h1 s
  obtain ⟨u, s2, hu, huc⟩ := h2 t.value s1
  have hf : ∀ v s, ∃ b s', inter f v s = .ok (b, s') := by
    intro v s
    obtain ⟨u, s', hu, _⟩ := h2 v s
    exact ⟨(v, u), s', by simp [inter, hu]⟩
  let i : LShr σ (α × LShr σ β) := ⟨(t.value, u), fun s => (t.shrinks s).flatMap (inter f)⟩
  have hi : t.flatMap (inter f) s1 = .ok (i, s2) := by simp [LShr.flatMap, inter, hu, i]
  have hic : ∀ s, (i.shrinks s).Calm := fun s => calm_flatMap hf (hc s)
  obtain ⟨s3, hs3⟩ := calm_state (hic s2)
  have hP : ∀ d, i.Desc d → ∀ s, (d.value.2.shrinks s).Calm := by
    intro d hd s
    obtain ⟨e, _, a, b, he⟩ := reach_flatMap hi ⟨d, hd, rfl⟩
    obtain ⟨u', z, hu', hcu⟩ := h2 e.value a
    simp only [inter, hu', Outcome.ok_bind, Outcome.pure_eq, Outcome.ok.injEq, Prod.mk.injEq] at he
    rw [← he.1]
    exact hcu s
  have hexp : ∀ (d : LShr σ (α × LShr σ β)) s, (∀ s, (d.value.2.shrinks s).Calm) → (expand d s).Calm := by
    intro d s h
    exact calm_flatMap (fun v s => ⟨_, _, rfl⟩) (h s)
  refine ⟨⟨i.value, if (i.shrinks s2).isEmpty then expand i else fun s => (i.shrinks s).andThen expand⟩, s3, ?_, ?_⟩
  · simp only [dependent, ht, Outcome.ok_bind, hi, LShr.andThen, hs3, Outcome.pure_eq]
  · intro s4
    dsimp only
    split
    · exact hexp i s4 (hP i (.self _))
    · exact calm_andThen (fun p => ∀ s, (p.2.shrinks s).Calm) (fun d s h => hexp d s h) (hic s4)
        fun c hc d hd => hP d (.step _ _ _ s4 hc hd)

theorem reformat_total {gen1 : LGen σ α} {f : α → LGen σ β} {k : α × LShr σ β → γ} (h1 : LGen.Total gen1)
    (h2 : ∀ v, LGen.Total (f v)) :
    LGen.Total (fun s => do
      let (i, s) ← dependent gen1 f s
      i.flatMap (fun p s => .ok (k p, s)) s) := by
  intro s
  obtain ⟨t, s1, ht, hc⟩ := dependent_total h1 h2 s
  refine ⟨⟨k t.value, fun s => (t.shrinks s).flatMap fun p s => .ok (k p, s)⟩, s1, by simp [ht, LShr.flatMap], ?_⟩
  intro s
  exact calm_flatMap (fun v s => ⟨_, _, rfl⟩) (hc s)

mutual
theorem ofList_calm : ∀ (ts : List (Shr α)) (s : σ), (ofList ts s).Calm
  | [], _ => trivial
  | t :: ts, _ => ⟨ofShrinks_calm t, ofList_calm ts⟩
theorem ofShrinks_calm : ∀ (t : Shr α) (s : σ), (ofShrinks t s).Calm
  | .node _ ss, s => ofList_calm ss s
end

theorem ofGen_total {g : Gen σ α} (h : ∀ s, ∃ t s', g s = .ok (t, s')) : LGen.Total (ofGen g) := by
  intro s
  obtain ⟨t, s', ht⟩ := h s
  exact ⟨ofShr t, s', by simp [ofGen, ht], fun s => ofShrinks_calm t s⟩

end Live
end Verif
