import Verif.Lemmas.Live
import Mathlib.Data.Nat.Fib.Basic
/-
Calls of generators when streams of shrinks that draw are evaluated.
-/
namespace Verif
namespace Live
variable {σ α β γ : Type}

/-- The costs of evaluating shrinks, the shrinks of the first shrink and so on, down to a value with `Q` and no shrinks. -/
def Path (calls : σ → Nat) (Q : α → Prop) : List Nat → α → (σ → Run σ α) → Prop
  | [], v, sh => Q v ∧ ∀ s, ∃ s', sh s = .nil s' ∧ calls s' = calls s
  | c :: cs, _, sh => ∀ s, ∃ s' v' sh' tl, sh s = .cons s' v' sh' tl ∧ calls s' = calls s + c ∧ Path calls Q cs v' sh'

theorem path_flatMap {calls : σ → Nat} {Q : α → Prop} {Q' : β → Prop} {f : α → σ → Outcome (β × σ)} {k : Nat}
    (hf : ∀ v s, ∃ b s', f v s = .ok (b, s') ∧ calls s' = calls s + k ∧ Q' b) :
    ∀ (cs : List Nat) (v : α) (sh : σ → Run σ α) (b : β), Path calls Q cs v sh → Q' b →
      Path calls Q' (cs.map (· + k)) b (fun s => (sh s).flatMap f) := by
  intro cs
  induction cs with
  | nil =>
    intro v sh b h hb
    refine ⟨hb, fun s => ?_⟩
    obtain ⟨s', h1, h2⟩ := h.2 s
    exact ⟨s', by simp [h1, Run.flatMap], h2⟩
  | cons c cs ih =>
    intro v sh b h hb s
    obtain ⟨s1, v', sh', tl, h1, h2, h3⟩ := h s
    obtain ⟨b', s2, hb', hc, hq⟩ := hf v' s1
    refine ⟨s2, b', fun s => (sh' s).flatMap f, fun s => (tl s).flatMap f, by simp [h1, Run.flatMap, hb', Run.after], by dsimp only; omega, ?_⟩
    exact ih v' sh' b' h3 hq

/-- The costs after `andThen`, which looks at the first shrink one step ahead; `es` are the costs of what is appended. -/
def ahead (es : List Nat) : List Nat → List Nat
  | [] => es
  | c :: cs => (c + cs.headD 0) :: ahead es cs

theorem path_state {calls : σ → Nat} {Q : α → Prop} {cs : List Nat} {v : α} {sh : σ → Run σ α} (h : Path calls Q cs v sh) (s : σ) :
    ∃ s', (sh s).state = .ok s' ∧ calls s' = calls s + cs.headD 0 ∧ ((sh s).isEmpty = true ↔ cs = []) := by
  cases cs with
  | nil =>
    obtain ⟨s', h1, h2⟩ := h.2 s
    exact ⟨s', by simp [h1, Run.state], by simpa using h2, by simp [h1, Run.isEmpty]⟩
  | cons c cs =>
    obtain ⟨s', v', sh', tl, h1, h2, _⟩ := h s
    exact ⟨s', by simp [h1, Run.state], by simpa using h2, by simp [h1, Run.isEmpty]⟩

theorem path_andThen {calls : σ → Nat} {Q Q' : α → Prop} {thn : LShr σ α → σ → Run σ α} {es : List Nat}
    (ht : ∀ d, Q d.value → Path calls Q' es d.value (thn d)) :
    ∀ (cs : List Nat) (c : Nat) (v : α) (sh : σ → Run σ α), Path calls Q (c :: cs) v sh →
      Path calls Q' (ahead es (c :: cs)) v (fun s => (sh s).andThen thn) := by
  intro cs
  induction cs with
  | nil =>
    intro c v sh h s
    obtain ⟨s1, v', sh', tl, h1, h2, h3⟩ := h s
    obtain ⟨s2, h4, h5, h6⟩ := path_state h3 s1
    have he : (sh' s1).isEmpty = true := h6.2 rfl
    refine ⟨s2, v', thn ⟨v', sh'⟩, fun s => (tl s).andThen thn, by simp [h1, Run.andThen, h4, he], by simp at h5 ⊢; omega, ?_⟩
    exact ht ⟨v', sh'⟩ h3.1
  | cons c' cs ih =>
    intro c v sh h s
    obtain ⟨s1, v', sh', tl, h1, h2, h3⟩ := h s
    obtain ⟨s2, h4, h5, h6⟩ := path_state h3 s1
    have he : (sh' s1).isEmpty = false := by
      cases hx : (sh' s1).isEmpty with
      | false => rfl
      | true => simp [hx] at h6
    refine ⟨s2, v', fun s => (sh' s).andThen thn, fun s => (tl s).andThen thn, by simp [h1, Run.andThen, h4, he],
      by simp at h5 ⊢; omega, ?_⟩
    exact ih c' v' sh' h3

/-- The costs for a tuple of `n` further components. -/
def costs : Nat → List Nat
  | 0 => [0]
  | n + 1 => ahead [0] ((costs n).map (· + 1))

theorem costs_eq (n : Nat) : costs n = (List.range (n + 1)).map fun i => Nat.fib (n - i + 3) - 2 := by
  induction n with
  | zero => rfl
  | succ n ih =>
    have key : ∀ m, ahead [0] (((List.range (m + 1)).map fun i => Nat.fib (m - i + 3) - 2).map (· + 1)) =
        (List.range (m + 2)).map fun i => Nat.fib (m + 1 - i + 3) - 2 := by
      intro m
      induction m with
      | zero => rfl
      | succ m ihm =>
        rw [List.range_succ_eq_map, List.map_cons, List.map_cons, ahead, List.map_map, List.map_map]
        rw [List.range_succ_eq_map (n := m + 2), List.map_cons, List.map_map]
        congr 1
        · rw [List.range_succ_eq_map, List.map_cons]
          simp only [List.headD_cons, Function.comp, Nat.sub_zero]
          have h1 : 2 ≤ Nat.fib (m + 3) := by
            exact Nat.fib_mono (show 3 ≤ m + 3 by omega)
          have h2 : 2 ≤ Nat.fib (m + 4) := by
            exact Nat.fib_mono (show 3 ≤ m + 4 by omega)
          have h3 : Nat.fib (m + 1 + 1 + 3) = Nat.fib (m + 3) + Nat.fib (m + 4) := Nat.fib_add_two (n := m + 3)
          have h4 : m + 1 - Nat.succ 0 + 3 = m + 3 := by omega
          have h5 : m + 1 + 3 = m + 4 := by omega
          rw [h4, h5, h3]
          omega
        · have e1 : ((fun x => x + 1) ∘ (fun i => Nat.fib (m + 1 - i + 3) - 2) ∘ Nat.succ) =
              (fun x => x + 1) ∘ fun i => Nat.fib (m - i + 3) - 2 := by
            funext i
            simp only [Function.comp]
            congr 4
            omega
          have e2 : ((fun i => Nat.fib (m + 1 + 1 - i + 3) - 2) ∘ Nat.succ) = fun i => Nat.fib (m + 1 - i + 3) - 2 := by
            funext i
            simp only [Function.comp]
            congr 3
            omega
          rw [e2, ← ihm, List.map_map]
          exact congrArg (fun g => ahead [0] (List.map g (List.range (m + 1)))) e1
    rw [costs, ih, key]

theorem costs_head (n : Nat) : (costs n).headD 0 = Nat.fib (n + 3) - 2 := by
  rw [costs_eq, List.range_succ_eq_map]
  simp

theorem simple_path {calls : σ → Nat} (v w : α) (cs : List (Shr α)) :
    Path calls (fun _ => True) [0] v (ofShrinks (.node v (.node w [] :: cs)) : σ → Run σ α) := by
  intro s
  exact ⟨s, w, ofShrinks (.node w []), ofList cs, rfl, rfl, trivial, fun s => ⟨s, rfl, rfl⟩⟩

/-- A tuple with one more component. -/
theorem chain_costs {calls : σ → Nat} {gen1 : LGen σ (List α)} {f : List α → Gen σ α} {k c : Nat} {cs : List Nat}
    (h1 : ∀ s, ∃ t s', gen1 s = .ok (t, s') ∧ calls s' = calls s + k ∧ Path calls (fun _ => True) (c :: cs) t.value t.shrinks)
    (h2 : ∀ l, Simple calls (f l)) (s : σ) :
    ∃ t s', chain (fun l v => l ++ [v]) gen1 (fun l => ofGen (f l)) s = .ok (t, s') ∧ calls s' = calls s + (k + 1 + (c + 1)) ∧
      Path calls (fun _ => True) (ahead [0] ((c :: cs).map (· + 1))) t.value t.shrinks := by
  obtain ⟨t, s1, ht, hk, hp⟩ := h1 s
  let Q : List α × LShr σ α → Prop := fun p => Path calls (fun _ => True) [0] p.2.value p.2.shrinks
  have hf : ∀ v s, ∃ b s', inter (fun l => ofGen (f l)) v s = .ok (b, s') ∧ calls s' = calls s + 1 ∧ Q b := by
    intro v s
    obtain ⟨x, w, us, s', hx, hc⟩ := h2 v s
    exact ⟨(v, ofShr (.node x (.node w [] :: us))), s', by simp [inter, ofGen, hx], hc, simple_path x w us⟩
  obtain ⟨b, s2, hb, hc, hq⟩ := hf t.value s1
  have hi := path_flatMap hf (c :: cs) t.value t.shrinks b hp hq
  obtain ⟨s3, h3, h4, h5⟩ := path_state hi s2
  have he : ((t.shrinks s2).flatMap (inter fun l => ofGen (f l))).isEmpty = false := by
    cases hx : ((t.shrinks s2).flatMap (inter fun l => ofGen (f l))).isEmpty with
    | false => rfl
    | true => simp [hx] at h5
  have hthn : ∀ d : LShr σ (List α × LShr σ α), Q d.value → Path calls (fun _ => True) [0] d.value (expand d) := by
    intro d hd
    exact path_flatMap (Q' := fun _ => True) (k := 0) (fun v s => ⟨_, _, rfl, rfl, trivial⟩) [0] _ _ d.value hd trivial
  have ha := path_andThen hthn _ _ b _ hi
  have hr := path_flatMap (Q' := fun _ : List α => True) (k := 0) (f := fun (p : List α × LShr σ α) s => .ok (p.1 ++ [p.2.value], s))
    (fun v s => ⟨_, _, rfl, rfl, trivial⟩) _ b _ (b.1 ++ [b.2.value]) ha trivial
  refine ⟨⟨b.1 ++ [b.2.value], fun s => (((t.shrinks s).flatMap (inter fun l => ofGen (f l))).andThen expand).flatMap
      fun p s => .ok (p.1 ++ [p.2.value], s)⟩, s3, ?_, ?_, ?_⟩
  · simp only [chain, dependent, ht, Outcome.ok_bind, LShr.flatMap, hb, Outcome.pure_eq, LShr.andThen, h3, he]
    rfl
  · simp only [List.map_cons, List.headD_cons] at h4
    omega
  · simpa using hr

theorem two_le_fib (m : Nat) : 2 ≤ Nat.fib (m + 3) := Nat.fib_mono (show 3 ≤ m + 3 by omega)

theorem chains_costs {calls : σ → Nat} (fs : List (List α → Gen σ α)) : ∀ (m : Nat) (gen1 : LGen σ (List α)),
    (∀ s, ∃ t s', gen1 s = .ok (t, s') ∧ calls s' = calls s + (Nat.fib (m + 4) - 2) ∧
      Path calls (fun _ => True) (costs m) t.value t.shrinks) →
    (∀ f ∈ fs, ∀ l, Simple calls (f l)) →
    ∀ s, ∃ t s', chains gen1 (fs.map fun f l => ofGen (f l)) s = .ok (t, s') ∧
      calls s' = calls s + (Nat.fib (m + fs.length + 4) - 2) ∧
      Path calls (fun _ => True) (costs (m + fs.length)) t.value t.shrinks := by
  induction fs with
  | nil => exact fun m gen1 h _ => h
  | cons f fs ih =>
    intro m gen1 h hf
    have hc : ∃ cs, costs m = (Nat.fib (m + 3) - 2) :: cs := by
      rw [costs_eq, List.range_succ_eq_map]
      exact ⟨_, rfl⟩
    obtain ⟨cs, hc⟩ := hc
    have step := ih (m + 1) (chain (fun l v => l ++ [v]) gen1 fun l => ofGen (f l)) ?_ fun g hg => hf g (by simp [hg])
    · have e : m + 1 + fs.length = m + (fs.length + 1) := by omega
      simpa only [List.map_cons, chains, List.length_cons, e] using step
    · intro s
      obtain ⟨t, s', h1, h2, h3⟩ := chain_costs (by simpa only [hc] using h) (hf f (by simp)) s
      refine ⟨t, s', h1, ?_, by simpa only [costs, hc] using h3⟩
      have e1 := two_le_fib m
      have e2 := two_le_fib (m + 1)
      have e3 : Nat.fib (m + 1 + 4) = Nat.fib (m + 3) + Nat.fib (m + 1 + 3) := Nat.fib_add_two (n := m + 3)
      have e4 : Nat.fib (m + 4) = Nat.fib (m + 1 + 3) := rfl
      omega

theorem plain_chain {calls : σ → Nat} {gen1 : LGen σ (List α)} {f : List α → Gen σ α} {k : Nat}
    (h1 : ∀ s, ∃ t s', gen1 s = .ok (t, s') ∧ calls s' = calls s + k ∧ ∀ s, t.shrinks s = .nil s)
    (h2 : ∀ l, Plain calls (f l)) (s : σ) :
    ∃ t s', chain (fun l v => l ++ [v]) gen1 (fun l => ofGen (f l)) s = .ok (t, s') ∧ calls s' = calls s + (k + 1) ∧
      ∀ s, t.shrinks s = .nil s := by
  obtain ⟨t, s1, ht, hk, hn⟩ := h1 s
  obtain ⟨v, s2, hv, hc⟩ := h2 t.value s1
  refine ⟨⟨t.value ++ [v], fun s => .nil s⟩, s2, ?_, by omega, fun s => rfl⟩
  simp [chain, dependent, ht, LShr.flatMap, inter, ofGen, hv, hn, LShr.andThen, Run.flatMap, Run.state, Run.isEmpty, ofShr, expand,
    ofShrinks, ofList, Shr.value]

/-- All evaluations of the stream, at whatever states of the engine, take at most `b` calls; all values have `Q`. -/
def Run.Cheap (calls : σ → Nat) (Q : α → Prop) (b : Nat) (s0 : σ) : Run σ α → Prop
  | .stop _ => True
  | .nil s => calls s ≤ calls s0 + b
  | .cons s v sh tl => calls s ≤ calls s0 + b ∧ Q v ∧ (∀ s, (sh s).Cheap calls Q b s) ∧ ∀ s, (tl s).Cheap calls Q b s

theorem cheap_flatMap {calls : σ → Nat} {Q : α → Prop} {Q' : β → Prop} {f : α → σ → Outcome (β × σ)} {b k : Nat}
    (hf : ∀ v s w s', f v s = .ok (w, s') → calls s' ≤ calls s + k ∧ Q' w) {r : Run σ α} : ∀ {s0 : σ}, r.Cheap calls Q b s0 →
    (r.flatMap f).Cheap calls Q' (b + k) s0 := by
  induction r with
  | stop o => exact fun _ => trivial
  | nil s =>
    intro s0 h
    simp only [Run.Cheap, Run.flatMap] at h ⊢
    omega
  | cons s v sh tl ihs iht =>
    intro s0 h
    simp only [Run.flatMap, Run.after]
    split
    · rename_i w s' hw
      obtain ⟨h1, h2⟩ := hf _ _ _ _ hw
      exact ⟨by have := h.1; omega, h2, fun s => ihs s (h.2.2.1 s), fun s => iht s (h.2.2.2 s)⟩
    all_goals trivial

theorem cheap_state {calls : σ → Nat} {Q : α → Prop} {b : Nat} {r : Run σ α} {s0 s : σ} (h : r.Cheap calls Q b s0)
    (hs : r.state = .ok s) : calls s ≤ calls s0 + b := by
  cases r with
  | stop o => cases o with
    | ok x => cases x
    | _ => simp [Run.state, Outcome.bind] at hs
  | nil s1 => simp only [Run.state, Outcome.ok.injEq] at hs; subst hs; exact h
  | cons s1 v sh tl => simp only [Run.state, Outcome.ok.injEq] at hs; subst hs; exact h.1

theorem cheap_andThen {calls : σ → Nat} {Q Q' : α → Prop} {thn : LShr σ α → σ → Run σ α} {b : Nat} (hQ : ∀ v, Q v → Q' v)
    (ht : ∀ d s, Q d.value → (thn d s).Cheap calls Q' (b + b) s) {r : Run σ α} : ∀ {s0 : σ}, r.Cheap calls Q b s0 →
    (r.andThen thn).Cheap calls Q' (b + b) s0 := by
  induction r with
  | stop o => exact fun _ => trivial
  | nil s =>
    intro s0 h
    simp only [Run.Cheap, Run.andThen] at h ⊢
    omega
  | cons s v sh tl ihs iht =>
    intro s0 h
    simp only [Run.andThen]
    split
    · rename_i s' hs'
      have h1 := cheap_state (h.2.2.1 s) hs'
      refine ⟨by have := h.1; omega, hQ v h.2.1, fun s2 => ?_, fun s2 => iht s2 (h.2.2.2 s2)⟩
      split
      · exact ht _ _ h.2.1
      · exact ihs s2 (h.2.2.1 s2)
    all_goals trivial

mutual
theorem ofList_cheap (calls : σ → Nat) : ∀ (ts : List (Shr α)) (s : σ), (ofList ts s).Cheap calls (fun _ => True) 0 s
  | [], _ => by simp [ofList, Run.Cheap]
  | t :: ts, _ => ⟨by simp, trivial, ofShrinks_cheap calls t, ofList_cheap calls ts⟩
theorem ofShrinks_cheap (calls : σ → Nat) : ∀ (t : Shr α) (s : σ), (ofShrinks t s).Cheap calls (fun _ => True) 0 s
  | .node _ ss, s => ofList_cheap calls ss s
end

theorem cheap_mono {calls : σ → Nat} {Q : α → Prop} {b b' : Nat} (hb : b ≤ b') {r : Run σ α} : ∀ {s0 : σ}, r.Cheap calls Q b s0 →
    r.Cheap calls Q b' s0 := by
  induction r with
  | stop o => exact fun _ => trivial
  | nil s => intro s0 h; simp only [Run.Cheap] at h ⊢; omega
  | cons s v sh tl ihs iht =>
    exact fun h => ⟨by have := h.1; omega, h.2.1, fun s => ihs s (h.2.2.1 s), fun s => iht s (h.2.2.2 s)⟩

theorem chain_cheap {calls : σ → Nat} {gen1 : LGen σ (List α)} {f : List α → Gen σ α} {k b : Nat}
    (h1 : ∀ s t s', gen1 s = .ok (t, s') → calls s' ≤ calls s + k ∧ ∀ s, (t.shrinks s).Cheap calls (fun _ => True) b s)
    (h2 : ∀ l s t s', f l s = .ok (t, s') → calls s' = calls s + 1) (s : σ) (t : LShr σ (List α)) (s' : σ)
    (h : chain (fun l v => l ++ [v]) gen1 (fun l => ofGen (f l)) s = .ok (t, s')) :
    calls s' ≤ calls s + (k + 1 + (b + 1)) ∧ ∀ s, (t.shrinks s).Cheap calls (fun _ => True) ((b + 1) + (b + 1)) s := by
  simp only [chain] at h
  obtain ⟨⟨i, s1⟩, hd, h⟩ := Outcome.bind_eq_ok.1 h
  simp only [dependent] at hd
  obtain ⟨⟨t1, s2⟩, ht1, hd⟩ := Outcome.bind_eq_ok.1 hd
  obtain ⟨⟨j, s3⟩, hj, hd⟩ := Outcome.bind_eq_ok.1 hd
  obtain ⟨c1, c2⟩ := h1 _ _ _ ht1
  let Q : List α × LShr σ α → Prop := fun p => ∀ s, (p.2.shrinks s).Cheap calls (fun _ => True) 0 s
  have hf : ∀ v s w s', inter (fun l => ofGen (f l)) v s = .ok (w, s') → calls s' ≤ calls s + 1 ∧ Q w := by
    intro v s w s' hw
    simp only [inter, ofGen] at hw
    obtain ⟨⟨u, x⟩, hu, hw⟩ := Outcome.bind_eq_ok.1 hw
    obtain ⟨⟨u', x'⟩, hu', hu⟩ := Outcome.bind_eq_ok.1 hu
    simp only [Outcome.pure_eq, Outcome.ok.injEq, Prod.mk.injEq] at hw hu
    obtain ⟨rfl, rfl⟩ := hu
    obtain ⟨rfl, rfl⟩ := hw
    exact ⟨by rw [h2 _ _ _ _ hu'], fun s => ofShrinks_cheap calls u' s⟩
  simp only [LShr.flatMap] at hj
  obtain ⟨⟨w, x⟩, hw, hj⟩ := Outcome.bind_eq_ok.1 hj
  simp only [Outcome.pure_eq, Outcome.ok.injEq, Prod.mk.injEq] at hj
  obtain ⟨rfl, rfl⟩ := hj
  obtain ⟨c3, c4⟩ := hf _ _ _ _ hw
  simp only [LShr.andThen] at hd
  obtain ⟨s4, hs4, hd⟩ := Outcome.bind_eq_ok.1 hd
  simp only [Outcome.pure_eq, Outcome.ok.injEq, Prod.mk.injEq] at hd
  obtain ⟨rfl, rfl⟩ := hd
  have hin : ∀ s, ((t1.shrinks s).flatMap (inter fun l => ofGen (f l))).Cheap calls Q (b + 1) s :=
    fun s => cheap_flatMap hf (c2 s)
  have c5 := cheap_state (hin x) hs4
  simp only [LShr.flatMap, Outcome.ok_bind, Outcome.pure_eq, Outcome.ok.injEq, Prod.mk.injEq] at h
  obtain ⟨rfl, rfl⟩ := h
  have hexp : ∀ (d : LShr σ (List α × LShr σ α)) s, Q d.value → (expand d s).Cheap calls (fun _ => True) ((b + 1) + (b + 1)) s := by
    intro d s hd
    refine cheap_mono (b := 0 + 0) (by omega) (cheap_flatMap ?_ (hd s))
    intro v s w s' h
    simp only [Outcome.ok.injEq, Prod.mk.injEq] at h
    exact ⟨by simp [h.2], trivial⟩
  refine ⟨by omega, fun s => ?_⟩
  refine cheap_mono (b := (b + 1) + (b + 1) + 0) (by omega) (cheap_flatMap (Q := fun _ => True) ?_ ?_)
  · intro v s w s' h
    simp only [Outcome.ok.injEq, Prod.mk.injEq] at h
    exact ⟨by simp [h.2], trivial⟩
  · split
    · exact hexp _ s c4
    · exact cheap_andThen (fun _ _ => trivial) hexp (hin s)

end Live
end Verif
