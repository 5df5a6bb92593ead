import Verif.Lemmas.Tree
import Verif.Model.Combinator
/-
Lemmas about lazily evaluated dependent shrinkables.
-/
namespace Verif
namespace Comb
open Shr Random ListLike
variable {σ α β γ : Type}

/-- The nodes of a lazily mapped shrinkable: each stems from a node of the original. -/
theorem lazyMap_desc (f : α → σ → Outcome β) (o : List Nat → σ) : ∀ (t : Shr α) (p : List Nat) (x : Shr β),
    lazyMap f o p t = some x → ∀ u, Desc x u →
      ∃ w q, Desc t w ∧ f w.value (o q) = .ok u.value ∧ u.shrinks = lazyMapList f o q 0 w.shrinks := by
  have list : ∀ (ss : List (Shr α)), (∀ s ∈ ss, ∀ (p : List Nat) (x : Shr β), lazyMap f o p s = some x →
      ∀ u, Desc x u → ∃ w q, Desc s w ∧ f w.value (o q) = .ok u.value ∧ u.shrinks = lazyMapList f o q 0 w.shrinks) →
      ∀ (p : List Nat) (i : Nat), ∀ x ∈ lazyMapList f o p i ss, ∀ u, Desc x u →
      ∃ s ∈ ss, ∃ w q, Desc s w ∧ f w.value (o q) = .ok u.value ∧ u.shrinks = lazyMapList f o q 0 w.shrinks := by
    intro ss
    induction ss with
    | nil => intro _ p i x hx; simp [lazyMapList] at hx
    | cons s ss ih =>
      intro h p i x hx u hu
      rw [lazyMapList] at hx
      cases hs : lazyMap f o (i :: p) s with
      | none => simp [hs] at hx
      | some y =>
        simp only [hs, List.mem_cons] at hx
        rcases hx with rfl | hx
        · exact ⟨s, by simp, h s (by simp) _ _ hs u hu⟩
        · obtain ⟨s', hs', r⟩ := ih (fun s hs => h s (by simp [hs])) p (i + 1) x hx u hu
          exact ⟨s', by simp [hs'], r⟩
  intro t
  induction t using Shr.ind with
  | h v ss ih =>
    intro p x hx u hu
    rw [lazyMap] at hx
    cases hv : f v (o p) with
    | ok b =>
      simp only [hv, Option.some.injEq] at hx
      subst hx
      rcases desc_iff.mp hu with rfl | ⟨y, hy, hu⟩
      · exact ⟨node v ss, p, .refl _, hv, rfl⟩
      · obtain ⟨s, hs, w, q, h1, h2⟩ := list ss ih p 0 y hy u hu
        exact ⟨w, q, .step hs h1, h2⟩
    | _ => simp [hv] at hx

theorem lazyMapList_desc (f : α → σ → Outcome β) (o : List Nat → σ) : ∀ (ss : List (Shr α)) (p : List Nat) (i : Nat),
    ∀ x ∈ lazyMapList f o p i ss, ∀ u, Desc x u →
      ∃ s ∈ ss, ∃ w q, Desc s w ∧ f w.value (o q) = .ok u.value ∧ u.shrinks = lazyMapList f o q 0 w.shrinks := by
  intro ss
  induction ss with
  | nil => intro p i x hx; simp [lazyMapList] at hx
  | cons s ss ih =>
    intro p i x hx u hu
    rw [lazyMapList] at hx
    cases hs : lazyMap f o (i :: p) s with
    | none => simp [hs] at hx
    | some y =>
      simp only [hs, List.mem_cons] at hx
      rcases hx with rfl | hx
      · exact ⟨s, by simp, lazyMap_desc f o s _ _ hs u hu⟩
      · obtain ⟨s', hs', r⟩ := ih p (i + 1) x hx u hu
        exact ⟨s', by simp [hs'], r⟩

/-- If every evaluation returns, no node of the original is lost. -/
theorem lazyMap_total (f : α → σ → Outcome β) (o : List Nat → σ) :
    ∀ (t : Shr α), (∀ w, Desc t w → ∀ s, ∃ b, f w.value s = .ok b) → ∀ (p : List Nat), ∃ x, lazyMap f o p t = some x ∧ ∀ w, Desc t w →
      ∃ u q, Desc x u ∧ f w.value (o q) = .ok u.value ∧ u.shrinks = lazyMapList f o q 0 w.shrinks := by
  intro t
  induction t using Shr.ind with
  | h v ss ih =>
    intro hf p
    have ih := fun s hs => ih s hs fun w hw => hf w (.step hs hw)
    obtain ⟨b, hb⟩ := hf _ (.refl _) (o p)
    rw [value_node] at hb
    refine ⟨node b (lazyMapList f o p 0 ss), by simp [lazyMap, hb], fun w hw => ?_⟩
    rcases desc_iff.mp hw with rfl | ⟨s, hs, hw⟩
    · exact ⟨_, p, .refl _, hb, rfl⟩
    · have list : ∀ (ss : List (Shr α)), (∀ s ∈ ss, ∀ (p : List Nat), ∃ x, lazyMap f o p s = some x ∧ ∀ w, Desc s w →
          ∃ u q, Desc x u ∧ f w.value (o q) = .ok u.value ∧ u.shrinks = lazyMapList f o q 0 w.shrinks) →
          s ∈ ss → ∀ (p : List Nat) (i : Nat), ∃ x ∈ lazyMapList f o p i ss,
          ∃ u q, Desc x u ∧ f w.value (o q) = .ok u.value ∧ u.shrinks = lazyMapList f o q 0 w.shrinks := by
        intro ss
        induction ss with
        | nil => intro _ h; simp at h
        | cons s' ss ih' =>
          intro h hm p i
          obtain ⟨x, hx, hd⟩ := h s' (by simp) (i :: p)
          rw [lazyMapList, hx]
          rcases List.mem_cons.mp hm with rfl | hm
          · exact ⟨x, by simp, hd w hw⟩
          · obtain ⟨y, hy, r⟩ := ih' (fun s hs => h s (by simp [hs])) hm p (i + 1)
            exact ⟨y, by simp [hy], r⟩
      obtain ⟨x, hx, u, q, h1, h2⟩ := list ss ih hs p 0
      exact ⟨u, q, .step (by simpa using hx) h1, h2⟩

theorem lazyMapList_total (f : α → σ → Outcome β) (o : List Nat → σ)
    {ss : List (Shr α)} (hf : ∀ s ∈ ss, ∀ w, Desc s w → ∀ s, ∃ b, f w.value s = .ok b) {s w : Shr α} (hs : s ∈ ss) (hw : Desc s w) (p : List Nat) (i : Nat) :
    ∃ x ∈ lazyMapList f o p i ss,
      ∃ u q, Desc x u ∧ f w.value (o q) = .ok u.value ∧ u.shrinks = lazyMapList f o q 0 w.shrinks := by
  induction ss generalizing i with
  | nil => simp at hs
  | cons s' ss ih =>
    obtain ⟨x, hx, hd⟩ := lazyMap_total f o s' (hf s' (by simp)) (i :: p)
    rw [lazyMapList, hx]
    rcases List.mem_cons.mp hs with rfl | hs
    · exact ⟨x, by simp, hd w hw⟩
    · obtain ⟨y, hy, r⟩ := ih (fun s hs => hf s (by simp [hs])) hs (i + 1)
      exact ⟨y, by simp [hy], r⟩

theorem inter_eq {gen2gen : α → Gen σ β} {v : α} {s : σ} {x : α × Shr β} (h : inter gen2gen v s = .ok x) :
    x.1 = v ∧ (gen2gen v).Makes x.2 := by
  unfold inter at h
  obtain ⟨⟨u, s'⟩, h1, h2⟩ := Outcome.bind_eq_ok.mp h
  cases h2
  exact ⟨rfl, s, s', h1⟩

theorem reach_expand {i u : Shr (α × Shr β)} {x : α × Shr β} (hu : u ∈ expand i) (hx : Reach u x) :
    x.1 = i.value.1 ∧ ∃ b, Reach i.value.2 b ∧ x.2 = leaf b := by
  unfold expand at hu
  have : Reach (i.value.2.flatMap fun u => leaf (i.value.1, leaf u)) x := .child hu hx
  rw [flatMap_eq_map, reach_map] at this
  obtain ⟨b, hb, rfl⟩ := this
  exact ⟨rfl, b, hb, rfl⟩

/-- What looking for shrinks draws: a second component for the first shrink of the first one. -/
theorem peek_ok {gen2gen : α → Gen σ β} {ss : List (Shr α)} {s s' : σ} (h : peek gen2gen ss s = .ok s') :
    (ss = [] ∧ s' = s) ∨ ∃ c cs x, ss = c :: cs ∧ gen2gen c.value s = .ok (x, s') := by
  cases ss with
  | nil => cases h; exact .inl ⟨rfl, rfl⟩
  | cons c cs =>
    unfold peek at h
    obtain ⟨⟨x, s1⟩, h1, h⟩ := Outcome.bind_eq_ok.mp h
    cases h
    exact .inr ⟨c, cs, x, rfl, h1⟩

theorem peek_total {gen2gen : α → Gen σ β} {ss : List (Shr α)} {s : σ}
    (h : ∀ c ∈ ss.head?, ∃ r, gen2gen c.value s = .ok r) : ∃ s', peek gen2gen ss s = .ok s' := by
  cases ss with
  | nil => exact ⟨s, rfl⟩
  | cons c cs =>
    obtain ⟨r, hr⟩ := h c rfl
    exact ⟨r.2, by rw [peek, hr]; rfl⟩

/-- Everything reachable from a dependent shrinkable. -/
theorem reach_dependent {gen1 : Gen σ α} {gen2gen : α → Gen σ β} {o : List Nat → σ} {s s' : σ}
    {i : Shr (α × Shr β)} (h : dependent gen1 gen2gen o s = .ok (i, s')) :
    ∃ t s1 u s2, gen1 s = .ok (t, s1) ∧ gen2gen t.value s1 = .ok (u, s2) ∧ peek gen2gen t.shrinks s2 = .ok s' ∧
      i.value = (t.value, u) ∧ ∀ x, Reach i x → Reach t x.1 ∧ ∃ u, (gen2gen x.1).Makes u ∧ Reach u x.2.value := by
  unfold dependent at h
  obtain ⟨⟨t, s1⟩, h1, h⟩ := Outcome.bind_eq_ok.mp h
  obtain ⟨⟨u, s2⟩, h2, h⟩ := Outcome.bind_eq_ok.mp h
  obtain ⟨s3, h3, h⟩ := Outcome.bind_eq_ok.mp h
  simp only [Outcome.pure_eq, Outcome.ok.injEq, Prod.mk.injEq] at h
  obtain ⟨rfl, rfl⟩ := h
  refine ⟨t, s1, u, s2, h1, h2, h3, by simp, fun x hx => ?_⟩
  have node_ok : ∀ n, Desc (node (t.value, u) (lazyMapList (inter gen2gen) o [] 0 t.shrinks)) n →
      Reach t n.value.1 ∧ (gen2gen n.value.1).Makes n.value.2 := by
    intro n hn
    rcases desc_iff.mp hn with rfl | ⟨y, hy, hn⟩
    · exact ⟨.self t, s1, s2, h2⟩
    · obtain ⟨s, hs, w, q, hw, hf, -⟩ := lazyMapList_desc (inter gen2gen) o t.shrinks [] 0 y hy n hn
      obtain ⟨e, hm⟩ := inter_eq hf
      rw [e]
      exact ⟨⟨w, .step hs hw, rfl⟩, hm⟩
  obtain ⟨n, hn, hx⟩ := reach_andThen.mp hx
  obtain ⟨r1, r2⟩ := node_ok n hn
  rcases hx with rfl | ⟨-, u', hu', hx⟩
  · exact ⟨r1, _, r2, .self _⟩
  · obtain ⟨e1, b, hb, e2⟩ := reach_expand hu' hx
    rw [e1]
    exact ⟨r1, _, r2, by rw [e2]; exact hb⟩

/-- If the second generator always returns, every value reachable in the first tree still occurs as first
component. -/
theorem dependent_complete {gen1 : Gen σ α} {gen2gen : α → Gen σ β}
    (hf : ∀ t, gen1.Makes t → ∀ v, Reach t v → ∀ s, ∃ r, gen2gen v s = .ok r)
    {o : List Nat → σ} {s s' : σ} {i : Shr (α × Shr β)} (h : dependent gen1 gen2gen o s = .ok (i, s')) :
    ∃ t s1, gen1 s = .ok (t, s1) ∧ (∀ v, Reach t v → ∃ u, (gen2gen v).Makes u ∧ Reach i (v, u)) ∧
      ∀ w, Desc t w → w.shrinks = [] → ∃ u, (gen2gen w.value).Makes u ∧
        ∀ b, Reach u b → ∃ v, Reach i (w.value, v) ∧ v.value = b := by
  unfold dependent at h
  obtain ⟨⟨t, s1⟩, h1, h⟩ := Outcome.bind_eq_ok.mp h
  obtain ⟨⟨u, s2⟩, h2, h⟩ := Outcome.bind_eq_ok.mp h
  obtain ⟨s3, -, h⟩ := Outcome.bind_eq_ok.mp h
  simp only [Outcome.pure_eq, Outcome.ok.injEq, Prod.mk.injEq] at h
  obtain ⟨rfl, rfl⟩ := h
  have hi : ∀ c ∈ t.shrinks, ∀ w, Desc c w → ∀ s, ∃ b, inter gen2gen w.value s = .ok b := by
    intro c hc w hw s
    obtain ⟨r, hr⟩ := hf t ⟨_, _, h1⟩ w.value ⟨w, .step hc hw, rfl⟩ s
    exact ⟨(w.value, r.1), by simp [inter, hr]⟩
  have nodes : ∀ w, Desc t w → ∃ n, Desc (node (t.value, u) (lazyMapList (inter gen2gen) o [] 0 t.shrinks)) n ∧
      n.value.1 = w.value ∧ (gen2gen w.value).Makes n.value.2 ∧ (w.shrinks = [] → n.shrinks = []) := by
    intro w hw
    rcases desc_iff.mp hw with rfl | ⟨y, hy, hw⟩
    · exact ⟨_, .refl _, rfl, ⟨s1, s2, h2⟩, fun e => by simp [e, lazyMapList]⟩
    · obtain ⟨x, hx, n, q, hn, hv, hs⟩ := lazyMapList_total (inter gen2gen) o hi hy hw [] 0
      obtain ⟨e, hm⟩ := inter_eq hv
      exact ⟨n, .step (by simpa using hx) hn, e, hm, fun e => by simp [hs, e, lazyMapList]⟩
  refine ⟨t, s1, h1, fun v ⟨w, hw, e⟩ => ?_, fun w hw he => ?_⟩
  · obtain ⟨n, hn, hv, hm, -⟩ := nodes w hw
    exact ⟨n.value.2, by rw [← e]; exact hm, reach_andThen.mpr ⟨n, hn, .inl (by rw [← e, ← hv])⟩⟩
  · obtain ⟨n, hn, hv, hm, hs⟩ := nodes w hw
    refine ⟨_, hm, fun b hb => ?_⟩
    rcases reach_iff.mp hb with e | ⟨c, hc, hb⟩
    · exact ⟨n.value.2, reach_andThen.mpr ⟨n, hn, .inl (by rw [← hv])⟩, e⟩
    · refine ⟨leaf b, reach_andThen.mpr ⟨n, hn, .inr ⟨hs he, c.flatMap fun u => leaf (n.value.1, leaf u), ?_, ?_⟩⟩,
        rfl⟩
      · rw [expand, shrinks_flatMap]
        exact List.mem_map_of_mem hc
      · rw [flatMap_eq_map, reach_map]
        exact ⟨b, hb, by rw [← hv]; rfl⟩

/-- The result of calling a generator that draws and then formats. -/
theorem bind_pure_ok {ι κ : Type} {x : Outcome (ι × σ)} {f : ι → κ} {y : κ} {s' : σ}
    (h : (x >>= fun p => (pure (f p.1, p.2) : Outcome (κ × σ))) = .ok (y, s')) :
    ∃ i, x = .ok (i, s') ∧ y = f i := by
  obtain ⟨⟨i, s1⟩, h1, h2⟩ := Outcome.bind_eq_ok.mp h
  simp only [Outcome.pure_eq, Outcome.ok.injEq, Prod.mk.injEq] at h2
  obtain ⟨rfl, rfl⟩ := h2
  exact ⟨i, h1, rfl⟩

end Comb
end Verif
