import Verif.Lemmas.Tree
import Verif.Lemmas.ListLike
import Verif.Lemmas.Integral
import Verif.Model.Erasure
/- Lemmas on shrinkables whose types are erased. -/
namespace Verif
namespace Erasure
open Shr
variable {σ T α β γ δ : Type} {V : T → Type}

theorem all_map_ok (f : α → β) (l : List α) (g : α → Outcome β) (h : ∀ a ∈ l, g a = .ok (f a)) :
    all (l.map g) = .ok (l.map f) := by
  induction l with
  | nil => rfl
  | cons a l ih =>
    rw [List.map_cons, all, h a (by simp), ih (fun b hb => h b (by simp [hb]))]
    rfl

theorem mapE_ok (f : α → Outcome β) (h : α → β) (s : Shr α) (hf : ∀ v, Reach s v → f v = .ok (h v)) :
    mapE f s = .ok (s.map h) := by
  induction s using Shr.ind with
  | h v ss ih =>
    have hl : ∀ l : List (Shr α), (∀ s ∈ l, s ∈ ss) → mapListE f l = .ok (l.map (Shr.map h)) := by
      intro l hl
      induction l with
      | nil => rfl
      | cons x xs ihx =>
        have hx := ih x (hl x (by simp)) (fun v hv => hf v (.child (hl x (by simp)) hv))
        simp only [mapListE, hx, ihx (fun s hs => hl s (by simp [hs])), Outcome.ok_bind, Outcome.pure_eq, List.map_cons]
    simp only [mapE, hf v (.self _), hl ss (fun s hs => hs), Outcome.ok_bind, Outcome.pure_eq, map_node]

/-- When mapping goes wrong. -/
theorem mapE_ub (f : α → Outcome β) (s : Shr α) (hf : ∀ v, (∃ b, f v = .ok b) ∨ f v = .ub) :
    (mapE f s = .ub ↔ ∃ v, Reach s v ∧ f v = .ub) ∧ ((∃ r, mapE f s = .ok r) ∨ mapE f s = .ub) := by
  induction s using Shr.ind with
  | h v ss ih =>
    have hl : ∀ l : List (Shr α), (∀ s ∈ l, s ∈ ss) →
        (mapListE f l = .ub ↔ ∃ s ∈ l, ∃ v, Reach s v ∧ f v = .ub) ∧ ((∃ r, mapListE f l = .ok r) ∨ mapListE f l = .ub) := by
      intro l hl
      induction l with
      | nil => simp [mapListE]
      | cons x xs ihx =>
        obtain ⟨h1, h2⟩ := ih x (hl x (by simp))
        obtain ⟨h3, h4⟩ := ihx (fun s hs => hl s (by simp [hs]))
        simp only [List.mem_cons, exists_eq_or_imp, ← h1, ← h3, mapListE]
        rcases h2 with ⟨r, h2⟩ | h2
        · rcases h4 with ⟨q, h4⟩ | h4
          · simp [h2, h4]
          · simp [h2, h4]
        · simp [h2]
    obtain ⟨h3, h4⟩ := hl ss (fun s hs => hs)
    have e : (∃ w, Reach (node v ss) w ∧ f w = .ub) ↔ f v = .ub ∨ ∃ s ∈ ss, ∃ w, Reach s w ∧ f w = .ub := by
      constructor
      · rintro ⟨w, hw, hu⟩
        rw [reach_iff] at hw
        rcases hw with rfl | ⟨s, m, hw⟩
        · exact .inl hu
        · exact .inr ⟨s, m, w, hw, hu⟩
      · rintro (hu | ⟨s, m, w, hw, hu⟩)
        · exact ⟨v, .self _, hu⟩
        · exact ⟨w, .child (t := node v ss) m hw, hu⟩
    rw [e, ← h3]
    simp only [mapE]
    rcases hf v with ⟨b, hb⟩ | hb
    · rcases h4 with ⟨q, h4⟩ | h4
      · simp [hb, h4]
      · simp [hb, h4]
    · simp [hb]

theorem flatMapE_ok (f : α → Outcome (Shr β)) (h : α → Shr β) (s : Shr α) (hf : ∀ v, Reach s v → f v = .ok (h v)) :
    flatMapE f s = .ok (s.flatMap h) := by
  induction s using Shr.ind with
  | h v ss ih =>
    have hl : ∀ l : List (Shr α), (∀ s ∈ l, s ∈ ss) → flatMapListE f l = .ok (l.map (Shr.flatMap h)) := by
      intro l hl
      induction l with
      | nil => rfl
      | cons x xs ihx =>
        have hx := ih x (hl x (by simp)) (fun v hv => hf v (.child (hl x (by simp)) hv))
        simp only [flatMapListE, hx, ihx (fun s hs => hl s (by simp [hs])), Outcome.ok_bind, Outcome.pure_eq, List.map_cons]
    simp only [flatMapE, hf v (.self _), hl ss (fun s hs => hs), Outcome.ok_bind, Outcome.pure_eq, Shr.flatMap, flatMapList_eq]

theorem mapShrinkableE_ok (f : Shr β → Outcome (Shr γ)) (h : Shr α → Shr γ) (g : α → β)
    (hf : ∀ s, f (s.map g) = .ok (h s)) (s : Shr α) : mapShrinkableE f (s.map g) = .ok (s.mapShrinkable h) := by
  induction s using Shr.ind with
  | h v ss ih =>
    have hl : ∀ l : List (Shr α), (∀ s ∈ l, s ∈ ss) →
        mapShrinkableListE f (l.map (Shr.map g)) = .ok (l.map (Shr.mapShrinkable h)) := by
      intro l hl
      induction l with
      | nil => rfl
      | cons x xs ihx =>
        simp only [List.map_cons, mapShrinkableListE, ih x (hl x (by simp)), ihx (fun s hs => hl s (by simp [hs])),
          Outcome.ok_bind, Outcome.pure_eq]
    have := hf (node v ss)
    simp only [map_node] at this ⊢
    simp only [mapShrinkableE, this, hl ss (fun s hs => hs), Outcome.ok_bind, Outcome.pure_eq, Shr.mapShrinkable,
      mapShrinkableList_eq]

theorem filterKeptE_ok (c : β → Outcome Bool) (p : α → Bool) (g : α → β) (hc : ∀ a, c (g a) = .ok (p a)) (s : Shr α) :
    filterKeptE c (s.map g) = .ok ((s.filterKept p).map g) := by
  induction s using Shr.ind with
  | h v ss ih =>
    have hl : ∀ l : List (Shr α), (∀ s ∈ l, s ∈ ss) →
        filterKeptListE c (l.map (Shr.map g)) = .ok ((filterKeptList p l).map (Shr.map g)) := by
      intro l hl
      induction l with
      | nil => rfl
      | cons x xs ihx =>
        have e := ihx (fun s hs => hl s (by simp [hs]))
        simp only [List.map_cons, filterKeptListE, value_map, hc, Outcome.ok_bind, filterKeptList]
        cases hp : p x.value
        · simpa using e
        · simp only [if_true, ih x (hl x (by simp)), e, Outcome.ok_bind, Outcome.pure_eq, List.map_cons]
    simp only [map_node, filterKeptE, hl ss (fun s hs => hs), Outcome.ok_bind, Outcome.pure_eq, filterKept]

theorem takeInt_map (f : α → β) (n : Int) (l : List α) : takeInt n (l.map f) = (takeInt n l).map f := by
  induction l generalizing n with
  | nil => rfl
  | cons x xs ih => simp only [List.map_cons, takeInt, ih]; split <;> rfl

theorem filterStreamE_ok (c : β → Outcome Bool) (p : α → Bool) (g : α → β) (hc : ∀ a, c (g a) = .ok (p a)) (n : Int)
    (l : List (Shr α)) : filterStreamE c n (l.map (Shr.map g)) = .ok ((filterStream p n l).map (Shr.map g)) := by
  fun_induction filterStream p n l with
  | case1 => simp [filterStreamE]
  | case2 s ss h ih => simp only [List.map_cons, filterStreamE, value_map, hc, h, ih, Outcome.ok_bind, Outcome.pure_eq]
  | case3 s ss h ih =>
    simp only [List.map_cons, filterStreamE, value_map, hc, h, shrinks_map, takeInt_map, ← List.map_append, ih]

theorem filterTolKeptE_ok (c : β → Outcome Bool) (p : α → Bool) (g : α → β) (hc : ∀ a, c (g a) = .ok (p a)) (n : Int)
    (s : Shr α) : filterTolKeptE c n (s.map g) = .ok ((s.filterTolKept p n).map g) := by
  fun_induction filterTolKept p n s with
  | case1 s ih =>
    have e := filterStreamE_ok c p g hc n s.shrinks
    rw [← shrinks_map] at e
    rw [filterTolKeptE]
    split
    · rename_i l hl
      rw [e] at hl
      cases hl
      have e2 : all (((filterStream p n s.shrinks).map (Shr.map g)).attach.map fun ⟨s, _⟩ => filterTolKeptE c n s)
          = .ok ((filterStream p n s.shrinks).map fun x => (x.filterTolKept p n).map g) := by
        have := all_map_ok (fun x : Shr α => (x.filterTolKept p n).map g) (filterStream p n s.shrinks)
          (fun x => filterTolKeptE c n (x.map g)) (fun x hx => ih x hx)
        simpa [List.map_map, Function.comp_def, List.attach_map_val] using this
      rw [e2]
      simp [List.map_map, Function.comp_def]
    all_goals (rename_i hl; rw [e] at hl; cases hl)

theorem concatE_ok (k : Shr β → Outcome (List (Shr β))) (k' : Shr α → List (Shr α)) (g : α → β)
    (hk : ∀ s, k (s.map g) = .ok ((k' s).map (Shr.map g))) (s : Shr α) :
    concatE k (s.map g) = .ok ((s.concat k').map g) := by
  induction s using Shr.ind with
  | h v ss ih =>
    have hl : ∀ l : List (Shr α), (∀ s ∈ l, s ∈ ss) →
        concatListE k (l.map (Shr.map g)) = .ok ((concatList k' l).map (Shr.map g)) := by
      intro l hl
      induction l with
      | nil => rfl
      | cons x xs ihx =>
        simp only [List.map_cons, concatListE, ih x (hl x (by simp)), ihx (fun s hs => hl s (by simp [hs])),
          Outcome.ok_bind, Outcome.pure_eq, concatList]
    have := hk (node v ss)
    simp only [map_node] at this ⊢
    simp only [concatE, this, hl ss (fun s hs => hs), Outcome.ok_bind, Outcome.pure_eq, Shr.concat, map_node, List.map_append]

theorem andThenE_ok (k : Shr β → Outcome (List (Shr β))) (k' : Shr α → List (Shr α)) (g : α → β)
    (hk : ∀ s, k (s.map g) = .ok ((k' s).map (Shr.map g))) (s : Shr α) :
    andThenE k (s.map g) = .ok ((s.andThen k').map g) := by
  induction s using Shr.ind with
  | h v ss ih =>
    have hl : ∀ l : List (Shr α), (∀ s ∈ l, s ∈ ss) →
        andThenListE k (l.map (Shr.map g)) = .ok ((andThenList k' l).map (Shr.map g)) := by
      intro l hl
      induction l with
      | nil => rfl
      | cons x xs ihx =>
        simp only [List.map_cons, andThenListE, ih x (hl x (by simp)), ihx (fun s hs => hl s (by simp [hs])),
          Outcome.ok_bind, Outcome.pure_eq, andThenList]
    have := hk (node v ss)
    simp only [map_node] at this ⊢
    cases ss with
    | nil =>
      simp only [List.map_nil] at this ⊢
      simp [andThenE, Shr.andThen, this]
    | cons x xs =>
      have e := hl (x :: xs) (fun s hs => hs)
      simp only [List.map_cons] at e ⊢
      simp [andThenE, e, Shr.andThen]

theorem take_map (f : α → β) (n : Int) (s : Shr α) : (s.map f).take n = (s.take n).map f := by
  induction s using Shr.ind with
  | h v ss ih =>
    rw [← Shr.eta ((map f (node v ss)).take n), ← Shr.eta (map f ((node v ss).take n))]
    simp only [value_take, value_map, shrinks_take, shrinks_map, shrinks_node, takeInt_map, List.map_map]
    congr 1
    exact List.map_congr_left fun s hs => ih s ((takeInt_sublist n ss).subset hs)

theorem concat_map (k : Shr β → List (Shr β)) (k' : Shr α → List (Shr α)) (g : α → β)
    (hk : ∀ s, k (s.map g) = (k' s).map (Shr.map g)) (s : Shr α) : (s.map g).concat k = (s.concat k').map g := by
  induction s using Shr.ind with
  | h v ss ih =>
    have := hk (node v ss)
    simp only [map_node] at this ⊢
    simp only [Shr.concat, concatList_eq, map_node, List.map_append, this, List.map_map]
    congr 2
    exact List.map_congr_left ih

theorem andThen_map (k : Shr β → List (Shr β)) (k' : Shr α → List (Shr α)) (g : α → β)
    (hk : ∀ s, k (s.map g) = (k' s).map (Shr.map g)) (s : Shr α) : (s.map g).andThen k = (s.andThen k').map g := by
  induction s using Shr.ind with
  | h v ss ih =>
    have := hk (node v ss)
    simp only [map_node] at this ⊢
    cases ss with
    | nil => simpa [Shr.andThen] using this
    | cons x xs =>
      have e := List.map_congr_left ih
      simp only [Shr.andThen, List.map_cons, List.isEmpty_cons, Bool.false_eq_true, if_false, andThenList_eq, map_node,
        List.map_map, Function.comp_def] at e ⊢
      rw [e]

theorem map_map (f : α → β) (g : β → γ) (s : Shr α) : (s.map f).map g = s.map (fun x => g (f x)) := by
  induction s using Shr.ind with
  | h v ss ih => simp only [map_node, List.map_map]; congr 1; exact List.map_congr_left ih

section lists
open ListLike

theorem range_map (f : δ → γ) (m rear : Nat) (xs : List δ) :
    frontAndMid.range m rear (xs.map f) = (frontAndMid.range m rear xs).map (List.map f) := by
  simp only [frontAndMid.range, flatMap_eq_map, map_map, value_leaf, List.length_map, List.map_append, List.map_take,
    List.map_drop]

theorem frontAndMid_map (f : δ → γ) (m n rear : Nat) (xs : List δ) :
    frontAndMid m n rear (xs.map f) = (frontAndMid m n rear xs).map (List.map f) := by
  induction n generalizing rear xs with
  | zero => simp only [frontAndMid, range_map]
  | succ n ih =>
    simp only [frontAndMid, range_map]
    apply concat_map
    intro s
    simp only [value_map, List.length_map, ih, shrinks_map]
    split <;> rfl

theorem membershipwise_map (f : δ → γ) (m : Nat) (xs : List δ) :
    membershipwise (xs.map f) m = (membershipwise xs m >>= fun t => pure (t.map (List.map f))) := by
  simp only [membershipwise, List.length_map, frontAndMid_map]
  split <;> rfl

theorem bulkRound_map (f : α → β) (anc : List (Shr α)) (sts : List (List (Shr α))) :
    bulkRound (anc.map (Shr.map f)) (sts.map (List.map (Shr.map f))) = (bulkRound anc sts).map (Shr.map f) := by
  fun_induction bulkRound anc sts with
  | case1 a anc sts ih => simp [bulkRound, ih]
  | case2 a anc h t sts ih => simp [bulkRound, ih]
  | case3 anc sts h1 h2 =>
    cases anc with
    | nil => simp [bulkRound]
    | cons a anc =>
      cases sts with
      | nil => simp [bulkRound]
      | cons b sts => cases b with
        | nil => exact absurd rfl (h1 a anc sts rfl)
        | cons x y => exact absurd rfl (h2 a anc x y sts rfl)

theorem bulkRounds_map (f : α → β) (anc : List (Shr α)) (sts : List (List (Shr α))) :
    bulkRounds (anc.map (Shr.map f)) (sts.map (List.map (Shr.map f))) = (bulkRounds anc sts).map (List.map (Shr.map f)) := by
  have e : ∀ sts : List (List (Shr α)),
      (sts.map (List.map (Shr.map f))).all List.isEmpty = sts.all List.isEmpty := by
    intro sts; induction sts with
    | nil => rfl
    | cons a as ih => cases a <;> simp_all
  fun_induction bulkRounds anc sts with
  | case1 sts h => rw [bulkRounds, dif_pos (by rw [e]; exact h)]; rfl
  | case2 sts h ih =>
    rw [bulkRounds, dif_neg (by rw [e]; exact h), bulkRound_map, List.map_cons, ← ih]
    congr 2
    simp [bulkTails, List.map_map, Function.comp_def]

theorem bulk_attach (anc : List (Shr α)) :
    bulk anc = (bulkRounds anc (anc.map Shr.shrinks)).map fun v => node v (bulk v) := by
  rw [bulk]; simp

theorem bulk_map (f : α → β) (anc : List (Shr α)) :
    bulk (anc.map (Shr.map f)) = (bulk anc).map (Shr.map (List.map (Shr.map f))) := by
  fun_induction bulk anc with
  | case1 anc ih =>
    have e : (anc.map (Shr.map f)).map Shr.shrinks = (anc.map Shr.shrinks).map (List.map (Shr.map f)) := by
      simp [List.map_map, Function.comp_def]
    have e2 : bulk (anc.map (Shr.map f))
        = ((bulkRounds anc (anc.map Shr.shrinks)).map fun v => node v (bulk v)).map (Shr.map (List.map (Shr.map f))) := by
      rw [bulk_attach, e, bulkRounds_map, List.map_map, List.map_map]
      apply List.map_congr_left
      intro v hv
      simp only [Function.comp, ih v hv, map_node]
    rw [e2, ← bulk_attach, bulk]

theorem elementwise_map (f : α → β) (s : Shr (List (Shr α))) :
    elementwise (s.map (List.map (Shr.map f))) = (elementwise s).map (Shr.map (List.map (Shr.map f))) := by
  simp only [elementwise, value_map, List.isEmpty_map]
  split
  · rfl
  · rw [concat_map (k' := fun shr : Shr (List (Shr α)) => if shr.value.length < 1 then [] else bulk shr.value), shrinks_map]
    intro s
    simp only [value_map, List.length_map, bulk_map]
    split <;> rfl

end lists

theorem mapE_map (f : β → Outcome γ) (g : α → β) (s : Shr α) : mapE f (s.map g) = mapE (fun a => f (g a)) s := by
  induction s using Shr.ind with
  | h v ss ih =>
    have hl : ∀ l : List (Shr α), (∀ s ∈ l, s ∈ ss) →
        mapListE f (l.map (Shr.map g)) = mapListE (fun a => f (g a)) l := by
      intro l hl
      induction l with
      | nil => rfl
      | cons x xs ihx =>
        simp only [List.map_cons, mapListE, ih x (hl x (by simp)), ihx (fun s hs => hl s (by simp [hs]))]
    simp only [map_node, mapE, hl ss (fun s hs => hs)]

theorem flatMapE_map (f : β → Outcome (Shr γ)) (g : α → β) (s : Shr α) :
    flatMapE f (s.map g) = flatMapE (fun a => f (g a)) s := by
  induction s using Shr.ind with
  | h v ss ih =>
    have hl : ∀ l : List (Shr α), (∀ s ∈ l, s ∈ ss) →
        flatMapListE f (l.map (Shr.map g)) = flatMapListE (fun a => f (g a)) l := by
      intro l hl
      induction l with
      | nil => rfl
      | cons x xs ihx =>
        simp only [List.map_cons, flatMapListE, ih x (hl x (by simp)), ihx (fun s hs => hl s (by simp [hs]))]
    simp only [map_node, flatMapE, hl ss (fun s hs => hs)]

variable [DecidableEq T]

theorem cast_self (t : T) (x : V t) : (⟨t, x⟩ : Obj V).cast t = .ok x := by simp [Obj.cast]
theorem cast_other {o : Obj V} {t : T} (h : o.ty ≠ t) : o.cast t = .ub := by simp [Obj.cast, h]
theorem cast_ub (o : Obj V) (t : T) : o.cast t = .ub ↔ o.ty ≠ t := by
  unfold Obj.cast; split <;> simp_all
theorem cast_cases (o : Obj V) (t : T) : (∃ x, o.cast t = .ok x) ∨ o.cast t = .ub := by
  unfold Obj.cast; split <;> simp

theorem readAs_erase (t : T) (s : Shr (V t)) : readAs t (erase t s) = .ok s := by
  unfold readAs erase
  rw [mapE_map, mapE_ok _ id s (fun v _ => cast_self t v)]
  congr 1
  induction s using Shr.ind with
  | h v ss ih => simp only [map_node, id]; congr 1; rw [List.map_congr_left ih]; simp

omit [DecidableEq T] in
theorem value_erase (t : T) (s : Shr (V t)) : (erase t s).value = ⟨t, s.value⟩ := by simp [erase]

theorem listLikeE_erase (t : T) (xs : List (Shr (V t))) (m : Nat) (b : Bool) :
    listLikeE t (xs.map (erase t)) m b = ListLike.listLike xs m b := by
  unfold listLikeE ListLike.listLike
  have hf : ∀ v : List (Shr (V t)), (do let as ← all ((v.map (erase t)).map (getAs t)); pure (leaf as) : Outcome _)
      = .ok (leaf (v.map Shr.value)) := by
    intro v
    rw [List.map_map, all_map_ok Shr.value v]
    · rfl
    · intro x _
      simp only [Function.comp, getAs, value_erase, cast_self]
  rw [membershipwise_map]
  cases ListLike.membershipwise xs m with
  | ok r =>
    have he : erase (V := V) t = Shr.map (fun x => (⟨t, x⟩ : Obj V)) := rfl
    cases b
    · exact (flatMapE_map _ _ _).trans (flatMapE_ok _ _ _ (fun v _ => hf v))
    · have e2 := (flatMapE_map (fun v : List (AnyShr V) => (do let as ← all (v.map (getAs t)); pure (leaf as) : Outcome _))
        (List.map (erase t)) _).trans (flatMapE_ok _ _ (r.andThen ListLike.elementwise) (fun v _ => hf v))
      refine Eq.trans ?_ e2
      simp only [Outcome.ok_bind, Outcome.pure_eq, if_true, he]
      rw [andThen_map (k' := ListLike.elementwise) (hk := fun s => elementwise_map _ s)]
  | _ => rfl

omit [DecidableEq T] in
theorem drawMany_erase (t : T) (g : Gen σ (V t)) (n : Nat) (s : σ) :
    ListLike.drawMany (eraseGen t g) n s = (do
      let (xs, s) ← ListLike.drawMany g n s
      pure (xs.map (erase t), s)) := by
  induction n generalizing s with
  | zero => rfl
  | succ n ih =>
    simp only [ListLike.drawMany, eraseGen]
    cases g s with
    | ok p =>
      obtain ⟨x, s1⟩ := p
      have e := ih s1
      simp only [Outcome.ok_bind, Outcome.pure_eq, e]
      cases ListLike.drawMany g n s1 <;> rfl
    | _ => rfl

/-- Elements of another type. -/
theorem listLikeE_other (t : T) (x : AnyShr V) (xs : List (AnyShr V)) (m : Nat) (b : Bool) (hm : m ≤ xs.length + 1)
    (h : x.value.ty ≠ t) : listLikeE t (x :: xs) m b = .ub := by
  unfold listLikeE ListLike.membershipwise
  rw [if_neg (by simpa using hm)]
  simp only [Outcome.ok_bind]
  generalize hr : (if b = true then _ else _ : Shr (List (AnyShr V))) = r
  have hv : r.value = x :: xs := by
    have e : (ListLike.frontAndMid m (x :: xs).length 0 (x :: xs)).value = x :: xs :=
      ListLike.value_fam (by simpa using hm) (by simp)
    rw [← hr]
    split
    · rw [value_andThen, e]
    · exact e
  cases r with
  | node v ss =>
    simp only [value_node] at hv
    subst hv
    simp only [flatMapE, List.map_cons, all, getAs, cast_other h, Outcome.ub_bind]

theorem filterE_erase {t : T} (g : Gen σ (V t)) (c : V t → Bool) (fuel : Nat) (s : σ) :
    filterE (eraseGen t g) c fuel s = eraseGen t (Comb.filter g c fuel) s := by
  induction fuel generalizing s with
  | zero => rfl
  | succ fuel ih =>
    simp only [filterE, eraseGen, Comb.filter] at ih ⊢
    cases g s with
    | ok p =>
      obtain ⟨x, s1⟩ := p
      have e := ih s1
      simp only [Outcome.ok_bind, Outcome.pure_eq, value_erase, boolFunction, cast_self]
      cases hc : c x.value
      · simpa using e
      · have hk := filterTolKeptE_ok (boolFunction c) c (fun y : V t => (⟨t, y⟩ : Obj V))
          (fun a => by simp [boolFunction, cast_self]) 1 x
        simp only [if_true, filterTolE, value_erase, boolFunction, cast_self, Outcome.ok_bind, Outcome.pure_eq, hc, Shr.filterTol]
        change ((filterTolKeptE (boolFunction c) 1 (x.map fun y => ⟨t, y⟩)) >>= fun r => Outcome.ok (r, s1)) = _
        rw [hk]
        rfl
    | _ => rfl

end Erasure
end Verif
