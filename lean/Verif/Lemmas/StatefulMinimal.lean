import Verif.Props.EndToEnd
import Verif.Props.Stateful
/-
Greedy shrinking of lists for properties whose failure persists when elements are appended.
-/
namespace Verif
open Shr ListLike
variable {α β δ : Type}

/-- Length shrinking, minimal size 0: the result keeps the last element of the shortest failing prefix, and otherwise
only elements before it. -/
theorem greedy_membershipwise_prefix (xs : List δ) (t : Shr (List δ)) (h : membershipwise xs 0 = .ok t)
    (fails : List δ → Bool) (hx : fails xs = true)
    (hpre : ∀ ys zs : List δ, ys <+: zs → zs <+: xs → fails ys = true → fails zs = true) :
    (fails [] = true ∧ t.greedy fails = []) ∨
    ∃ pre x post A, xs = pre ++ x :: post ∧ fails pre = false ∧ fails (pre ++ [x]) = true ∧
      A.Sublist pre ∧ t.greedy fails = A ++ [x] ∧ fails (A ++ [x]) = true := by
  obtain ⟨-, rfl⟩ := membershipwise_eq h
  have hex : ∃ j, fails (xs.take j) = true := ⟨xs.length, by rw [List.take_length]; exact hx⟩
  classical
  set j := Nat.find hex with hj
  have hjf : fails (xs.take j) = true := Nat.find_spec hex
  have hjle : j ≤ xs.length := Nat.find_min' hex (by rw [List.take_length]; exact hx)
  have hgr : (frontAndMid.range 0 0 xs).greedy fails = xs.take j := by
    rw [range_eq, greedy_map]
    have h0 : frontAndMid.minFront 0 0 = 0 := rfl
    rw [h0, BinSearch.bsNat_greedy _ j _ (by simpa using hjle)]
    · simp
    · intro w hw
      simp only [Nat.sub_zero, Nat.add_zero, List.drop_length, List.append_nil]
      constructor
      · intro h; exact Nat.find_min' hex h
      · intro h; exact hpre _ _ (List.take_prefix_take_left h) (List.take_prefix _ _) hjf
  cases hl : xs.length with
  | zero =>
    obtain rfl := List.length_eq_zero_iff.1 hl
    left
    refine ⟨hx, ?_⟩
    have : frontAndMid 0 0 0 ([] : List δ) = frontAndMid.range 0 0 [] := rfl
    rw [this, hgr]
    simp
  | succ n =>
    rw [frontAndMid, greedy_concat fails (fun v => if v.length ≤ 0 ∨ v.length ≤ 0 then []
      else (frontAndMid 0 n 1 v).shrinks), hgr]
    rcases Nat.eq_zero_or_pos j with h0 | h0
    · left
      rw [h0] at hjf ⊢
      simpa [greedyList] using hjf
    · right
      have hlt : j - 1 < xs.length := by omega
      have hsplit : xs.take j = xs.take (j - 1) ++ [xs[j - 1]] := by
        conv_lhs => rw [show j = j - 1 + 1 by omega]
        rw [List.take_succ_eq_append_getElem hlt]
      have hnf : fails (xs.take (j - 1)) = false := by
        rw [← Bool.not_eq_true]
        intro h
        have := Nat.find_min' hex (m := j - 1) h
        omega
      rw [if_neg (by rw [List.length_take]; omega)]
      have hv : (frontAndMid 0 n 1 (xs.take j)).value = xs.take j := value_fam (by simp) (by rw [List.length_take]; omega)
      have hgl : greedyList fails (xs.take j) (frontAndMid 0 n 1 (xs.take j)).shrinks =
          (frontAndMid 0 n 1 (xs.take j)).greedy fails := by rw [greedy_eq_list, hv]
      have hreach := Engine.greedy_reach fails (frontAndMid 0 n 1 (xs.take j))
      have hfin : fails ((frontAndMid 0 n 1 (xs.take j)).greedy fails) = true := by
        rw [greedy_eq_list, hv]; exact Engine.greedyList_fails _ _ _ hjf
      rw [hgl]
      have hmem := mem_values.2 hreach
      rw [(values_fam 0 n 1 (xs.take j) (by simp) (by rw [List.length_take]; omega)
        (by rw [List.length_take]; omega)).mem_iff, List.mem_filter, List.mem_map] at hmem
      obtain ⟨⟨A, hA, hg⟩, -⟩ := hmem
      have hlen : (xs.take j).length - 1 = j - 1 := by rw [List.length_take]; omega
      rw [List.mem_sublists, hlen] at hA
      rw [hlen] at hg
      have h1 : (xs.take j).take (j - 1) = xs.take (j - 1) := by rw [List.take_take]; congr 1; omega
      have h2 : (xs.take j).drop (j - 1) = [xs[j - 1]] := by
        rw [hsplit, List.drop_left' (by rw [List.length_take]; omega)]
      rw [h1] at hA
      rw [h2] at hg
      refine ⟨xs.take (j - 1), xs[j - 1], xs.drop j, A, ?_, hnf, by rw [← hsplit]; exact hjf, hA, hg.symm, by rw [hg]; exact hfin⟩
      rw [← List.singleton_append, ← List.append_assoc, ← hsplit, List.take_append_drop]

/-- The values of the elements are shrunk after the length. -/
theorem greedy_listLike_steps {xs : List (Shr β)} {m : Nat} {ew : Bool} {t : Shr (List β)}
    (h : listLike xs m ew = .ok t) (fails : List β → Bool) (hx : fails (xs.map Shr.value) = true) :
    fails (t.greedy fails) = true ∧ ∃ t0, membershipwise xs m = .ok t0 ∧
      List.Forall₂ Reach (t0.greedy fun a => fails (a.map Shr.value)) (t.greedy fails) := by
  unfold listLike at h
  rw [Outcome.bind_eq_ok] at h
  obtain ⟨t0, h0, h1⟩ := h
  simp at h1
  subst h1
  rw [flatMap_eq_map, greedy_map]
  simp only [value_leaf]
  generalize hF : (fun a : List (Shr β) => fails (a.map Shr.value)) = F
  have hFx : F xs = true := by subst hF; exact hx
  have hv := (C24_defined xs m).2 t0 h0
  have g1 : F (t0.greedy F) = true := by
    rw [greedy_eq_list, hv]; exact Engine.greedyList_fails _ _ _ hFx
  have main : ∃ w, (if ew = true then andThen elementwise t0 else t0).greedy F = w ∧ F w = true ∧
      List.Forall₂ Desc (t0.greedy F) w := by
    have rfl' : ∀ l : List (Shr β), List.Forall₂ Desc l l := by
      intro l
      induction l with
      | nil => exact .nil
      | cons a l ih => exact .cons (.refl a) ih
    cases ew with
    | false => exact ⟨_, rfl, g1, rfl' _⟩
    | true =>
      obtain ⟨u, hu, hv, h2⟩ := Engine.greedy_andThen F elementwise t0
      rw [if_pos rfl]
      refine ⟨_, rfl, ?_⟩
      rcases h2 with h2 | ⟨he, h2⟩
      · rw [h2, hv]; exact ⟨g1, rfl' _⟩
      · have e : u = leaf u.value := by rw [← eta u, he]; rfl
        rw [h2, ← hv]
        refine ⟨Engine.greedyList_fails F _ _ (by rw [hv]; exact g1), ?_⟩
        rw [e, elementwise_leaf]
        have := Engine.greedy_reach F (bulkTree u.value)
        rw [greedy_eq_list] at this
        have hval : (bulkTree u.value).value = u.value := by simp [bulkTree]
        rw [hval] at this
        simpa [bulkTree] using reach_bulkTree this
  obtain ⟨w, e, hw, hd⟩ := main
  rw [e]
  subst hF
  refine ⟨hw, t0, h0, ?_⟩
  clear e hw g1
  generalize t0.greedy _ = l at hd
  induction hd with
  | nil => exact .nil
  | cons h _ ih => exact .cons ⟨_, h, rfl⟩ ih

namespace Stateful
open Engine Random
variable {σ O M X : Type}

theorem andThen_rejects {γ : Type} {x : Ev γ} {f g : γ → Ev Bool} (h : (andThen x f).Rejects)
    (hfg : ∀ a, (f a).Rejects → (g a).Rejects) : (andThen x g).Rejects := by
  obtain ⟨xf, xo⟩ := x
  cases xo with
  | ok a =>
    simp only [andThen] at h ⊢
    by_cases hx : xf = []
    · subst hx
      simp only [List.nil_append] at h ⊢
      exact hfg a h
    · exact .inr (.inr (by simp [hx]))
  | throws e => exact h
  | ub => exact h
  | diverges => exact h

theorem andThen_assoc {γ δ ε : Type} (x : Ev γ) (f : γ → Ev δ) (g : δ → Ev ε) :
    andThen (andThen x f) g = andThen x fun a => andThen (f a) g := by
  obtain ⟨xf, xo⟩ := x
  cases xo with
  | ok a =>
    simp only [andThen]
    cases hf : (f a).out <;> simp [List.append_assoc]
  | throws e => rfl
  | ub => rfl
  | diverges => rfl

/-- A failure persists when actions are appended. -/
theorem runActions_append (as bs : List (Act O M)) (s : O × M) :
    runActions (as ++ bs) s = andThen (runActions as s) (runActions bs) := by
  induction as generalizing s with
  | nil => simp [runActions, andThen]
  | cons a as ih =>
    rw [List.cons_append, runActions, runActions, andThen_assoc]
    congr 1
    funext s
    exact ih s

theorem func_prefix (factory : O → Ev (O × M)) (obj : O) {ys zs : List (Act O M)} (h : ys <+: zs)
    (hr : (func factory none obj ys).Rejects) : (func factory none obj zs).Rejects := by
  obtain ⟨ws, rfl⟩ := h
  unfold func at hr ⊢
  refine andThen_rejects hr fun s hs => ?_
  rw [runActions_append, andThen_assoc]
  refine andThen_rejects hs fun s' hs' => ?_
  simp [Ev.Rejects] at hs'

theorem runClassActions_append (as bs : List (ClassAct O M)) (s : O × M) :
    runClassActions (as ++ bs) s = andThen (runClassActions as s) (runClassActions bs) := by
  induction as generalizing s with
  | nil => simp [runClassActions, andThen]
  | cons a as ih =>
    rw [List.cons_append, runClassActions, runClassActions, andThen_assoc]
    congr 1
    funext b
    cases b with
    | false => simpa using ih s
    | true =>
      simp only [if_true]
      rw [andThen_assoc]
      congr 1
      funext r
      obtain ⟨r, s'⟩ := r
      cases r with
      | true => simpa using ih s'
      | false => rfl

theorem classFunc_prefix (factory : O → Ev (O × M)) (obj : O) {ys zs : List (ClassAct O M)} (h : ys <+: zs)
    (hr : (classFunc factory obj ys).Rejects) : (classFunc factory obj zs).Rejects := by
  obtain ⟨ws, rfl⟩ := h
  unfold classFunc at hr ⊢
  refine andThen_rejects hr fun s hs => ?_
  rw [runClassActions_append, andThen_assoc]
  refine andThen_rejects hs fun s' hs' => ?_
  simp [Ev.Rejects] at hs'

theorem vector_made (R : Rng σ) (gx : Gen σ X) {s s2 : σ} {t : Shr (List X)}
    (hm : ListLike.arbiVector R gx 0 200 s = .ok (t, s2)) :
    ∃ xs : List (Shr X), t.value = xs.map Shr.value ∧ (∀ x ∈ xs, Gen.Makes gx x) ∧
      ListLike.listLike xs 0 true = .ok t := by
  unfold ListLike.arbiVector at hm
  obtain ⟨v, s1, e1, h1, h2, -⟩ := getRandomSize_draw R s (a := 0) (b := 200) (by omega) (by omega)
  rw [e1] at hm
  simp only [Outcome.ok_bind, Outcome.bind_eq_ok] at hm
  obtain ⟨⟨xs, s2⟩, e2, t0, e3, e4⟩ := hm
  simp at e4
  obtain ⟨rfl, rfl⟩ := e4
  obtain ⟨hl, hgd⟩ := drawMany_ok gx _ _ _ _ e2
  exact ⟨xs, listLike_value e3, hgd.makes, e3⟩

theorem greedy_keeps {γ : Type} (fails : γ → Bool) (t : Shr γ) (h : fails t.value = true) :
    fails (t.greedy fails) = true := by
  rw [greedy_eq_list]
  exact greedyList_fails fails _ _ h

/-- The list of actions is shrunk greedily, with the object as it is at that time. -/
theorem list_shrunk {c : Cfg σ (Two O (List X))} (R : Rng σ) (gx : Gen σ X)
    (hg : c.gens 1 = ListLike.arbiVector R gx 0 200) (hc : Setting c) (ho : c.orderEach = [0, 1] ∨ c.orderEach = [1, 0])
    {f : O → List X → Ev Bool} (hf : c.Pure fun args => f (args 0) (args 1))
    (hq : ∀ o l, (f o l).out = .throws .success ∨ (f o l).out = .throws .discard → (f o l).fails = [])
    (fuel : Nat) (seed : σ) (a : Nat) (start shrunk : PairTuple.Tup (Two O (List X))) (tr : Trace (Two O (List X)))
    (h : forAll c fuel seed [] = (.ok (.falsified a start shrunk), tr)) (fails : O → List X → Bool)
    (hfails : ∀ o l, fails o l = true ↔ (f o l).Rejects) :
    ∃ obj, (c.orderEach = [0, 1] → obj = (shrunk 0).value) ∧ (c.orderEach = [1, 0] → obj = (start 0).value) ∧
      ∃ xs : List (Shr X), (start 1).value = xs.map Shr.value ∧ (∀ x ∈ xs, Gen.Makes gx x) ∧
        ListLike.listLike xs 0 true = .ok (start 1) ∧ (f obj (start 1).value).Rejects ∧
        (shrunk 1).value = (start 1).greedy (fails obj) := by
  obtain ⟨h1, -⟩ := C108_greedy hc hf (fails := fun b => fails (b 0) (b 1)) (fun b => hfails _ _) fuel seed a start shrunk tr h
  have hst : (f (start 0).value (start 1).value).Rejects := by
    have := start_fails hc hf (fun b => hq (b 0) (b 1)) fuel seed a start shrunk tr h
    rcases this with h4 | ⟨e, h4, h5, _⟩ | h4
    · exact Or.inl h4
    · exact Or.inr (Or.inl ⟨e, h4, h5⟩)
    · exact Or.inr (Or.inr h4)
  have hmake : ∃ xs : List (Shr X), (start 1).value = xs.map Shr.value ∧ (∀ x ∈ xs, Gen.Makes gx x) ∧
      ListLike.listLike xs 0 true = .ok (start 1) := by
    have hr := forAll_result hc fuel seed
    rw [h] at hr
    obtain ⟨i, hi, hst⟩ := hr.stop a start shrunk rfl
    obtain ⟨pre, x, s', t', _, _, hR, _, _, _, ⟨s0, r0, hd⟩, _⟩ := hst.ex
    cases hR
    obtain ⟨s1, s2, hm⟩ := Gen.drawTuple_ok _ _ _ _ _ hd 1
    rw [hg] at hm
    exact vector_made R gx hm
  obtain ⟨xs, hx1, hx2, hx3⟩ := hmake
  rcases ho with ho | ho
  · have hs0 : shrunk 0 = (start 0).greedyNode fun v => fails v (start 1).value := by
      rw [h1, ho]
      simp [greedyEach]
      rfl
    have hs1 : shrunk 1 = (start 1).greedyNode fun v => fails (shrunk 0).value v := by
      rw [hs0, h1, ho]
      simp [greedyEach]
      rfl
    refine ⟨(shrunk 0).value, fun _ => rfl, fun h' => absurd (ho.symm.trans h') (by simp), xs, hx1, hx2, hx3, ?_, ?_⟩
    · refine (hfails _ _).mp ?_
      have hv : (shrunk 0).value = (start 0).greedy fun v => fails v (start 1).value :=
        (congrArg Shr.value hs0).trans (greedyNode_value _ _)
      refine (congrArg (fun v : O => fails v (start 1).value) hv).trans ?_
      exact greedy_keeps (fun v : O => fails v (start 1).value) (start 0) ((hfails _ _).mpr hst)
    · exact (congrArg Shr.value hs1).trans (greedyNode_value _ _)
  · refine ⟨(start 0).value, fun h' => absurd (ho.symm.trans h') (by simp), fun _ => rfl, xs, hx1, hx2, hx3, hst, ?_⟩
    have hs1 : shrunk 1 = (start 1).greedyNode fun v => fails (start 0).value v := by
      rw [h1, ho]
      simp [greedyEach]
      rfl
    exact (congrArg Shr.value hs1).trans (greedyNode_value _ _)

end Stateful
end Verif
