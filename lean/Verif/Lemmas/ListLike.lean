import Mathlib.Data.List.Sublists
import Mathlib.Data.List.Perm.Basic
import Verif.Lemmas.PairTuple
import Verif.Lemmas.BinSearch
import Verif.Model.ListLike
namespace Verif
open Shr BinSearch
variable {σ α β δ : Type}

/-- The values after `concat` with a function of the value: each value followed by the values added
for it. -/
theorem values_concat (k : α → List (Shr α)) (t : Shr α) :
    ((t.concat fun s => k s.value).values).Perm
      (t.values.flatMap fun v => v :: (k v).flatMap values) := by
  induction t using Shr.ind with
  | h v ss ih =>
    have e : (node v ss).concat (fun s => k s.value) =
        node v (ss.map (concat fun s => k s.value) ++ k v) := by
      rw [← eta (concat _ _)]; simp
    rw [e, values_node, values_node, List.flatMap_append, List.flatMap_cons, List.cons_append]
    refine List.Perm.cons _ ?_
    refine List.perm_append_comm.trans (List.Perm.append_left _ ?_)
    rw [List.flatMap_map, List.flatMap_assoc]
    exact List.Perm.flatMap_left _ ih

theorem bsNat_values_perm (n : Nat) : (bsNat n).values.Perm (List.range (n + 1)) := by
  rw [List.perm_iff_count]
  intro a
  rw [bsNat_count]
  by_cases h : a ≤ n
  · rw [if_pos h, List.count_eq_one_of_mem List.nodup_range (by simp; omega)]
  · rw [if_neg h, List.count_eq_zero_of_not_mem (by simp; omega)]

namespace ListLike

/-- The guard around the call of `shrinkMid` contradicts the guard of that call
(/repo/proptest/shrinker/listlike.cpp:148-150). -/
theorem mid_unreachable (parentSize minSize rear : Nat) :
    ¬((parentSize ≤ minSize ∨ parentSize ≤ rear) ∧ (minSize < parentSize ∧ rear + 1 < parentSize)) := by
  omega

theorem range_eq (m rear : Nat) (xs : List δ) :
    frontAndMid.range m rear xs =
      (bsNat (xs.length - rear - frontAndMid.minFront m rear)).map
        (fun j => xs.take (j + frontAndMid.minFront m rear) ++ xs.drop (xs.length - rear)) := by
  unfold frontAndMid.range sizeRange
  rw [flatMap_eq_map]
  have : ∀ (f : Nat → List δ) (g : Nat → Nat) (t : Shr Nat), (t.map g).map f = t.map (fun x => f (g x)) := by
    intro f g t
    induction t using Shr.ind with
    | h v ss ih => simp only [map_node, List.map_map]; congr 1; exact List.map_congr_left ih
  rw [this]; rfl

theorem minFront_le {m rear len : Nat} (h : m ≤ len) (hr : rear ≤ len) :
    frontAndMid.minFront m rear ≤ len - rear := by
  unfold frontAndMid.minFront; split <;> omega

theorem minFront_spec {m rear f : Nat} : frontAndMid.minFront m rear ≤ f ↔ m ≤ f + rear := by
  unfold frontAndMid.minFront; split <;> omega

theorem value_range {m rear : Nat} {xs : List δ} (hm : m ≤ xs.length) (hr : rear ≤ xs.length) :
    (frontAndMid.range m rear xs).value = xs := by
  rw [range_eq, value_map, bsNat_value, Nat.sub_add_cancel (minFront_le hm hr), List.take_append_drop]

theorem value_fam {m fuel rear : Nat} {xs : List δ} (hm : m ≤ xs.length) (hr : rear ≤ xs.length) :
    (frontAndMid m fuel rear xs).value = xs := by
  cases fuel <;> simp [frontAndMid, value_range hm hr]

/-- Every value in the range tree. -/
theorem desc_range {m rear : Nat} {xs : List δ} (hm : m ≤ xs.length) (hr : rear ≤ xs.length)
    {s : Shr (List δ)} (h : Desc (frontAndMid.range m rear xs) s) :
    ∃ f, frontAndMid.minFront m rear ≤ f ∧ f ≤ xs.length - rear ∧
      s.value = xs.take f ++ xs.drop (xs.length - rear) ∧ s.value.length = f + rear := by
  rw [range_eq] at h
  obtain ⟨s', h', rfl⟩ := desc_map.mp h
  have := (bsNat_desc _ h').1
  have hl := minFront_le hm hr
  refine ⟨s'.value + frontAndMid.minFront m rear, by omega, by omega, by simp, ?_⟩
  simp only [value_map, List.length_append, List.length_take, List.length_drop]
  omega

/-- The recursion equation of `shrinkFrontAndThenMid` (/repo/proptest/shrinker/listlike.cpp:132-161),
for any sufficient budget. -/
theorem frontAndMid_eq (m fuel rear : Nat) (xs : List δ) (hm : m ≤ xs.length) (hr : rear ≤ xs.length)
    (hf : xs.length - rear ≤ fuel) :
    frontAndMid m fuel rear xs =
      (frontAndMid.range m rear xs).concat fun parent =>
        if parent.value.length ≤ m ∨ parent.value.length ≤ rear then []
        else (frontAndMid m (parent.value.length - (rear + 1)) (rear + 1) parent.value).shrinks := by
  have irr : ∀ (n fuel fuel' rear : Nat) (xs : List δ), xs.length - rear ≤ n → m ≤ xs.length →
      rear ≤ xs.length → xs.length - rear ≤ fuel → xs.length - rear ≤ fuel' →
      frontAndMid m fuel rear xs = frontAndMid m fuel' rear xs := by
    intro n
    induction n with
    | zero =>
      have leafcase : ∀ (fuel rear : Nat) (xs : List δ), xs.length - rear = 0 → m ≤ xs.length →
          rear ≤ xs.length → frontAndMid m fuel rear xs = frontAndMid.range m rear xs := by
        intro fuel rear xs h0 hm hr
        cases fuel with
        | zero => rfl
        | succ fuel =>
          have key : ∀ t : Shr (List δ), (∀ s, Desc t s → s.value.length ≤ rear) →
              (t.concat fun parent =>
                if parent.value.length ≤ m ∨ parent.value.length ≤ rear then []
                else (frontAndMid m fuel (rear + 1) parent.value).shrinks) = t := by
            intro t
            induction t using Shr.ind with
            | h v ss ih =>
              intro h
              rw [← eta (concat _ _)]
              have hv : v.length ≤ rear := h _ (.refl _)
              simp only [value_concat, value_node, shrinks_concat, shrinks_node, hv, or_true, if_true,
                List.append_nil]
              congr 1
              conv => rhs; rw [← List.map_id ss]
              refine List.map_congr_left fun s hs => ih s hs fun u hu => h u (.step hs hu)
          rw [frontAndMid]
          refine key _ fun s hs => ?_
          obtain ⟨f, _, h2, _, h4⟩ := desc_range hm hr hs
          omega
      intro fuel fuel' rear xs h0 hm hr _ _
      rw [leafcase fuel _ _ (by omega) hm hr, leafcase fuel' _ _ (by omega) hm hr]
    | succ n ih =>
      intro fuel fuel' rear xs hn hm hr h1 h2
      rcases (show xs.length - rear ≤ n ∨ xs.length - rear = n + 1 by omega) with h | h
      · exact ih fuel fuel' rear xs h hm hr h1 h2
      · obtain ⟨fuel, rfl⟩ : ∃ k, fuel = k + 1 := ⟨fuel - 1, by omega⟩
        obtain ⟨fuel', rfl⟩ : ∃ k, fuel' = k + 1 := ⟨fuel' - 1, by omega⟩
        rw [frontAndMid, frontAndMid]
        refine concat_congr fun s hs => ?_
        obtain ⟨f, _, hf, _, hl⟩ := desc_range hm hr hs
        split
        · rfl
        · rw [ih fuel fuel' (rear + 1) s.value (by omega) (by omega) (by omega) (by omega) (by omega)]
  cases hfu : fuel with
  | zero =>
    subst hfu
    rw [irr 0 0 1 rear xs (by omega) hm hr (by omega) (by omega), frontAndMid]
    refine concat_congr fun s hs => ?_
    obtain ⟨f, _, hf', _, hl⟩ := desc_range hm hr hs
    rw [if_pos (by omega), if_pos (by omega)]
  | succ fuel' =>
    subst hfu
    rw [frontAndMid]
    refine concat_congr fun s hs => ?_
    obtain ⟨f, _, hf', _, hl⟩ := desc_range hm hr hs
    split
    · rfl
    · rw [irr _ fuel' (s.value.length - (rear + 1)) (rear + 1) s.value (Nat.le_refl _) (by omega) (by omega)
        (by omega) (by omega)]
where
  concat_congr {k k' : Shr (List δ) → List (Shr (List δ))} {t : Shr (List δ)}
      (h : ∀ s, Desc t s → k s = k' s) : t.concat k = t.concat k' := by
    induction t using Shr.ind with
    | h v ss ih =>
      rw [← eta (concat k _), ← eta (concat k' _)]
      simp only [value_concat, shrinks_concat, shrinks_node, value_node]
      rw [h _ (.refl _)]
      congr 2
      exact List.map_congr_left fun s hs => ih s hs fun u hu => h u (.step hs hu)

/-! #### Every step removes elements -/

/-- A proper sub-list. -/
def Sub (x y : List δ) : Prop := y.Sublist x ∧ y.length < x.length

theorem edges_range {m rear : Nat} {xs : List δ} (hm : m ≤ xs.length) (hr : rear ≤ xs.length) :
    AllEdges Sub (frontAndMid.range m rear xs) := by
  rw [range_eq, AllEdges.map]
  intro s hs c hc
  obtain ⟨h1, h2⟩ := bsNat_desc _ hs
  have := h2 c hc
  have hl := minFront_le hm hr
  refine ⟨List.Sublist.append (List.take_sublist_take_left (by omega)) (.refl _), ?_⟩
  simp only [List.length_append, List.length_take]
  omega

theorem edges_fam (m fuel : Nat) : ∀ (rear : Nat) (xs : List δ), m ≤ xs.length → rear ≤ xs.length →
    AllEdges Sub (frontAndMid m fuel rear xs) := by
  induction fuel with
  | zero => intro rear xs hm hr; exact edges_range hm hr
  | succ fuel ih =>
    intro rear xs hm hr
    rw [frontAndMid]
    refine (edges_range hm hr).concat fun s hs w hw => ?_
    split at hw
    · simp at hw
    · obtain ⟨f, _, hf', _, hl⟩ := desc_range hm hr hs
      have h := ih (rear + 1) s.value (by omega) (by omega)
      refine ⟨?_, fun u hu c hc => h u (.step hw hu) c hc⟩
      have h2 := h _ (.refl _) w hw
      rw [value_fam (by omega) (by omega)] at h2
      exact h2

/-! #### The values are exactly the sub-lists -/

theorem filter_sublists_full (l : List δ) :
    ((l.sublists).filter fun z => decide (l.length ≤ z.length)).Perm [l] := by
  refine ((List.sublists_perm_sublists' l).filter _).trans ?_
  induction l with
  | nil => simp
  | cons a l ih =>
    rw [List.sublists'_cons, List.filter_append]
    have e1 : (l.sublists').filter (fun z => decide ((a :: l).length ≤ z.length)) = [] := by
      rw [List.filter_eq_nil_iff]
      intro z hz
      have := (List.mem_sublists'.mp hz).length_le
      simp; omega
    rw [e1, List.nil_append, List.filter_map]
    have e2 : ((fun z : List δ => decide ((a :: l).length ≤ z.length)) ∘ List.cons a) =
        fun z => decide (l.length ≤ z.length) := by
      funext z; simp
    rw [e2]
    simpa using ih.map (List.cons a)

/-- The lists whose last front element is number `f - 1` of `P`. -/
def lastAt (P S : List δ) : Nat → List (List δ)
  | 0 => [S]
  | f + 1 => (P.take f).sublists.map (· ++ (P.drop f).take 1 ++ S)

theorem lastAt_all (P S : List δ) :
    ((List.range (P.length + 1)).flatMap (lastAt P S)).Perm (P.sublists.map (· ++ S)) := by
  induction P using List.reverseRecOn with
  | nil => simp [lastAt]
  | append_singleton l a ih =>
    rw [List.length_append, List.length_singleton, List.range_succ, List.flatMap_append,
      List.sublists_append, List.sublists_singleton]
    have e1 : (List.range (l.length + 1)).flatMap (lastAt (l ++ [a]) S) =
        (List.range (l.length + 1)).flatMap (lastAt l S) := by
      refine List.flatMap_congr fun f hf => ?_
      rw [List.mem_range] at hf
      cases f with
      | zero => rfl
      | succ f =>
        have h2 : ((l ++ [a]).drop f).take 1 = (l.drop f).take 1 := by
          rw [List.drop_append_of_le_length (by omega), List.take_append_of_le_length (by simp; omega)]
        rw [lastAt, lastAt, List.take_append_of_le_length (by omega), h2]
    rw [e1]
    have e2 : [l.length + 1].flatMap (lastAt (l ++ [a]) S) = l.sublists.map (· ++ [a] ++ S) := by
      simp [lastAt]
    rw [e2]
    have e3 : (List.flatMap (fun x => List.map (fun y => y ++ x) l.sublists) [[], [a]]).map (· ++ S) =
        l.sublists.map (· ++ S) ++ l.sublists.map (· ++ [a] ++ S) := by
      simp [Function.comp_def]
    refine (ih.append_right _).trans (List.Perm.of_eq ?_)
    rw [← e3]
    rfl

theorem values_fam (m : Nat) : ∀ (fuel rear : Nat) (xs : List δ), m ≤ xs.length → rear ≤ xs.length →
    xs.length - rear ≤ fuel →
    (frontAndMid m fuel rear xs).values.Perm
      ((((xs.take (xs.length - rear)).sublists).map (· ++ xs.drop (xs.length - rear))).filter
        fun y => decide (m ≤ y.length)) := by
  intro fuel
  induction fuel with
  | zero =>
    intro rear xs hm hr hf
    have h0 : xs.length - rear = 0 := by omega
    have h1 : frontAndMid.minFront m rear = 0 := by have := minFront_le hm hr; omega
    rw [frontAndMid, range_eq, h0, h1]
    simp [bsNat, hm]
  | succ fuel ih =>
    intro rear xs hm hr hf
    rw [frontAndMid]
    refine (values_concat (fun v => if v.length ≤ m ∨ v.length ≤ rear then [] else
      (frontAndMid m fuel (rear + 1) v).shrinks) _).trans ?_
    rw [range_eq, values_map, List.flatMap_map]
    generalize hP : xs.take (xs.length - rear) = P
    generalize hS : xs.drop (xs.length - rear) = S
    have hx : xs = P ++ S := by rw [← hP, ← hS, List.take_append_drop]
    have lP : P.length = xs.length - rear := by rw [← hP, List.length_take]; omega
    have lS : S.length = rear := by rw [← hS, List.length_drop]; omega
    have hl := minFront_le hm hr
    -- the contribution of one front size
    have contrib : ∀ f, frontAndMid.minFront m rear ≤ f → f ≤ P.length →
        ((xs.take f ++ S) :: (if (xs.take f ++ S).length ≤ m ∨ (xs.take f ++ S).length ≤ rear then [] else
          (frontAndMid m fuel (rear + 1) (xs.take f ++ S)).shrinks).flatMap values).Perm
        ((lastAt P S f).filter fun y => decide (m ≤ y.length)) := by
      intro f h1 h2
      have hmf : m ≤ f + rear := minFront_spec.mp h1
      have e0 : xs.take f = P.take f := by rw [hx, List.take_append_of_le_length h2]
      have le : (xs.take f ++ S).length = f + rear := by
        rw [e0, List.length_append, List.length_take]; omega
      by_cases hc : (xs.take f ++ S).length ≤ m ∨ (xs.take f ++ S).length ≤ rear
      · rw [if_pos hc, List.flatMap_nil, e0]
        rw [le] at hc
        cases f with
        | zero => rw [lastAt, List.filter_cons_of_pos (by simp; omega)]; simp
        | succ f =>
          have hme : m = f + 1 + rear := by omega
          rw [lastAt, List.filter_map]
          have e2 : ∀ z ∈ (P.take f).sublists, ((fun y : List δ => decide (m ≤ y.length)) ∘
              (fun z : List δ => z ++ (P.drop f).take 1 ++ S)) z =
              decide ((P.take f).length ≤ z.length) := by
            intro z _
            have : ((P.drop f).take 1).length = 1 := by simp; omega
            simp only [Function.comp, List.length_append, this, lS, List.length_take, decide_eq_decide]
            omega
          rw [List.filter_congr e2]
          refine List.Perm.symm (((filter_sublists_full _).map _).trans ?_)
          simp only [List.map_cons, List.map_nil]
          rw [List.take_add]
      · rw [if_neg hc]
        rw [le] at hc
        have e3 : (frontAndMid m fuel (rear + 1) (xs.take f ++ S)).values =
            (xs.take f ++ S) ::
              (frontAndMid m fuel (rear + 1) (xs.take f ++ S)).shrinks.flatMap values := by
          conv => lhs; rw [← eta (frontAndMid m fuel (rear + 1) (xs.take f ++ S)), values_node]
          rw [value_fam (by omega) (by omega)]
        rw [← e3]
        refine (ih (rear + 1) _ (by omega) (by omega) (by omega)).trans ?_
        cases f with
        | zero => omega
        | succ f =>
          have h4 : (xs.take (f + 1) ++ S).length - (rear + 1) = f := by omega
          rw [h4, lastAt, e0]
          have h5 : (P.take (f + 1) ++ S).take f = P.take f := by
            rw [List.take_append_of_le_length (by simp; omega), List.take_take]; congr 1; omega
          have h6 : (P.take (f + 1) ++ S).drop f = (P.drop f).take 1 ++ S := by
            rw [List.drop_append_of_le_length (by simp; omega), List.drop_take]; congr 2; omega
          rw [h5, h6]
          simp [List.append_assoc]
    -- all front sizes
    have hd : xs.length - rear - frontAndMid.minFront m rear + 1 + frontAndMid.minFront m rear =
        P.length + 1 := by omega
    have step1 : ((bsNat (xs.length - rear - frontAndMid.minFront m rear)).values.flatMap fun a =>
        ((xs.take (a + frontAndMid.minFront m rear) ++ S) ::
          (if (xs.take (a + frontAndMid.minFront m rear) ++ S).length ≤ m ∨
              (xs.take (a + frontAndMid.minFront m rear) ++ S).length ≤ rear then [] else
          (frontAndMid m fuel (rear + 1) (xs.take (a + frontAndMid.minFront m rear) ++ S)).shrinks).flatMap
            values)).Perm
        ((List.range (xs.length - rear - frontAndMid.minFront m rear + 1)).flatMap fun a =>
          (lastAt P S (a + frontAndMid.minFront m rear)).filter fun y => decide (m ≤ y.length)) := by
      refine ((bsNat_values_perm _).flatMap_right _).trans (List.Perm.flatMap_left _ fun a ha => ?_)
      rw [List.mem_range] at ha
      exact contrib _ (by omega) (by omega)
    refine step1.trans ?_
    have low : (List.range (frontAndMid.minFront m rear)).flatMap
        (fun a => (lastAt P S a).filter fun y => decide (m ≤ y.length)) = [] := by
      rw [List.flatMap_eq_nil_iff]
      intro a ha
      rw [List.mem_range] at ha
      have ha' : ¬ m ≤ a + rear := fun h => by
        have := minFront_spec.mpr h; omega
      rw [List.filter_eq_nil_iff]
      intro y hy
      cases a with
      | zero => simp [lastAt] at hy; subst hy; simp; omega
      | succ a =>
        rw [lastAt, List.mem_map] at hy
        obtain ⟨z, hz, rfl⟩ := hy
        have h1 := (List.mem_sublists.mp hz).length_le
        simp only [List.length_take] at h1
        simp only [List.length_append, List.length_take, List.length_drop, decide_eq_true_eq]
        omega
    have step2 : (List.range (xs.length - rear - frontAndMid.minFront m rear + 1)).flatMap (fun a =>
          (lastAt P S (a + frontAndMid.minFront m rear)).filter fun y => decide (m ≤ y.length)) =
        (List.range (P.length + 1)).flatMap
          (fun a => (lastAt P S a).filter fun y => decide (m ≤ y.length)) := by
      conv => rhs; rw [← hd, Nat.add_comm (xs.length - rear - frontAndMid.minFront m rear + 1),
        List.range_add, List.flatMap_append, low, List.nil_append, List.flatMap_map]
      simp only [Nat.add_comm]
    rw [step2, ← List.filter_flatMap]
    exact (lastAt_all P S).filter _

/-! #### Element-wise shrinking -/

/-- One element-wise step: each element stays or becomes one of its shrinks, at least one changes
place. -/
def ElemStep (x y : List (Shr α)) : Prop :=
  List.Forall₂ (fun a b => b = a ∨ b ∈ a.shrinks) x y ∧
    ∃ (i : Nat) (a b : Shr α), x[i]? = some a ∧ y[i]? = some b ∧ b ∈ a.shrinks

theorem bulkRound_step (anc : List (Shr α)) (sts : List (List (Shr α)))
    (h : List.Forall₂ (fun a st => ∀ s ∈ st, s ∈ a.shrinks) anc sts) :
    List.Forall₂ (fun a b => b = a ∨ b ∈ a.shrinks) anc (bulkRound anc sts) ∧
    (sts.all List.isEmpty = false → ∃ (i : Nat) (a b : Shr α), anc[i]? = some a ∧ (bulkRound anc sts)[i]? = some b ∧
      b ∈ a.shrinks) := by
  induction h with
  | nil => simp [bulkRound]
  | @cons a st anc sts h1 _ ih =>
    cases st with
    | nil =>
      simp only [bulkRound, List.all_cons, List.isEmpty_nil, Bool.true_and]
      refine ⟨.cons (.inl rfl) ih.1, fun h => ?_⟩
      obtain ⟨i, x, y, e1, e2, e3⟩ := ih.2 h
      exact ⟨i + 1, x, y, by simpa using e1, by simpa using e2, e3⟩
    | cons b st =>
      simp only [bulkRound]
      exact ⟨.cons (.inr (h1 b (by simp))) ih.1, fun _ => ⟨0, a, b, by simp, by simp, h1 b (by simp)⟩⟩

theorem bulkRounds_step (anc : List (Shr α)) (sts : List (List (Shr α)))
    (h : List.Forall₂ (fun a st => ∀ s ∈ st, s ∈ a.shrinks) anc sts) {v : List (Shr α)}
    (hv : v ∈ bulkRounds anc sts) : ElemStep anc v := by
  fun_induction bulkRounds anc sts with
  | case1 => simp at hv
  | case2 sts he ih =>
    rcases List.mem_cons.mp hv with rfl | hv
    · exact ⟨(bulkRound_step anc sts h).1, (bulkRound_step anc sts h).2 (by simpa using he)⟩
    · exact ih (forall₂_tails h) hv

theorem mem_bulk {anc : List (Shr α)} {s : Shr (List (Shr α))} :
    s ∈ bulk anc ↔ ∃ v ∈ bulkRounds anc (anc.map Shr.shrinks), s = node v (bulk v) := by
  rw [bulk]
  simp only [List.mem_map, List.mem_attach, true_and, Subtype.exists]
  constructor
  · rintro ⟨v, hv, rfl⟩; exact ⟨v, hv, rfl⟩
  · rintro ⟨v, hv, rfl⟩; exact ⟨v, hv, rfl⟩

/-- Element-wise shrinking as a tree. -/
def bulkTree (v : List (Shr α)) : Shr (List (Shr α)) := node v (bulk v)

theorem desc_bulkTree {v : List (Shr α)} {s : Shr (List (Shr α))} (h : Desc (bulkTree v) s) :
    s = bulkTree s.value := by
  generalize e : bulkTree v = t at h
  induction h generalizing v with
  | refl => subst e; rfl
  | step m _ ih =>
    subst e
    obtain ⟨w, _, rfl⟩ := mem_bulk.mp (by simpa [bulkTree] using m)
    exact ih rfl

theorem edges_bulkTree (v : List (Shr α)) : AllEdges ElemStep (bulkTree v) := by
  intro s hs c hc
  rw [desc_bulkTree hs] at hc
  obtain ⟨w, hw, rfl⟩ := mem_bulk.mp (by simpa [bulkTree] using hc)
  exact bulkRounds_step _ _ (forall₂_shrinks _) hw

theorem reach_bulkTree {v w : List (Shr α)} (h : Reach (bulkTree v) w) : List.Forall₂ Desc v w := by
  obtain ⟨s, hs, rfl⟩ := h
  generalize e : bulkTree v = t at hs
  induction hs generalizing v with
  | refl => subst e; exact List.forall₂_same.mpr fun a _ => .refl a
  | step m _ ih =>
    subst e
    obtain ⟨w, hw, rfl⟩ := mem_bulk.mp (by simpa [bulkTree] using m)
    have h1 := (bulkRounds_step _ _ (forall₂_shrinks _) hw).1
    exact trans_step h1 (ih (v := w) rfl)
where
  trans_step {v w u : List (Shr α)} (h1 : List.Forall₂ (fun a b => b = a ∨ b ∈ a.shrinks) v w)
      (h2 : List.Forall₂ Desc w u) : List.Forall₂ Desc v u := by
    induction h1 generalizing u with
    | nil => cases h2; exact .nil
    | cons h _ ih =>
      cases h2 with
      | cons h3 h4 =>
        refine .cons ?_ (ih h4)
        rcases h with rfl | h
        · exact h3
        · exact .step h h3

theorem elementwise_leaf (v : List (Shr α)) : elementwise (leaf v) = bulk v := by
  unfold elementwise
  cases v with
  | nil =>
    rw [bulk]; simp [bulkRounds]
  | cons a v => simp

end ListLike
end Verif
