import Verif.Lemmas.CostBasic
import Verif.Model.Combinator
import Verif.Lemmas.Containers
import Verif.Lemmas.Integral
import Verif.Lemmas.Floating
import Verif.Lemmas.PropertyLoop
/-
Helper lemmas: how many candidates a search in a shrink tree can try.
-/
namespace Verif
open Shr
variable {α β γ δ : Type}

namespace ListLike
open BinSearch

theorem cost_range (m rear : Nat) (xs : List δ) :
    (frontAndMid.range m rear xs).cost = (bsNat (xs.length - rear - frontAndMid.minFront m rear)).cost := by
  rw [range_eq, cost_map]

theorem cost_frontAndMid (m d : Nat) : ∀ (fuel rear : Nat) (xs : List δ), m ≤ xs.length → rear ≤ xs.length →
    xs.length - m ≤ d → (frontAndMid m fuel rear xs).cost ≤ (xs.length - rear) * (bsNat d).cost := by
  intro fuel
  induction fuel with
  | zero =>
    intro rear xs hm hr hd
    rw [frontAndMid, cost_range]
    rcases Nat.eq_or_lt_of_le hr with h | h
    · rw [show xs.length - rear - frontAndMid.minFront m rear = 0 by omega, cost_bsNat]; simp
    · have h1 : (bsNat (xs.length - rear - frontAndMid.minFront m rear)).cost ≤ (bsNat d).cost :=
        cost_bsNat_mono (by unfold frontAndMid.minFront; split <;> omega)
      exact h1.trans (Nat.le_mul_of_pos_left _ (by omega))
  | succ fuel ih =>
    intro rear xs hm hr hd
    rw [frontAndMid]
    rcases Nat.eq_or_lt_of_le hr with h | h
    · have h1 := cost_concat (k := fun parent : Shr (List δ) =>
          if parent.value.length ≤ m ∨ parent.value.length ≤ rear then []
          else (frontAndMid m fuel (rear + 1) parent.value).shrinks) (t := frontAndMid.range m rear xs) (B := 0)
        fun u hu => by
          obtain ⟨f, _, hf, _, hl⟩ := desc_range hm hr hu
          rw [if_pos (Or.inr (by omega))]; exact Nat.le_refl _
      rw [cost_range, show xs.length - rear - frontAndMid.minFront m rear = 0 by omega, cost_bsNat] at h1
      exact h1.trans (by simp)
    · have h1 : (bsNat (xs.length - rear - frontAndMid.minFront m rear)).cost ≤ (bsNat d).cost :=
        cost_bsNat_mono (by unfold frontAndMid.minFront; split <;> omega)
      have h2 := cost_concat (k := fun parent : Shr (List δ) =>
          if parent.value.length ≤ m ∨ parent.value.length ≤ rear then []
          else (frontAndMid m fuel (rear + 1) parent.value).shrinks) (t := frontAndMid.range m rear xs)
          (B := (xs.length - rear - 1) * (bsNat d).cost)
        fun u hu => by
          obtain ⟨f, _, hf, _, hl⟩ := desc_range hm hr hu
          split
          · simp [costList]
          · rename_i hn
            rw [← cost_eq]
            refine (ih (rear + 1) u.value (by omega) (by omega) (by omega)).trans ?_
            exact Nat.mul_le_mul_right _ (by omega)
      rw [cost_range] at h2
      refine h2.trans ?_
      have : (xs.length - rear) * (bsNat d).cost = (xs.length - rear - 1) * (bsNat d).cost + (bsNat d).cost := by
        conv => lhs; rw [show xs.length - rear = xs.length - rear - 1 + 1 by omega, Nat.add_mul, Nat.one_mul]
      omega

theorem sum_le_of_sublist {l m : List Nat} (h : l.Sublist m) : l.sum ≤ m.sum := by
  induction h with
  | slnil => exact Nat.le_refl _
  | cons a _ ih => rw [List.sum_cons]; omega
  | cons_cons a _ ih => rw [List.sum_cons, List.sum_cons]; omega

theorem sum_cost_bulkRound (k : Nat) : ∀ anc : List (Shr α),
    ((bulkRound anc (anc.map fun a => a.shrinks.drop k)).map cost).sum ≤ (anc.map cost).sum ∧
    ((anc.map fun a => a.shrinks.drop k).all List.isEmpty = false →
      ((bulkRound anc (anc.map fun a => a.shrinks.drop k)).map cost).sum + (k + 1) ≤ (anc.map cost).sum)
  | [] => by simp [bulkRound]
  | a :: anc => by
    obtain ⟨h1, h2⟩ := sum_cost_bulkRound k anc
    rw [List.map_cons]
    cases hd : a.shrinks.drop k with
    | nil =>
      simp only [bulkRound, List.map_cons, List.sum_cons, List.all_cons, List.isEmpty_nil, Bool.true_and]
      exact ⟨by omega, fun h => by have := h2 h; omega⟩
    | cons b st =>
      have hb : a.shrinks[k]? = some b := by
        have := congrArg (fun l => l[0]?) hd
        simpa using this
      have hc := le_costList hb
      rw [← cost_eq] at hc
      simp only [bulkRound, List.map_cons, List.sum_cons]
      exact ⟨by omega, fun _ => by omega⟩

theorem bulkTails_drop (anc : List (Shr α)) (k : Nat) :
    bulkTails (anc.map fun a => a.shrinks.drop k) = anc.map fun a => a.shrinks.drop (k + 1) := by
  simp [bulkTails, Function.comp_def]

theorem sum_cost_bulkRounds (anc : List (Shr α)) : ∀ (i k : Nat) (v : List (Shr α)),
    (bulkRounds anc (anc.map fun a => a.shrinks.drop k))[i]? = some v →
    (v.map cost).sum + (k + i + 1) ≤ (anc.map cost).sum := by
  intro i
  induction i with
  | zero =>
    intro k v h
    rw [bulkRounds] at h
    split at h
    · simp at h
    · rename_i hne
      simp at h
      subst h
      have := (sum_cost_bulkRound k anc).2 (by simpa using hne)
      omega
  | succ i ih =>
    intro k v h
    rw [bulkRounds] at h
    split at h
    · simp at h
    · rw [List.getElem?_cons_succ, bulkTails_drop] at h
      have := ih (k + 1) v h
      omega

theorem cost_bulk (anc : List (Shr α)) : costList (bulk anc) ≤ (anc.map cost).sum := by
  induction hN : (anc.map cost).sum using Nat.strong_induction_on generalizing anc with
  | _ N ih =>
    refine costList_le fun i s hs => ?_
    rw [bulk, List.getElem?_map, List.getElem?_attach] at hs
    have key : ∃ v, (bulkRounds anc (anc.map Shr.shrinks))[i]? = some v ∧ s = node v (bulk v) := by
      simp only [Option.map_eq_some_iff] at hs
      obtain ⟨⟨v, hv⟩, h1, rfl⟩ := hs
      refine ⟨v, ?_, rfl⟩
      cases h : (bulkRounds anc (anc.map Shr.shrinks))[i]? with
      | none => rw [Option.pmap_eq_some_iff] at h1; obtain ⟨_, _, h2, _⟩ := h1; rw [h] at h2; cases h2
      | some w =>
        rw [Option.pmap_eq_some_iff] at h1
        obtain ⟨w', _, h2, h3⟩ := h1
        rw [h] at h2
        cases h2
        simp at h3
        rw [h3]
    obtain ⟨v, hv, rfl⟩ := key
    have h1 := sum_cost_bulkRounds anc i 0 v (by simpa using hv)
    have h2 := ih _ (by omega) v rfl
    rw [cost]
    omega

theorem cost_listLike {xs : List (Shr α)} {m : Nat} {b : Bool} {t : Shr (List α)} (h : listLike xs m b = .ok t) :
    t.cost ≤ xs.length * (bsNat (xs.length - m)).cost + if b then (xs.map cost).sum else 0 := by
  unfold listLike membershipwise at h
  by_cases hm : xs.length < m
  · simp [hm] at h
  · rw [if_neg hm, Outcome.ok_bind] at h
    simp only [Outcome.pure_eq, Outcome.ok.injEq] at h
    subst h
    rw [flatMap_eq_map, cost_map]
    have h1 := cost_frontAndMid m (xs.length - m) xs.length 0 xs (by omega) (by omega) (Nat.le_refl _)
    cases b with
    | false => simpa using h1
    | true =>
      simp only [if_true]
      refine (cost_andThen (B := (xs.map cost).sum) fun u hu hs => ?_).trans (Nat.add_le_add_right (by simpa using h1) _)
      have hu' : u = leaf u.value := by rw [← eta u, hs]; rfl
      rw [hu', elementwise_leaf]
      refine (cost_bulk _).trans ?_
      have hsub : u.value.Sublist xs := by
        have he := edges_fam m xs.length 0 xs (by omega) (by omega)
        have : ∀ t u : Shr (List (Shr α)), AllEdges Sub t → Desc t u → u.value.Sublist t.value := by
          intro t u he hd
          induction hd with
          | refl => exact List.Sublist.refl _
          | step hm hd ih => exact (ih fun s hs => he s (.step hm hs)).trans (he _ (.refl _) _ hm).1
        have := this _ u he hu
        rwa [value_fam (by omega) (by omega)] at this
      exact sum_le_of_sublist (hsub.map cost)

end ListLike

namespace Containers
open BinSearch ListLike

theorem cost_shrinkString (str : List α) (m : Nat) :
    (shrinkString str m).cost ≤ 2 * (bsNat (str.length - m)).cost := by
  unfold shrinkString
  have h := cost_concat (k := fun shr : Shr (List α) => shrinkFront m shr.value) (t := shrinkRear str m)
    (B := (bsNat (str.length - m)).cost) fun u hu => by
      unfold shrinkRear at hu
      obtain ⟨w, hw, rfl⟩ := desc_map.mp hu
      unfold shrinkFront
      split
      · simp [costList]
      · rw [← cost_eq, cost_map]
        refine cost_bsNat_mono ?_
        have hw' := (bsNat_desc _ hw).1
        simp only [value_map, List.length_take]
        omega
  have : (shrinkRear str m).cost = (bsNat (str.length - m)).cost := by rw [shrinkRear, cost_map]
  omega

theorem cost_shrinkMap {κ : Type} [LinearOrder κ] (xs : List (Shr κ × Shr β)) (m : Nat) (h : m ≤ xs.length) :
    (shrinkMap xs m).cost = (bsNat (xs.length - m)).cost := by
  unfold shrinkMap mapSizes sizeRange
  rw [if_pos h, flatMap_eq_map, flatMap_eq_map, cost_map, cost_map, cost_map]

theorem cost_shrinkSet [LinearOrder α] {xs : List (Shr α)} {m : Nat} {t : Shr (List α)}
    (h : shrinkSet xs m = .ok t) : t.cost ≤ xs.length * (bsNat (xs.length - m)).cost := by
  unfold shrinkSet membershipwise at h
  by_cases hm : xs.length < m
  · simp [hm] at h
  · rw [if_neg hm, Outcome.ok_bind] at h
    simp only [Outcome.pure_eq, Outcome.ok.injEq] at h
    subst h
    rw [flatMap_eq_map, cost_map]
    simpa using cost_frontAndMid m (xs.length - m) xs.length 0 xs (by omega) (by omega) (Nat.le_refl _)

end Containers

namespace PairTuple
variable {n : Nat} {A : Fin n → Type}

theorem cost_shrinkPair (a : Shr α) (b : Shr β) : (shrinkPair a b).cost ≤ a.cost + b.cost := by
  unfold shrinkPair
  rw [flatMap_eq_map, cost_map]
  have e1 : ∀ p : Shr (Shr α × Shr β), costList (shrinkFirst p) = p.value.1.cost := fun p => by
    rw [shrinkFirst, flatMap_eq_map, ← cost_eq, cost_map]
  have e2 : ∀ p : Shr (Shr α × Shr β), costList (shrinkSecond p) = p.value.2.cost := fun p => by
    rw [shrinkSecond, flatMap_eq_map, ← cost_eq, cost_map]
  have h1 : ((leaf (a, b)).concat shrinkFirst).cost ≤ 0 + a.cost := by
    have := cost_concat (k := shrinkFirst) (t := leaf (a, b)) (B := a.cost) fun u hu => by
      rw [desc_iff] at hu
      simp at hu
      subst hu
      rw [e1]; exact Nat.le_refl _
    simpa using this
  refine (cost_concat (B := b.cost) fun u hu => ?_).trans (by omega)
  rw [e2]
  have : u.value.2 = b := by
    rcases desc_concat.mp hu with ⟨s, hs, rfl⟩ | ⟨s, hs, w, hw, hd⟩
    · rw [desc_iff] at hs
      simp at hs
      subst hs
      simp
    · rw [desc_iff] at hs
      simp at hs
      subst hs
      rw [shrinkFirst, flatMap_eq_map, shrinks_map, List.mem_map] at hw
      obtain ⟨c, _, rfl⟩ := hw
      obtain ⟨d, _, rfl⟩ := desc_map.mp hd
      simp
  rw [this]

theorem cost_concatHelper {comps : Tup A} {N : Nat} {t : Shr (Tup A)} (hN : N ≤ n) (st : Stage comps N t)
    (h : t.cost ≤ (((List.finRange n).take N).map fun i => (comps i).cost).sum) :
    (concatHelper N t).cost ≤ ((List.finRange n).map fun i => (comps i).cost).sum := by
  induction hk : n - N generalizing N t with
  | zero =>
    have : N = n := by omega
    subst this
    rw [concatHelper, dif_neg (by omega)]
    rwa [List.take_of_length_le (by simp)] at h
  | succ k ih =>
    have hlt : N < n := by omega
    rw [concatHelper, dif_pos hlt]
    refine ih (by omega) (st.next hlt) ?_ (by omega)
    have h1 := cost_concat (k := genStream (A := A) ⟨N, hlt⟩) (t := t) (B := (comps ⟨N, hlt⟩).cost) fun u hu => by
      rw [genStream, flatMap_eq_map, ← cost_eq, cost_map, (st.sound u hu ⟨N, hlt⟩).2 (Nat.le_refl _)]
    rw [List.take_add_one, List.getElem?_eq_getElem (by simpa using hlt)]
    simp only [List.getElem_finRange, Option.toList_some, List.map_append, List.sum_append, List.map_cons, List.map_nil,
      List.sum_cons, List.sum_nil]
    simp only [Fin.cast_mk]
    omega

theorem cost_shrinkTuple (comps : Tup A) :
    (shrinkTuple comps).cost ≤ ((List.finRange n).map fun i => (comps i).cost).sum := by
  unfold shrinkTuple
  rw [flatMap_eq_map, cost_map]
  refine cost_concatHelper (Nat.zero_le _) ⟨?_, ?_⟩ (by simp)
  · intro s hs i
    rw [desc_iff] at hs
    simp at hs
    subst hs
    exact ⟨fun h => by omega, fun _ => rfl⟩
  · intro v _
    exact ⟨_, .refl _, fun i hi => by omega⟩

end PairTuple

namespace Floating
open BinSearch

theorem costList_frac (F : Fmt) (s : Shr Fl) : costList (frac F s) ≤ 1 := by
  unfold frac; split <;> simp [costList]

theorem cost_mid {F : Fmt} {neg : Bool} {f : Nat} {t : Shr Int} :
    costList (mid F neg f t) ≤ 2 + t.cost := by
  unfold mid
  rw [costList, cost_leaf]
  have : costList (t.shrinks.map fun c => (c.map (Fl.fin neg f)).andThen (frac F)) ≤ t.cost + 1 := by
    refine costList_le fun i s hs => ?_
    rw [List.getElem?_map] at hs
    cases hi : t.shrinks[i]? with
    | none => simp [hi] at hs
    | some u =>
      simp [hi] at hs
      subst hs
      have h1 := cost_andThen (k := frac F) (t := u.map (Fl.fin neg f)) (B := 1) fun u _ _ => costList_frac F u
      have h2 := le_costList hi
      rw [cost_map] at h1
      rw [← cost_eq] at h2
      omega
  omega

end Floating

namespace Comb
variable {σ : Type}

mutual
theorem cost_lazyMap (f : α → σ → Outcome β) (o : List Nat → σ) : ∀ (p : List Nat) (t : Shr α) (u : Shr β),
    lazyMap f o p t = some u → u.cost ≤ t.cost
  | p, .node v ss, u, h => by
    rw [lazyMap] at h
    split at h
    · cases h
      rw [Shr.cost, Shr.cost]
      exact costList_lazyMap f o p 0 ss
    · cases h
theorem costList_lazyMap (f : α → σ → Outcome β) (o : List Nat → σ) : ∀ (p : List Nat) (i : Nat) (ss : List (Shr α)),
    costList (lazyMapList f o p i ss) ≤ costList ss
  | p, i, [] => by simp [lazyMapList, costList]
  | p, i, s :: ss => by
    rw [lazyMapList]
    cases h : lazyMap f o (i :: p) s with
    | none => simp [costList]
    | some t =>
      have h1 := cost_lazyMap f o (i :: p) s t h
      have h2 := costList_lazyMap f o p (i + 1) ss
      simp only [costList]
      omega
end

end Comb

namespace Engine
open PairTuple

mutual
/-- Answers that make the search try as many candidates as possible: which of the candidates tried is to fail. -/
def worst : Shr α → List Bool
  | .node _ ss => worstList ss
/-- The same for the remaining candidates. -/
def worstList : List (Shr α) → List Bool
  | [] => []
  | s :: ss => if Shr.costList ss ≤ s.cost then true :: worst s else false :: worstList ss
end

mutual
theorem worst_length : ∀ t : Shr α, (worst t).length = t.cost
  | .node _ ss => by rw [worst, Shr.cost]; exact worstList_length ss
theorem worstList_length : ∀ ss : List (Shr α), (worstList ss).length = Shr.costList ss
  | [] => by rw [worstList, Shr.costList]; rfl
  | s :: ss => by
    have h1 := worst_length s
    have h2 := worstList_length ss
    rw [worstList, Shr.costList]
    split <;> simp only [List.length_cons] <;> omega
end

variable {n : Nat} {A : Fin n → Type}

/-- A property function with a memory: it fails in the first run, and afterwards as the script says. -/
def scripted (S : List Bool) (tr : Trace A) : Ev Bool :=
  ⟨[], .ok (!(calls .run tr).isEmpty && !(S.getD (calls .shrink tr).length true))⟩

/-- One run with generators that always make the same trees. -/
def fixedCfg (ts : Tup A) (order : List (Fin n)) (S : List Bool) : Cfg Unit A where
  gens := fun i _ => .ok (ts i, ())
  orderRun := List.finRange n
  orderShrink := List.finRange n
  orderEach := order
  thrown := id
  func := fun tr _ => scripted S tr
  startup := none
  cleanup := none
  numRuns := 1
  maxDurationMs := 0
  clock := fun _ => 0

theorem test_scripted (ts : Tup A) (order : List (Fin n)) (S : List Bool) (vals : Tup A) (N : Fin n) (next : Shr (A N))
    (s : St Unit A) : test (fixedCfg ts order S) vals N next s = ((scripted S s.trace).out,
      { s with trace := .call .shrink (Function.update (Tup.get vals) N next.value) (scripted S s.trace) :: s.trace }) := by
  simp [test, Eng.catchStd, Eng.tryCatch, runStartup, runCleanup, callFunc, record, fixedCfg, Eng.bind_apply, scripted,
    Eng.pure_apply]

variable (ts : Tup A) (order : List (Fin n)) (S : List Bool)

mutual
theorem shrinkN_scripted (N : Fin n) : ∀ (t : Shr (A N)) (vals : Tup A) (s : St Unit A) (pre rest : List Bool)
    (_ : S = pre ++ (worst t ++ rest)) (_ : (calls .shrink s.trace).length = pre.length)
    (_ : calls .run s.trace ≠ []),
    ∃ vals' s', shrinkN (fixedCfg ts order S) vals N t s = (.ok vals', s') ∧
      (calls .shrink s'.trace).length = pre.length + (worst t).length ∧ calls .run s'.trace ≠ [] ∧
      ∀ M, M ≠ N → vals' M = vals M
  | .node v ss, vals, s, pre, rest, hS, hp, hr => by
    rw [worst] at hS ⊢
    obtain ⟨vals', s', h1, h2, h3, h4⟩ :=
      shrinkNIter_scripted N ss vals s.fails { s with fails := [] } pre rest hS hp hr rfl
    refine ⟨vals', s', ?_, h2, h3, h4⟩
    rw [shrinkN]; exact h1
theorem shrinkNIter_scripted (N : Fin n) : ∀ (ss : List (Shr (A N))) (vals : Tup A) (outer : List String) (s : St Unit A)
    (pre rest : List Bool)
    (_ : S = pre ++ (worstList ss ++ rest)) (_ : (calls .shrink s.trace).length = pre.length)
    (_ : calls .run s.trace ≠ []) (_ : s.fails = []),
    ∃ vals' s', shrinkNIter (fixedCfg ts order S) vals N outer ss s = (.ok vals', s') ∧
      (calls .shrink s'.trace).length = pre.length + (worstList ss).length ∧ calls .run s'.trace ≠ [] ∧
      ∀ M, M ≠ N → vals' M = vals M
  | [], vals, outer, s, pre, rest, hS, hp, hr, hf => by
    refine ⟨vals, { s with fails := outer }, ?_, by simp [worstList, hp], hr, fun _ _ => rfl⟩
    simp [shrinkNIter]
  | next :: ss, vals, outer, s, pre, rest, hS, hp, hr, hf => by
    rw [shrinkNIter]
    simp only [test_scripted]
    rw [worstList] at hS ⊢
    have hr' : (calls .run s.trace).isEmpty = false := by simpa using hr
    by_cases hc : Shr.costList ss ≤ next.cost
    · rw [if_pos hc] at hS ⊢
      have ho : (scripted S s.trace).out = .ok false := by
        simp [scripted, hp, hS]
      obtain ⟨vals', s', h1, h2, h3, h4⟩ := shrinkN_scripted N next (Function.update vals N next)
        { s with trace := .call .shrink (Function.update (Tup.get vals) N next.value) (scripted S s.trace) :: s.trace,
                 fails := outer } (pre ++ [true]) rest (by rw [hS]; simp)
        (by rw [calls_cons]; simp [hp, Event.call?]) (by rw [calls_cons]; simp [Event.call?, hr])
      refine ⟨vals', s', ?_, ?_, h3, fun M hM => ?_⟩
      · rw [ho]; simpa using h1
      · rw [h2]; simp; omega
      · rw [h4 M hM, Function.update_of_ne hM]
    · rw [if_neg hc] at hS ⊢
      have ho : (scripted S s.trace).out = .ok true := by
        simp [scripted, hp, hS, hr']
      obtain ⟨vals', s', h1, h2, h3, h4⟩ := shrinkNIter_scripted N ss vals outer
        { s with trace := .call .shrink (Function.update (Tup.get vals) N next.value) (scripted S s.trace) :: s.trace }
        (pre ++ [false]) rest (by rw [hS]; simp)
        (by rw [calls_cons]; simp [hp, Event.call?]) (by rw [calls_cons]; simp [Event.call?, hr]) hf
      refine ⟨vals', s', ?_, ?_, h3, h4⟩
      · rw [ho]; simpa [hf] using h1
      · rw [h2]; simp; omega
end

theorem shrinkEach_scripted : ∀ (l : List (Fin n)) (_ : l.Nodup) (vals : Tup A) (s : St Unit A) (pre : List Bool)
    (_ : ∀ N ∈ l, vals N = ts N)
    (_ : S = pre ++ (l.map fun N => worst (ts N)).flatten) (_ : (calls .shrink s.trace).length = pre.length)
    (_ : calls .run s.trace ≠ []),
    ∃ vals' s', shrinkEach (fixedCfg ts order S) l vals s = (.ok vals', s') ∧
      (calls .shrink s'.trace).length = pre.length + (l.map fun N => (ts N).cost).sum
  | [], _, vals, s, pre, _, hS, hp, hr => ⟨vals, s, rfl, by simp [hp]⟩
  | N :: l, hn, vals, s, pre, hv, hS, hp, hr => by
    rw [List.nodup_cons] at hn
    obtain ⟨v1, s1, h1, h2, h3, h4⟩ := shrinkN_scripted ts order S N (ts N) vals s pre
      (l.map fun N => worst (ts N)).flatten (by rw [hS]; simp) hp hr
    obtain ⟨v2, s2, h5, h6⟩ := shrinkEach_scripted l hn.2 v1 s1 (pre ++ worst (ts N)) (fun M hM => by
        rw [h4 M fun e => hn.1 (e ▸ hM)]; exact hv M (by simp [hM])) (by rw [hS]; simp) (by rw [h2]; simp) h3
    refine ⟨v2, s2, ?_, ?_⟩
    · rw [shrinkEach, Eng.bind_apply, hv N (by simp)]
      simp only [Eng.mk, h1]
      exact h5
    · rw [h6]
      have := worst_length (ts N)
      simp; omega

end Engine
end Verif
