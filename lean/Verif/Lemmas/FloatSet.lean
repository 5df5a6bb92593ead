import Verif.Model.FloatSet
import Verif.Spec.FloatSet
import Verif.Spec.Draws
import Mathlib.Data.Finset.Lattice.Lemmas
/-
Helpers for C163: insertion into trees with an order in which some elements cannot be compared.
-/
namespace Verif
namespace FloatSet
open Shr Random ListLike Floating
variable {σ β κ : Type} [LinearOrder κ]

/-- The comparison is that of the keys, elements without a key being neither smaller nor larger than anything. -/
def ByKey (lt : β → β → Bool) (key : β → Option κ) : Prop :=
  ∀ x y, lt x y = true ↔ ∃ a b, key x = some a ∧ key y = some b ∧ a < b

theorem ByKey.comp {γ : Type} {lt : β → β → Bool} {key : β → Option κ} (h : ByKey lt key) (f : γ → β) :
    ByKey (fun a b => lt (f a) (f b)) (fun a => key (f a)) := fun x y => h (f x) (f y)

/-- Strictly increasing keys. -/
def Ordered (lt : β → β → Bool) (l : List β) : Prop := l.Pairwise fun a b => lt a b = true

theorem place_le (lt : β → β → Bool) (x : β) (t : SetTree β) : place lt x t ≤ t.toList.length := by
  induction t with
  | nil => exact le_rfl
  | node l y r i1 i2 =>
    simp only [place, SetTree.toList, List.length_append, List.length_cons]
    split <;> omega

theorem put_toList (lt : β → β → Bool) (x : β) (t : SetTree β) :
    (put lt x t).toList = t.toList.take (place lt x t) ++ x :: t.toList.drop (place lt x t) := by
  induction t with
  | nil => rfl
  | node l y r ihl ihr =>
    have hle := place_le lt x
    simp only [put, place, SetTree.toList]
    split
    · rw [SetTree.toList, ihl, List.take_append_of_le_length (hle l), List.drop_append_of_le_length (hle l)]
      simp
    · rw [SetTree.toList, ihr, List.take_append, List.drop_append]
      have e1 : l.toList.length + 1 + place lt x r - l.toList.length = place lt x r + 1 := by omega
      rw [e1, List.take_of_length_le (l := l.toList) (by omega), List.drop_of_length_le (l := l.toList) (by omega)]
      simp

theorem place_none {lt : β → β → Bool} {x : β} (t : SetTree β) (h : ∀ y ∈ t.toList, lt x y = false) :
    place lt x t = t.toList.length := by
  induction t with
  | nil => rfl
  | node l y r ihl ihr =>
    rw [place, if_neg (by simp [h y (by simp [SetTree.toList])]), ihr fun z hz => h z (by simp [SetTree.toList, hz])]
    simp only [SetTree.toList, List.length_append, List.length_cons]
    omega

theorem place_sorted {lt : β → β → Bool} {key : β → Option κ} (hk : ByKey lt key) {x : β}
    (t : SetTree β) (hs : Ordered lt t.toList) :
    (∀ y ∈ t.toList.take (place lt x t), lt x y = false) ∧ ∀ y ∈ t.toList.drop (place lt x t), lt x y = true := by
  induction t with
  | nil => simp [SetTree.toList]
  | node l y r ihl ihr =>
    unfold Ordered at hs
    rw [SetTree.toList, List.pairwise_append] at hs
    obtain ⟨h1, h2, h3⟩ := hs
    rw [List.pairwise_cons] at h2
    have hle := place_le lt x
    rw [place, SetTree.toList]
    split
    · next hlt =>
      rw [List.take_append_of_le_length (hle l), List.drop_append_of_le_length (hle l)]
      refine ⟨(ihl h1).1, fun z hz => ?_⟩
      rcases List.mem_append.1 hz with hz | hz
      · exact (ihl h1).2 z hz
      · rcases List.mem_cons.1 hz with rfl | hz
        · exact hlt
        · obtain ⟨a, b, e1, e2, e3⟩ := (hk _ _).1 hlt
          obtain ⟨b', c, e4, e5, e6⟩ := (hk _ _).1 (h2.1 z hz)
          rw [e2] at e4
          cases e4
          exact (hk _ _).2 ⟨a, c, e1, e5, e3.trans e6⟩
    · next hlt =>
      have e1 : l.toList.length + 1 + place lt x r - l.toList.length = place lt x r + 1 := by omega
      rw [List.take_append, List.drop_append, e1, List.take_of_length_le (l := l.toList) (by omega),
        List.drop_of_length_le (l := l.toList) (by omega)]
      simp only [List.take_succ_cons, List.drop_succ_cons, List.nil_append]
      refine ⟨fun z hz => ?_, (ihr h2.2).2⟩
      rcases List.mem_append.1 hz with hz | hz
      · by_contra hc
        have hc : lt x z = true := by simpa using hc
        obtain ⟨a, b, f1, f2, f3⟩ := (hk _ _).1 hc
        obtain ⟨b', c, f4, f5, f6⟩ := (hk _ _).1 (h3 z hz y (by simp))
        rw [f2] at f4
        cases f4
        exact hlt ((hk _ _).2 ⟨a, c, f1, f5, f3.trans f6⟩)
      · rcases List.mem_cons.1 hz with rfl | hz
        · simpa using hlt
        · exact (ihr h2.2).1 z hz

variable {bal : Balance} (hb : ∀ (β : Type) (t : SetTree β), (bal β t).toList = t.toList)

theorem insert_empty (lt : β → β → Bool) (x : β) {t : SetTree β} (ht : t.toList = []) (hb : ∀ (β : Type) (t : SetTree β), (bal β t).toList = t.toList) :
    (insert bal lt x t).toList = [x] := by
  cases t with
  | nil => simp [insert, fresh, place, hb, put, SetTree.toList]
  | node l y r => simp [SetTree.toList] at ht

/-- An element that cannot be compared with anything is not inserted, nor is anything beside it. -/
theorem insert_rejected {lt : β → β → Bool} {x : β} {t : SetTree β} (ht : t.toList ≠ [])
    (h1 : ∀ y ∈ t.toList, lt x y = false) (h2 : ∀ y ∈ t.toList, lt y x = false) : insert bal lt x t = t := by
  unfold insert
  rw [if_neg]
  unfold fresh
  rw [place_none t h1]
  obtain ⟨n, hn⟩ : ∃ n, t.toList.length = n + 1 := ⟨t.toList.length - 1, by
    have := List.length_pos_of_ne_nil ht; omega⟩
  rw [hn]
  have : n < t.toList.length := by omega
  simp only [List.getElem?_eq_getElem this]
  simp [h2 _ (List.getElem_mem this)]

include hb in
theorem insert_sorted {lt : β → β → Bool} {key : β → Option κ} (hk : ByKey lt key) {x : β} {k : κ} (hx : key x = some k)
    {t : SetTree β} (hs : Ordered lt t.toList) (hkeys : ∀ y ∈ t.toList, key y ≠ none) :
    Ordered lt (insert bal lt x t).toList ∧
    if (∃ y ∈ t.toList, key y = some k) then insert bal lt x t = t
    else (insert bal lt x t).toList.Perm (x :: t.toList) := by
  obtain ⟨h1, h2⟩ := place_sorted hk t hs
  set p := place lt x t with hp
  have irr : ∀ z, lt z z = false := fun z => by
    by_contra hc
    obtain ⟨a, b, e1, e2, e3⟩ := (hk z z).1 (by simpa using hc)
    rw [e1] at e2; cases e2
    exact lt_irrefl _ e3
  -- the elements before the place
  have hbefore : (¬ ∃ y ∈ t.toList, key y = some k) → ∀ y ∈ t.toList.take p, lt y x = true := by
    intro hne y hy
    have hm := List.mem_of_mem_take hy
    cases hy2 : key y with
    | none => exact absurd hy2 (hkeys y hm)
    | some b =>
      refine (hk _ _).2 ⟨b, k, hy2, hx, ?_⟩
      rcases lt_trichotomy b k with h | h | h
      · exact h
      · exact absurd ⟨y, hm, h ▸ hy2⟩ hne
      · have := (hk x y).2 ⟨k, b, hx, hy2, h⟩
        rw [h1 y hy] at this
        cases this
  have hput : (put lt x t).toList.Perm (x :: t.toList) := by
    rw [put_toList]
    refine List.perm_middle.trans ?_
    rw [List.take_append_drop]
  by_cases hex : ∃ y ∈ t.toList, key y = some k
  · have hfr : fresh lt x t = false := by
      obtain ⟨y, hy, hyk⟩ := hex
      have hyt : y ∈ t.toList.take p := by
        rw [← List.take_append_drop p t.toList] at hy
        rcases List.mem_append.1 hy with h | h
        · exact h
        · obtain ⟨a, b, e1, e2, e3⟩ := (hk _ _).1 (h2 y h)
          rw [hx] at e1; rw [hyk] at e2; cases e1; cases e2
          exact absurd e3 (lt_irrefl _)
      unfold fresh
      rw [← hp]
      cases hpp : p with
      | zero => rw [hpp] at hyt; simp at hyt
      | succ q =>
        rw [hpp] at hyt h1
        dsimp only
        cases hq : t.toList[q]? with
        | none =>
          exfalso
          have hlen : t.toList.length ≤ q := by simpa using hq
          have hle : p ≤ t.toList.length := place_le lt x t
          omega
        | some z =>
          dsimp only
          by_contra hc
          have hc : lt z x = true := by simpa using hc
          rw [List.take_add_one, hq] at hyt
          rcases List.mem_append.1 hyt with h | h
          · obtain ⟨q1, hq1⟩ := List.getElem_of_mem h
            have hl : q1 < q := by have := hq1.1; simp at this; omega
            have hzlt : lt y z = true := by
              have hq' : q < t.toList.length := by
                by_contra hcc
                rw [List.getElem?_eq_none (by omega)] at hq; cases hq
              have e1 : t.toList[q] = z := by rw [List.getElem?_eq_getElem hq'] at hq; simpa using hq
              have e2 : t.toList[q1] = y := by rw [← hq1.2, List.getElem_take]
              rw [← e1, ← e2]
              exact List.pairwise_iff_getElem.1 hs q1 q _ _ hl
            obtain ⟨a, b, e1, e2, e3⟩ := (hk _ _).1 hzlt
            obtain ⟨b', c, e4, e5, e6⟩ := (hk _ _).1 hc
            rw [hyk] at e1; rw [hx] at e5; rw [e2] at e4
            cases e1; cases e4; cases e5
            exact lt_irrefl _ (e3.trans e6)
          · have : y = z := by simpa using h
            subst this
            obtain ⟨a, b, e1, e2, e3⟩ := (hk _ _).1 hc
            rw [hyk] at e1; rw [hx] at e2
            cases e1; cases e2
            exact lt_irrefl _ e3
    have : insert bal lt x t = t := by unfold insert; rw [hfr]; rfl
    rw [if_pos hex, this]
    exact ⟨hs, rfl⟩
  · have hfr : fresh lt x t = true := by
      unfold fresh
      rw [← hp]
      cases hpp : p with
      | zero => rfl
      | succ q =>
        dsimp only
        cases hq : t.toList[q]? with
        | none => rfl
        | some z =>
          dsimp only
          refine hbefore hex z ?_
          rw [hpp, List.take_add_one, hq]
          simp
    have : (insert bal lt x t).toList = (put lt x t).toList := by unfold insert; rw [hfr]; simp [hb]
    rw [if_neg hex, this]
    refine ⟨?_, hput⟩
    unfold Ordered
    rw [put_toList, List.pairwise_append]
    have hs' := hs
    unfold Ordered at hs'
    rw [← List.take_append_drop p t.toList, List.pairwise_append] at hs'
    refine ⟨hs'.1, List.pairwise_cons.2 ⟨h2, hs'.2.1⟩, fun a ha b hbb => ?_⟩
    rcases List.mem_cons.1 hbb with rfl | hbb
    · exact hbefore hex a ha
    · exact hs'.2.2 a ha b hbb

/-! ### Inserting one after the other -/

theorem build_concat (bal : Balance) (lt : β → β → Bool) (xs : List β) (x : β) :
    build bal lt (xs ++ [x]) = insert bal lt x (build bal lt xs) := by simp [build]

include hb in
/-- If the first element is incomparable, it remains the only one. -/
theorem build_first {lt : β → β → Bool} {key : β → Option κ} (hk : ByKey lt key) {x : β} (hx : key x = none) (xs : List β) :
    (build bal lt (x :: xs)).toList = [x] := by
  have h1 : ∀ y, lt x y = false := fun y => by
    by_contra hc
    obtain ⟨a, b, e1, _⟩ := (hk _ _).1 (by simpa using hc)
    rw [hx] at e1; cases e1
  have h2 : ∀ y, lt y x = false := fun y => by
    by_contra hc
    obtain ⟨a, b, _, e1, _⟩ := (hk _ _).1 (by simpa using hc)
    rw [hx] at e1; cases e1
  induction xs using List.reverseRecOn with
  | nil => exact insert_empty lt x (t := .nil) rfl hb
  | append_singleton xs y ih =>
    rw [← List.cons_append, build_concat, insert_rejected (by rw [ih]; simp) _ _]
    · exact ih
    · intro z hz; rw [ih, List.mem_singleton] at hz; subst hz; exact h2 y
    · intro z hz; rw [ih, List.mem_singleton] at hz; subst hz; exact h1 y

include hb in
/-- Else the elements that cannot be compared are dropped, and the others are put in order, one of each kind. -/
theorem build_good {lt : β → β → Bool} {key : β → Option κ} (hk : ByKey lt key) (xs : List β)
    (h0 : ∀ x, xs.head? = some x → key x ≠ none) :
    Ordered lt (build bal lt xs).toList ∧ (∀ y ∈ (build bal lt xs).toList, key y ≠ none ∧ y ∈ xs) ∧
      ∀ y ∈ xs, key y ≠ none → ∃ z ∈ (build bal lt xs).toList, key z = key y := by
  induction xs using List.reverseRecOn with
  | nil => simp [build, SetTree.toList, Ordered]
  | append_singleton xs x ih =>
    obtain ⟨i1, i2, i3⟩ := ih (fun y hy => h0 y (by cases xs <;> simp_all))
    rw [build_concat]
    cases hx : key x with
    | none =>
      have hne : xs ≠ [] := by rintro rfl; exact h0 x (by simp) hx
      have hne' : (build bal lt xs).toList ≠ [] := by
        cases xs with
        | nil => exact absurd rfl hne
        | cons y ys =>
          obtain ⟨z, hz, _⟩ := i3 y (by simp) (h0 y (by simp))
          intro e; rw [e] at hz; simp at hz
      have h1 : ∀ y, lt x y = false := fun y => by
        by_contra hc
        obtain ⟨a, b, e1, _⟩ := (hk _ _).1 (by simpa using hc)
        rw [hx] at e1; cases e1
      have h2 : ∀ y, lt y x = false := fun y => by
        by_contra hc
        obtain ⟨a, b, _, e1, _⟩ := (hk _ _).1 (by simpa using hc)
        rw [hx] at e1; cases e1
      rw [insert_rejected hne' (fun y _ => h1 y) (fun y _ => h2 y)]
      refine ⟨i1, fun y hy => ⟨(i2 y hy).1, by simp [(i2 y hy).2]⟩, fun y hy hy2 => ?_⟩
      rcases List.mem_append.1 hy with hy | hy
      · exact i3 y hy hy2
      · rw [List.mem_singleton] at hy; subst hy; exact absurd hx hy2
    | some k =>
      obtain ⟨j1, j2⟩ := insert_sorted hb hk hx i1 fun y hy => (i2 y hy).1
      refine ⟨j1, ?_⟩
      split at j2
      · next hex =>
        rw [j2]
        refine ⟨fun y hy => ⟨(i2 y hy).1, by simp [(i2 y hy).2]⟩, fun y hy hy2 => ?_⟩
        rcases List.mem_append.1 hy with hy | hy
        · exact i3 y hy hy2
        · rw [List.mem_singleton] at hy; subst hy
          obtain ⟨z, hz, e⟩ := hex
          exact ⟨z, hz, e.trans hx.symm⟩
      · refine ⟨fun y hy => ?_, fun y hy hy2 => ?_⟩
        · rcases List.mem_cons.1 (j2.subset hy) with rfl | hy
          · exact ⟨by simp [hx], by simp⟩
          · exact ⟨(i2 y hy).1, by simp [(i2 y hy).2]⟩
        · rcases List.mem_append.1 hy with hy | hy
          · obtain ⟨z, hz, e⟩ := i3 y hy hy2
            exact ⟨z, j2.symm.subset (by simp [hz]), e⟩
          · rw [List.mem_singleton] at hy; subst hy
            exact ⟨y, j2.symm.subset (by simp), rfl⟩

/-- The number of elements that are inserted. -/
def kindsBy (key : β → Option κ) (xs : List β) : Nat :=
  match xs with
  | [] => 0
  | x :: xs => if key x = none then 1 else ((x :: xs).filterMap key).toFinset.card

theorem ordered_nodup {lt : β → β → Bool} {key : β → Option κ} (hk : ByKey lt key) {l : List β} (h : Ordered lt l) :
    (l.filterMap key).Pairwise (· < ·) := by
  rw [List.pairwise_filterMap]
  refine List.Pairwise.imp ?_ h
  intro a b hab k hk1 k' hk2
  obtain ⟨a', b', e1, e2, e3⟩ := (hk _ _).1 hab
  rw [hk1] at e1; rw [hk2] at e2; cases e1; cases e2
  exact e3

include hb in
theorem build_length {lt : β → β → Bool} {key : β → Option κ} (hk : ByKey lt key) (xs : List β) :
    (build bal lt xs).toList.length = kindsBy key xs := by
  cases xs with
  | nil => rfl
  | cons x xs =>
    rw [kindsBy]
    split
    · next hx => rw [build_first hb hk hx]; rfl
    · next hx =>
      obtain ⟨i1, i2, i3⟩ := build_good hb hk (x :: xs) (fun y hy => by simp at hy; subst hy; exact hx)
      have hn := (ordered_nodup hk i1).imp fun h => ne_of_lt h
      have hl : ((build bal lt (x :: xs)).toList.filterMap key).length = (build bal lt (x :: xs)).toList.length := by
        rw [List.length_filterMap_eq_countP, List.countP_eq_length]
        intro y hy
        exact Option.isSome_iff_ne_none.2 (i2 y hy).1
      rw [← hl, ← List.toFinset_card_of_nodup hn]
      congr 1
      ext k
      simp only [List.mem_toFinset, List.mem_filterMap]
      constructor
      · rintro ⟨y, hy, e⟩; exact ⟨y, (i2 y hy).2, e⟩
      · rintro ⟨y, hy, e⟩
        obtain ⟨z, hz, e2⟩ := i3 y hy (by simp [e])
        exact ⟨z, hz, e2.trans e⟩

include hb in
/-- Selections of the elements of a container are containers. -/
theorem build_sublist {lt : β → β → Bool} {key : β → Option κ} (hk : ByKey lt key) {xs ys : List β}
    (h : Ordered lt xs ∧ (∀ y ∈ xs, key y ≠ none) ∨ ∃ x, xs = [x]) (hs : ys.Sublist xs) :
    (build bal lt ys).toList = ys := by
  have single : ∀ x, (build bal lt [x]).toList = [x] := fun x => insert_empty lt x (t := .nil) rfl hb
  rcases h with ⟨h1, h2⟩ | ⟨x, rfl⟩
  · have h1 : Ordered lt ys := List.Pairwise.sublist hs h1
    have h2 : ∀ y ∈ ys, key y ≠ none := fun y hy => h2 y (hs.subset hy)
    obtain ⟨i1, i2, i3⟩ := build_good hb hk ys (fun y hy => h2 y (List.mem_of_mem_head? hy))
    have tr : ∀ a b c, lt a b = true → lt b c = true → lt a c = true := by
      intro a b c hab hbc
      obtain ⟨_, _, e1, e2, e3⟩ := (hk _ _).1 hab
      obtain ⟨_, _, e4, e5, e6⟩ := (hk _ _).1 hbc
      rw [e2] at e4; cases e4
      exact (hk _ _).2 ⟨_, _, e1, e5, e3.trans e6⟩
    have irr : ∀ z, lt z z ≠ true := fun z hc => by
      obtain ⟨a, b, e1, e2, e3⟩ := (hk z z).1 hc
      rw [e1] at e2; cases e2
      exact lt_irrefl _ e3
    have inj : ∀ l : List β, Ordered lt l → ∀ y ∈ l, ∀ z ∈ l, key y ≠ none → key y = key z → y = z := by
      intro l hl
      induction l with
      | nil => simp
      | cons a l ih =>
        obtain ⟨p1, p2⟩ := List.pairwise_cons.1 hl
        intro y hy z hz hn he
        rcases List.mem_cons.1 hy with ey | hy' <;> rcases List.mem_cons.1 hz with ez | hz'
        · rw [ey, ez]
        · subst ey
          obtain ⟨_, _, e1, e2, e3⟩ := (hk _ _).1 (p1 z hz')
          rw [e1, e2] at he; cases he; exact absurd e3 (lt_irrefl _)
        · subst ez
          obtain ⟨_, _, e1, e2, e3⟩ := (hk _ _).1 (p1 y hy')
          rw [e1, e2] at he; cases he; exact absurd e3 (lt_irrefl _)
        · exact ih p2 y hy' z hz' hn he
    have nd : ∀ l : List β, Ordered lt l → l.Nodup := fun l hl => by
      refine List.Pairwise.imp ?_ hl
      rintro a b hab rfl
      exact irr a hab
    have hsub : ys ⊆ (build bal lt ys).toList := by
      intro y hy
      obtain ⟨z, hz, e⟩ := i3 y hy (h2 y hy)
      have : y = z := inj ys h1 y hy z (i2 z hz).2 (h2 y hy) e.symm
      exact this ▸ hz
    have hperm : (build bal lt ys).toList.Perm ys :=
      (List.perm_ext_iff_of_nodup (nd _ i1) (nd _ h1)).2 fun a => ⟨fun ha => (i2 a ha).2, fun ha => hsub ha⟩
    exact hperm.eq_of_pairwise (fun a b _ _ hab hba => absurd (tr _ _ _ hab hba) (irr a)) i1 h1
  · rcases List.sublist_singleton.1 hs with rfl | rfl
    · rfl
    · exact single x

/-! ### The loop -/

theorem fill_full (lt : β → β → Bool) (g : Gen σ β) {size fuel : Nat} {t : SetTree (Shr β)} {s : σ} (h : size ≤ t.toList.length) :
    fill bal lt g size fuel t s = .ok (t, s) := by
  cases fuel with
  | zero => rw [fill, if_neg (by omega)]
  | succ fuel => rw [fill, if_neg (by omega)]

/-- The comparison of shrinkables. -/
def onValue (lt : β → β → Bool) (a b : Shr β) : Bool := lt a.value b.value

theorem fill_draws (lt : β → β → Bool) (g : Gen σ β) (size : Nat) {s s' : σ} {ds : List (Shr β)} (hd : g.Draws s ds s')
    (pre : List (Shr β)) (hp : ∀ q, q <+: ds → q ≠ ds → (build bal (onValue lt) (pre ++ q)).toList.length < size) (fuel : Nat) :
    fill bal lt g size (ds.length + fuel) (build bal (onValue lt) pre) s =
      fill bal lt g size fuel (build bal (onValue lt) (pre ++ ds)) s' := by
  induction hd generalizing pre with
  | nil s => simp
  | @cons s s₁ s' x xs h1 h2 ih =>
    have e0 : (x :: xs).length + fuel = xs.length + fuel + 1 := by simp; omega
    rw [e0, fill, if_pos (by simpa using hp [] (List.nil_prefix) (by simp)), h1, Outcome.ok_bind]
    have e1 : insert bal (fun a b => lt a.value b.value) x (build bal (onValue lt) pre) = build bal (onValue lt) (pre ++ [x]) :=
      (build_concat bal (onValue lt) pre x).symm
    dsimp only
    rw [e1, ih (pre ++ [x]) ?_]
    · simp
    · intro q hq hne
      have := hp (x :: q) (by simpa using hq) (by simpa using hne)
      simpa using this

theorem fill_ok (lt : β → β → Bool) (g : Gen σ β) (size : Nat) (fuel : Nat) (pre : List (Shr β)) (s s' : σ) (t : SetTree (Shr β))
    (h : fill bal lt g size fuel (build bal (onValue lt) pre) s = .ok (t, s')) :
    ∃ ds, g.Draws s ds s' ∧ ds.length ≤ fuel ∧ t = build bal (onValue lt) (pre ++ ds) ∧ size ≤ t.toList.length ∧
      ∀ q, q <+: ds → q ≠ ds → (build bal (onValue lt) (pre ++ q)).toList.length < size := by
  induction fuel generalizing pre s with
  | zero =>
    rw [fill] at h
    split at h
    · cases h
    · next hs =>
      cases h
      refine ⟨[], .nil _, le_rfl, by simp, by omega, fun q hq hne => absurd (List.prefix_nil.1 hq) hne⟩
  | succ fuel ih =>
    rw [fill] at h
    split at h
    · next hs =>
      rw [Outcome.bind_eq_ok] at h
      obtain ⟨⟨x, s1⟩, h1, h2⟩ := h
      dsimp only at h2
      have e1 : insert bal (fun a b => lt a.value b.value) x (build bal (onValue lt) pre) = build bal (onValue lt) (pre ++ [x]) :=
        (build_concat bal (onValue lt) pre x).symm
      rw [e1] at h2
      obtain ⟨ds, d1, d2, d3, d4, d5⟩ := ih _ _ h2
      refine ⟨x :: ds, .cons h1 d1, by simpa using d2, by simpa using d3, d4, fun q hq hne => ?_⟩
      cases q with
      | nil => simpa using hs
      | cons y q =>
        obtain ⟨rfl, hq'⟩ := List.cons_prefix_cons.1 hq
        have := d5 q hq' (by simpa using hne)
        simpa using this
    · next hs =>
      cases h
      refine ⟨[], .nil _, by simp, by simp, by omega, fun q hq hne => absurd (List.prefix_nil.1 hq) hne⟩

theorem kindsBy_concat (key : β → Option κ) (xs : List β) (x : β) : kindsBy key (xs ++ [x]) ≤ kindsBy key xs + 1 := by
  cases xs with
  | nil =>
    simp only [List.nil_append, kindsBy]
    split
    · exact le_rfl
    · cases hx : key x <;> simp [hx]
  | cons y ys =>
    simp only [List.cons_append, kindsBy]
    split
    · omega
    · rw [← List.cons_append, List.filterMap_append, List.toFinset_append]
      refine (Finset.card_union_le _ _).trans ?_
      have : ([x].filterMap key).toFinset.card ≤ 1 := by cases hx : key x <;> simp [hx]
      omega

/-- Draws that give as many different elements as wanted, the last one being new. -/
def Enough (key : β → Option κ) (size : Nat) (ds : List (Shr β)) : Prop :=
  kindsBy key (ds.map Shr.value) = size ∧ ∀ q, q <+: ds → q ≠ ds → kindsBy key (q.map Shr.value) < size

include hb in
theorem kindsBy_value {lt : β → β → Bool} {key : β → Option κ} (hk : ByKey lt key) (ds : List (Shr β)) :
    (build bal (onValue lt) ds).toList.length = kindsBy key (ds.map Shr.value) := by
  rw [build_length hb (show ByKey (onValue lt) (fun a : Shr β => key a.value) from hk.comp Shr.value)]
  cases ds with
  | nil => rfl
  | cons d ds => simp only [kindsBy, List.map_cons]; congr 1; rw [← List.map_cons, List.filterMap_map]; rfl

include hb in
theorem fill_iff {lt : β → β → Bool} {key : β → Option κ} (hk : ByKey lt key) (g : Gen σ β) (size fuel : Nat) (s s' : σ)
    (t : SetTree (Shr β)) :
    fill bal lt g size fuel .nil s = .ok (t, s') ↔
      ∃ ds, g.Draws s ds s' ∧ ds.length ≤ fuel ∧ Enough key size ds ∧ t = build bal (onValue lt) ds := by
  constructor
  · intro h
    obtain ⟨ds, d1, d2, d3, d4, d5⟩ := fill_ok lt g size fuel [] s s' t h
    rw [List.nil_append] at d3
    simp only [List.nil_append, kindsBy_value hb hk] at d5
    rw [d3, kindsBy_value hb hk] at d4
    refine ⟨ds, d1, d2, ⟨?_, d5⟩, d3⟩
    refine le_antisymm ?_ d4
    rcases List.eq_nil_or_concat ds with rfl | ⟨q, x, rfl⟩
    · simp [kindsBy]
    · have h1 := d5 q (by simp) (by simp)
      have h2 := kindsBy_concat key (q.map Shr.value) x.value
      simp only [List.concat_eq_append, List.map_append, List.map_cons, List.map_nil]
      omega
  · rintro ⟨ds, d1, d2, ⟨d3, d4⟩, rfl⟩
    obtain ⟨k, rfl⟩ := Nat.exists_eq_add_of_le d2
    have := fill_draws (bal := bal) lt g size d1 [] (fun q hq hne => by
      rw [List.nil_append, kindsBy_value hb hk]; exact d4 q hq hne) k
    rw [List.nil_append] at this
    exact this.trans (fill_full lt g (by rw [kindsBy_value hb hk, d3]))

theorem less_byKey (F : Fmt) : ByKey (less F) (Fl.number F) := by
  have key : ∀ a b : ℚ, ((a : WithTop ℚ) : WithBot (WithTop ℚ)) < ((b : WithTop ℚ) : WithBot (WithTop ℚ)) ↔ a < b := fun a b => by
    rw [WithBot.coe_lt_coe, WithTop.coe_lt_coe]
  have top : ∀ a : ℚ, ((a : WithTop ℚ) : WithBot (WithTop ℚ)) < ((⊤ : WithTop ℚ) : WithBot (WithTop ℚ)) := fun a => by
    rw [WithBot.coe_lt_coe]; exact WithTop.coe_lt_top a
  have bot : ∀ a : WithTop ℚ, (⊥ : WithBot (WithTop ℚ)) < (a : WithBot (WithTop ℚ)) := fun a => WithBot.bot_lt_coe a
  have num : ∀ x, (∃ neg, x = Fl.zero neg) ∨ (∃ neg f e, x = Fl.fin neg f e) →
      Fl.number F x = some ((quantity F x : WithTop ℚ) : WithBot (WithTop ℚ)) := by
    rintro x (⟨neg, rfl⟩ | ⟨neg, f, e, rfl⟩) <;> rfl
  have fin : ∀ x y, ((∃ neg, x = Fl.zero neg) ∨ (∃ neg f e, x = Fl.fin neg f e)) →
      ((∃ neg, y = Fl.zero neg) ∨ (∃ neg f e, y = Fl.fin neg f e)) →
      (less F x y = true ↔ ∃ a b, Fl.number F x = some a ∧ Fl.number F y = some b ∧ a < b) := by
    intro x y hx hy
    rw [num x hx, num y hy]
    have : less F x y = decide (quantity F x < quantity F y) := by
      rcases hx with ⟨_, rfl⟩ | ⟨_, _, _, rfl⟩ <;> rcases hy with ⟨_, rfl⟩ | ⟨_, _, _, rfl⟩ <;> rfl
    rw [this, decide_eq_true_eq, ← key]
    constructor
    · intro h; exact ⟨_, _, rfl, rfl, h⟩
    · rintro ⟨a, b, e1, e2, h⟩; cases e1; cases e2; exact h
  have finl : ∀ (x : Fl) (n : Bool), ((∃ neg, x = Fl.zero neg) ∨ (∃ neg f e, x = Fl.fin neg f e)) →
      (less F x (.inf n) = true ↔ ∃ a b, Fl.number F x = some a ∧ Fl.number F (.inf n) = some b ∧ a < b) := by
    intro x n hx
    rw [num x hx]
    have : less F x (.inf n) = !n := by
      rcases hx with ⟨_, rfl⟩ | ⟨_, _, _, rfl⟩ <;> rfl
    rw [this]
    cases n
    · simp only [Bool.not_false, true_iff]
      exact ⟨_, _, rfl, rfl, top _⟩
    · simp only [Bool.not_true, Bool.false_eq_true, false_iff]
      rintro ⟨a, b, e1, e2, h⟩
      cases e2
      exact not_lt_bot h
  have finr : ∀ (x : Fl) (n : Bool), ((∃ neg, x = Fl.zero neg) ∨ (∃ neg f e, x = Fl.fin neg f e)) →
      (less F (.inf n) x = true ↔ ∃ a b, Fl.number F (.inf n) = some a ∧ Fl.number F x = some b ∧ a < b) := by
    intro x n hx
    rw [num x hx]
    have : less F (.inf n) x = n := by
      rcases hx with ⟨_, rfl⟩ | ⟨_, _, _, rfl⟩ <;> rfl
    rw [this]
    cases n
    · simp only [Bool.false_eq_true, false_iff]
      rintro ⟨a, b, e1, e2, h⟩
      cases e1
      cases e2
      exact absurd (top _) (not_lt_of_gt h)
    · simp only [true_iff]
      exact ⟨_, _, rfl, rfl, bot _⟩
  intro x y
  rcases x with _ | nx | nx | ⟨nx, fx, ex⟩ <;> rcases y with _ | ny | ny | ⟨ny, fy, ey⟩
  case inf.inf =>
    cases nx <;> cases ny
    · simp [less, Fl.number]
    · simp only [less, Bool.not_true, Bool.and_false, Bool.false_eq_true, false_iff]
      rintro ⟨a, b, e1, e2, h⟩
      cases e2
      exact not_lt_bot h
    · simp only [less, Bool.not_false, Bool.and_true, true_iff]
      exact ⟨_, _, rfl, rfl, bot _⟩
    · simp [less, Fl.number]
  case zero.zero | zero.fin | fin.zero | fin.fin => exact fin _ _ (by simp) (by simp)
  case zero.inf | fin.inf => exact finl _ _ (by simp)
  case inf.zero | inf.fin => exact finr _ _ (by simp)
  all_goals simp [less, Fl.number]

theorem number_none (F : Fmt) (x : Fl) : Fl.number F x = none ↔ x = .nan := by
  rcases x with _ | nx | nx | ⟨nx, fx, ex⟩
  · simp [Fl.number]
  · cases nx <;> simp [Fl.number]
  · simp [Fl.number, Fl.toRat?]
  · simp [Fl.number, Fl.toRat?]

end FloatSet
end Verif
