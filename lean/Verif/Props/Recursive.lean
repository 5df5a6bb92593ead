import Verif.Lemmas.Recursive
/-
C126, C127: generators that refer to themselves (`reference`).
-/
namespace Verif
namespace Recursive
open Shr Random ListLike Comb
variable {σ : Type}

/-! ### C126 what a recursive generator produces -/

theorem draws_induct {g : Gen σ Box} {s s' : σ} {xs : List (Shr Box)} (h : g.Draws s xs s') (P : Shr Box → Prop)
    (hg : ∀ s x s', g s = .ok (x, s') → P x) : ∀ x ∈ xs, P x := by
  induction h with
  | nil => simp
  | cons h1 _ ih =>
    intro x hx
    rcases List.mem_cons.mp hx with rfl | hx
    · exact hg _ _ _ h1
    · exact ih x hx

/-- C126. Every box generated by the documented `boxGen` has, at every level, a number of boxes inside that is within
the bounds; its depth is at most that of the calls. -/
theorem C126_sized (R : Rng σ) {lo hi : Nat} (h : lo ≤ hi) (hb : hi < 2^32) : ∀ (fuel : Nat) (s s' : σ) (t : Shr Box),
    boxGen R lo hi fuel s = .ok (t, s') → t.value.Sized lo hi ∧ t.value.Deep fuel ∧ t.shrinks = [] := by
  intro fuel
  induction fuel with
  | zero => intro s s' t e; cases e
  | succ fuel ih =>
    intro s s' t e
    rw [boxGen_succ] at e
    obtain ⟨⟨u, s1⟩, h1, e⟩ := Outcome.bind_eq_ok.mp e
    cases e
    obtain ⟨xs, s2, _, hd, h2, h3, h4, _⟩ := C27_vector R _ lo hi h hb _ _ _ h1
    have hk := draws_induct hd (fun x => x.value.Sized lo hi ∧ x.value.Deep fuel) (fun s x s' e => ⟨(ih _ _ _ e).1, (ih _ _ _ e).2.1⟩)
    dsimp only at h4 ⊢
    rw [h4]
    refine ⟨.node _ (by simpa using h2) (by simpa using h3) ?_, .node _ _ ?_, rfl⟩
    · intro k hk'
      obtain ⟨x, hx, rfl⟩ := List.mem_map.mp hk'
      exact (hk x hx).1
    · intro k hk'
      obtain ⟨x, hx, rfl⟩ := List.mem_map.mp hk'
      exact (hk x hx).2

example : boxGen script 0 2 3 [2, 0, 1, 0] = .ok (leaf (.node [.node [], .node [.node []]]), []) := rfl

/-- C126. Conversely every box within the bounds, of any depth, is generated with suitable draws. -/
theorem C126_every_box {lo hi : Nat} (hb : hi < 2^32) (b : Box) (h : b.Sized lo hi) :
    ∃ (fuel : Nat) (draws : List Int), ∀ rest, boxGen script lo hi fuel (draws ++ rest) = .ok (leaf b, rest) := by
  induction h with
  | node kids h1 h2 _ ih =>
    have many : ∀ ks : List Box, (∀ k ∈ ks, k ∈ kids) → ∃ (fuel : Nat) (draws : List Int), ∀ rest,
        drawMany (boxGen script lo hi fuel) ks.length (draws ++ rest) = .ok (ks.map leaf, rest) := by
      intro ks
      induction ks with
      | nil => intro _; exact ⟨0, [], fun _ => rfl⟩
      | cons k ks ihk =>
        intro hks
        obtain ⟨f1, d1, e1⟩ := ih k (hks k (by simp))
        obtain ⟨f2, d2, e2⟩ := ihk (fun x hx => hks x (by simp [hx]))
        refine ⟨max f1 f2, d1 ++ d2, fun rest => ?_⟩
        rw [List.length_cons, drawMany, List.append_assoc,
          boxGen_le script lo hi (Nat.le_max_left f1 f2) _ _ (e1 (d2 ++ rest)), Outcome.ok_bind]
        dsimp only
        rw [drawMany_mono (boxGen_le script lo hi (Nat.le_max_right f1 f2)) _ _ _ (e2 rest)]
        rfl
    obtain ⟨f, d, e⟩ := many kids (fun _ h => h)
    refine ⟨f + 1, (kids.length : Int) :: d, fun rest => ?_⟩
    have hd : script.draw ((kids.length : Int) :: (d ++ rest)) lo hi = ((kids.length : Int), d ++ rest) := by
      simp [script]; omega
    obtain ⟨t, ht, hv⟩ := arbiVector_ok script (boxGen script lo hi f) (by omega) hb _ _ _ _ hd _ (by simpa using e rest)
    rw [boxGen_succ, List.cons_append, ht]
    simp [hv, Function.comp_def]

example : (Box.node [.node [], .node [.node []]]).Sized 0 2 := by
  have e : (Box.node []).Sized 0 2 := .node _ (by simp) (by simp) (by simp)
  exact .node _ (by simp) (by simp) (by simp only [List.mem_cons, List.not_mem_nil, or_false, forall_eq_or_imp, forall_eq]; exact ⟨e, .node _ (by simp) (by simp) (by simpa using e)⟩)

/-- C126. What a call returns does not depend on the depth we look at. -/
theorem C126_depth_irrelevant (R : Rng σ) (lo hi m n : Nat) (s : σ) (r r' : Shr Box × σ)
    (h : boxGen R lo hi m s = .ok r) (h' : boxGen R lo hi n s = .ok r') : r = r' := by
  rcases Nat.le_total m n with hmn | hmn
  · have := boxGen_le R lo hi hmn s r h
    rw [h'] at this; cases this; rfl
  · have := boxGen_le R lo hi hmn s r' h'
    rw [h] at this; cases this; rfl

example : boxGen script 0 2 3 [1, 0] = .ok (leaf (.node [.node []]), []) ∧
    boxGen script 0 2 9 [1, 0] = .ok (leaf (.node [.node []]), []) := ⟨rfl, rfl⟩

/-- C126. A recursive generator that maps (in place of `construct`) generates the same boxes with the same draws. -/
theorem C126_map_same (R : Rng σ) {lo hi : Nat} (h : lo ≤ hi) (hb : hi < 2^32) : ∀ (fuel : Nat) (s s' : σ) (b : Box),
    boxGen R lo hi fuel s = .ok (leaf b, s') ↔ ∃ t, boxMapGen R lo hi fuel s = .ok (t, s') ∧ t.value = b := by
  intro fuel
  induction fuel with
  | zero => intro s s' b; constructor; · intro e; cases e
            · rintro ⟨t, e, _⟩; cases e
  | succ fuel ih =>
    have many : ∀ n (s s' : σ) (bs : List Box), drawMany (boxGen R lo hi fuel) n s = .ok (bs.map leaf, s') ↔
        ∃ ts, drawMany (boxMapGen R lo hi fuel) n s = .ok (ts, s') ∧ ts.map Shr.value = bs := by
      intro n
      induction n with
      | zero =>
        intro s s' bs
        constructor
        · intro e; cases bs <;> cases e; exact ⟨[], rfl, rfl⟩
        · rintro ⟨ts, e, rfl⟩; cases e; rfl
      | succ n ihn =>
        intro s s' bs
        rw [drawMany, drawMany]
        constructor
        · intro e
          obtain ⟨⟨x, s1⟩, h1, e⟩ := Outcome.bind_eq_ok.mp e
          obtain ⟨⟨xs, s2⟩, h2, e⟩ := Outcome.bind_eq_ok.mp e
          cases bs with
          | nil => cases e
          | cons b bs =>
            simp only [List.map_cons, Outcome.pure_eq, Outcome.ok.injEq, Prod.mk.injEq, List.cons.injEq] at e
            obtain ⟨⟨rfl, rfl⟩, rfl⟩ := e
            obtain ⟨t, h3, rfl⟩ := (ih _ _ _).mp h1
            obtain ⟨ts, h4, rfl⟩ := (ihn _ _ _).mp h2
            refine ⟨t :: ts, ?_, rfl⟩
            rw [h3, Outcome.ok_bind]; dsimp only; rw [h4]; rfl
        · rintro ⟨ts, e, rfl⟩
          obtain ⟨⟨x, s1⟩, h1, e⟩ := Outcome.bind_eq_ok.mp e
          obtain ⟨⟨xs, s2⟩, h2, e⟩ := Outcome.bind_eq_ok.mp e
          cases e
          rw [(ih _ _ _).mpr ⟨x, h1, rfl⟩, Outcome.ok_bind]; dsimp only
          rw [(ihn _ _ _).mpr ⟨xs, h2, rfl⟩]; rfl
    intro s s' b
    generalize hd : R.draw s lo hi = d
    obtain ⟨v, s1⟩ := d
    have leaves : ∀ xs s'', drawMany (boxGen R lo hi fuel) v.toNat s1 = .ok (xs, s'') →
        xs = (xs.map Shr.value).map leaf := by
      intro xs s'' e
      have hl := draws_induct (drawMany_ok _ _ _ _ _ e).2 (fun x => x = leaf x.value) (fun s x s' e => by
        have := (C126_sized R h hb _ _ _ _ e).2.2
        cases x; simp only [Shr.shrinks] at this; subst this; rfl)
      conv_lhs => rw [← List.map_id xs]
      rw [List.map_map]
      exact List.map_congr_left fun x hx => by simpa using hl x hx
    rw [boxGen_succ, boxMapGen_succ]
    constructor
    · intro e
      obtain ⟨⟨u, s2⟩, h1, e⟩ := Outcome.bind_eq_ok.mp e
      rw [arbiVector_eq R _ h hb _ _ _ hd] at h1
      obtain ⟨⟨xs, s3⟩, h2, h1⟩ := Outcome.bind_eq_ok.mp h1
      obtain ⟨u', h3, h1⟩ := Outcome.bind_eq_ok.mp h1
      cases h1
      dsimp only at e h3
      obtain ⟨ts, h4, h5⟩ := (many _ _ _ _).mp ((leaves _ _ h2) ▸ h2)
      obtain ⟨t, h6, h7⟩ := arbiVector_ok R _ h hb _ _ _ _ hd _ h4
      refine ⟨_, by rw [h6]; cases e; rfl, ?_⟩
      cases e
      obtain ⟨u2, h8, h9⟩ := arbiVector_ok R _ h hb _ _ _ _ hd _ h2
      rw [arbiVector_eq R _ h hb _ _ _ hd, h2, Outcome.ok_bind, h3, Outcome.ok_bind] at h8
      cases h8
      simp [h7, h5, h9]
    · rintro ⟨t, e, rfl⟩
      obtain ⟨⟨u, s2⟩, h1, e⟩ := Outcome.bind_eq_ok.mp e
      have h1' := h1
      rw [arbiVector_eq R _ h hb _ _ _ hd] at h1
      obtain ⟨⟨xs, s3⟩, h2, h1⟩ := Outcome.bind_eq_ok.mp h1
      obtain ⟨u', h3, h1⟩ := Outcome.bind_eq_ok.mp h1
      cases h1
      cases e
      obtain ⟨u2, h8, h9⟩ := arbiVector_ok R _ h hb _ _ _ _ hd _ h2
      rw [h1'] at h8
      cases h8
      obtain ⟨t, h6, h7⟩ := arbiVector_ok R _ h hb _ _ _ _ hd _ ((many _ _ _ _).mpr ⟨xs, h2, rfl⟩)
      rw [h6]
      simp [h7, h9, Function.comp_def]

example : ∃ t, boxMapGen script 0 2 3 [2, 0, 1, 0] = .ok (t, []) ∧ t.value = .node [.node [], .node [.node []]] :=
  ⟨_, rfl, rfl⟩

/-- C126. Every shrink of a box made by a mapping generator, at any depth of the shrink tree, keeps the bounds at every
level and is the generated box with some boxes left out; all selections of at least `lo` of the outermost boxes are
among the shrinks. -/
theorem C126_map_shrinks (R : Rng σ) {lo hi : Nat} (h : lo ≤ hi) (hb : hi < 2^32) : ∀ (fuel : Nat) (s s' : σ)
    (t : Shr Box), boxMapGen R lo hi fuel s = .ok (t, s') →
    (∀ b, Reach t b → b.Sized lo hi ∧ b.Shrunk t.value) ∧
    ∀ ks, ks.Sublist t.value.kids → lo ≤ ks.length → Reach t (.node ks) := by
  intro fuel
  induction fuel with
  | zero => intro s s' t e; cases e
  | succ fuel ih =>
    intro s s' t e
    rw [boxMapGen_succ] at e
    obtain ⟨⟨u, s1⟩, h1, e⟩ := Outcome.bind_eq_ok.mp e
    cases e
    obtain ⟨xs, s2, _, hd, h2, h3, h4, h5, h6⟩ := C27_vector R _ lo hi h hb _ _ _ h1
    have hk := draws_induct hd (fun x => ∀ b, Reach x b → b.Sized lo hi ∧ b.Shrunk x.value)
      (fun s x s' e => (ih _ _ _ e).1)
    dsimp only at h4 h5 h6 ⊢
    constructor
    · intro b hr
      obtain ⟨ys, hy, rfl⟩ := reach_map.mp hr
      obtain ⟨hy1, hy2, zs, hz, hf⟩ := h5 ys hy
      have hall : ∀ b ∈ ys, ∃ z ∈ zs, Reach z b := by
        intro b hb'
        clear hr hy hy1 hy2 hz h2 h3 h4 h5 h6 hk hd
        induction hf with
        | nil => simp at hb'
        | cons hab _ ihf =>
          rcases List.mem_cons.mp hb' with rfl | hb'
          · exact ⟨_, by simp, hab⟩
          · obtain ⟨z, hz, hr⟩ := ihf hb'
            exact ⟨z, by simp [hz], hr⟩
      refine ⟨.node _ hy1 (by omega) fun k hk' => ?_, ?_⟩
      · obtain ⟨z, hz', hr'⟩ := hall k hk'
        exact (hk z (hz.subset hz') k hr').1
      · rw [value_map, h4]
        refine .node _ (zs.map Shr.value) _ (hz.map _) ?_
        have hk2 : ∀ z ∈ zs, ∀ b, Reach z b → b.Shrunk z.value := fun z hz' b hb' => (hk z (hz.subset hz') b hb').2
        clear hr hy hy1 hy2 hz h2 h3 h4 h5 h6 hk hd hall
        induction hf with
        | nil => exact .nil
        | cons hab _ ihf =>
          exact .cons (hk2 _ (by simp) _ hab) (ihf fun z hz => hk2 z (by simp [hz]))
    · intro ks hks hl
      rw [value_map, h4] at hks
      obtain ⟨zs, hz, rfl⟩ := List.sublist_map_iff.mp hks
      exact reach_map.mpr ⟨_, h6 zs hz (by simpa using hl), rfl⟩

example : ∃ t, boxMapGen script 0 2 3 [2, 0, 1, 0] = .ok (t, []) ∧ Reach t (.node [.node []]) := by
  obtain ⟨t, e, hv⟩ : ∃ t, boxMapGen script 0 2 3 [2, 0, 1, 0] = .ok (t, []) ∧
    t.value = .node [.node [], .node [.node []]] := ⟨_, rfl, rfl⟩
  refine ⟨t, e, (C126_map_shrinks script (by omega) (by omega) 3 _ _ _ e).2 _ ?_ (by simp)⟩
  rw [hv]
  simp [Box.kids]

/-! ### C127 recursive generators return -/

/-- C127: whatever the draws, the call either returns a value or goes deeper without end; nothing is thrown. -/
theorem C127_ok_or_runs_on (R : Rng σ) {lo hi : Nat} (h : lo ≤ hi) (hb : hi < 2^32) (fuel : Nat) (s : σ) :
    (∃ r, boxGen R lo hi fuel s = .ok r) ∨ boxGen R lo hi fuel s = .diverges := by
  induction fuel generalizing s with
  | zero => exact .inr rfl
  | succ fuel ih =>
    rw [boxGen_succ]
    rcases arbiVector_diverges R ih h hb s with ⟨r, e⟩ | e <;> rw [e]
    · exact .inl ⟨_, rfl⟩
    · exact .inr rfl

example : boxGen script 0 2 2 [1, 1] = .diverges := rfl

/-- C127 is violated: with a lower bound of at least one the call never returns, whatever the engine draws and however
deep we look. -/
theorem C127_lower_bound_violated (R : Rng σ) {lo hi : Nat} (h : lo ≤ hi) (hb : hi < 2^32) (h1 : 1 ≤ lo) (fuel : Nat)
    (s : σ) : boxGen R lo hi fuel s = .diverges := by
  induction fuel generalizing s with
  | zero => rfl
  | succ fuel ih =>
    generalize hd : R.draw s lo hi = d
    obtain ⟨v, s1⟩ := d
    have hm := (R.draw_mem s lo hi (by omega)).1
    rw [hd] at hm
    dsimp only at hm
    obtain ⟨k, hk⟩ : ∃ k, v.toNat = k + 1 := ⟨v.toNat - 1, by omega⟩
    rw [boxGen_succ, arbiVector_eq R _ h hb _ _ _ hd, hk, drawMany, ih]
    rfl

example : boxGen script 1 2 5 [1, 2, 1, 1] = .diverges := C127_lower_bound_violated _ (by omega) (by omega) (by omega) _ _

/-- C127 is violated: whatever the bounds (unless the upper one is zero), there are draws with which the call never
returns. -/
theorem C127_unlucky_violated {lo hi : Nat} (h : lo ≤ hi) (hb : hi < 2^32) (h1 : 1 ≤ hi) (fuel : Nat) :
    boxGen greatest lo hi fuel () = .diverges := by
  induction fuel with
  | zero => rfl
  | succ fuel ih =>
    obtain ⟨k, hk⟩ : ∃ k, ((hi : Nat) : Int).toNat = k + 1 := ⟨hi - 1, by omega⟩
    rw [boxGen_succ, arbiVector_eq greatest _ h hb () () hi rfl, hk, drawMany, ih]
    rfl

example : boxGen greatest 0 2 9 () = .diverges := C127_unlucky_violated (by omega) (by omega) (by omega) 9

open Classical in
/-- C127 is violated with `setSize(0, hi)` for any `hi` of 3 and more, however long one waits: of all the sequences of
draws, of any length, at least half are not enough. So a call never returns with a probability of at least one half. -/
theorem C127_half_violated {hi : Nat} (hb : hi < 2^32) (h3 : 3 ≤ hi) (L : Nat) :
    2 * (Finset.univ.filter fun l : Fin L → Fin (hi + 1) => ReturnsWithin hi (List.ofFn fun i => (l i : Nat))).card
      ≤ (hi + 1) ^ L := by
  have h1 : ∀ l : Fin L → Fin (hi + 1), ReturnsWithin hi (List.ofFn fun i => (l i : Nat)) →
      enough 1 ((List.ofFn fun i => (l i : Nat)).map Int.ofNat ++ [0]) := by
    rintro l ⟨fuel, t, r, e⟩
    have := drawMany_boxGen_enough hb fuel 1 ((List.ofFn fun i => (l i : Nat)).map Int.ofNat ++ [0]) [t] (r ++ [0]) 0
      (by rw [drawMany, e [0]]; rfl) ?_ (by rw [enough]; simp)
    · exact this
    · intro v hv
      simp only [List.map_ofFn, List.mem_append, List.mem_ofFn, Function.comp_apply, List.mem_singleton] at hv
      rcases hv with ⟨i, rfl⟩ | rfl
      · have := (l i).isLt
        simp only [Int.ofNat_eq_natCast]
        omega
      · omega
  have h2 : ((Finset.univ.filter fun l : Fin L → Fin (hi + 1) => ReturnsWithin hi (List.ofFn fun i => (l i : Nat))).card : ℚ)
      ≤ ∑ l : Fin L → Fin (hi + 1),
        (if enough 1 ((List.ofFn fun i => (l i : Nat)).map Int.ofNat ++ [0]) then (1 : ℚ) else 0) := by
    rw [Finset.sum_boole]
    exact_mod_cast Finset.card_le_card fun l hl => by
      simp only [Finset.mem_filter, Finset.mem_univ, true_and] at hl ⊢
      exact h1 l hl
  have h4 := h2.trans (sum_enough h3 L 1)
  have : (2 * (Finset.univ.filter fun l : Fin L → Fin (hi + 1) =>
      ReturnsWithin hi (List.ofFn fun i => (l i : Nat))).card : ℚ) ≤ ((hi : ℚ) + 1) ^ L := by linarith
  exact_mod_cast this

example : ReturnsWithin 3 [2, 0, 1, 0] := ⟨3, leaf (.node [.node [], .node [.node []]]), [], fun _ => rfl⟩

open Classical in
/-- C127, the part that holds: with `setSize(0, 2)` as in the documentation (or smaller bounds), of all the sequences of
`2^n - 1` or more draws at least the fraction `n / (n + 3)` are enough, for every `n`; so calls return with
probability one. Missing: upper bounds above 2 and lower bounds above 0, for which it is false. -/
theorem C127_documented_partial {hi : Nat} (h2 : hi ≤ 2) (n L : Nat) (hL : 2 ^ n ≤ L + 1) :
    n * (hi + 1) ^ L ≤ (n + 3) *
      (Finset.univ.filter fun l : Fin L → Fin (hi + 1) => ReturnsWithin hi (List.ofFn fun i => (l i : Nat))).card := by
  have h1 : ∀ l : Fin L → Fin (hi + 1), fits [n] (List.ofFn fun i => (l i : Nat)) →
      ReturnsWithin hi (List.ofFn fun i => (l i : Nat)) := by
    intro l hf
    have hv : ∀ v ∈ (List.ofFn fun i => (l i : Nat)), v ≤ hi := by
      intro v hv
      obtain ⟨i, rfl⟩ := List.mem_ofFn.mp hv
      have := (l i).isLt
      omega
    obtain ⟨xs, l', h3, _, _⟩ := fits_boxGen (hi := hi) (by omega) n 1 [] _ hv (by simpa using hf)
    have h4 : ∃ x, xs = [x] := by
      have := (drawMany_ok _ _ _ _ _ (h3 [])).1
      exact List.length_eq_one_iff.mp this
    obtain ⟨x, rfl⟩ := h4
    refine ⟨n, x, l'.map Int.ofNat, fun rest => ?_⟩
    have h3 := h3 rest
    rw [drawMany] at h3
    obtain ⟨⟨x, s1⟩, h4, h3⟩ := Outcome.bind_eq_ok.mp h3
    cases h3
    exact h4
  have h3 := sum_fits hi L [n] (by have := most_le h2 n; simp; omega)
  rw [Finset.sum_boole] at h3
  have h4 : ((Finset.univ.filter fun l : Fin L → Fin (hi + 1) => fits [n] (List.ofFn fun i => (l i : Nat))).card : ℚ) ≤
      (Finset.univ.filter fun l : Fin L → Fin (hi + 1) => ReturnsWithin hi (List.ofFn fun i => (l i : Nat))).card := by
    exact_mod_cast Finset.card_le_card fun l hl => by
      simp only [Finset.mem_filter, Finset.mem_univ, true_and] at hl ⊢
      exact h1 l hl
  have h5 := (prob_bound h2 n).1
  rw [div_le_iff₀ (by positivity)] at h5
  simp only [List.map_cons, List.map_nil, List.prod_cons, List.prod_nil, mul_one] at h3
  have h6 : (0 : ℚ) ≤ ((hi : ℚ) + 1) ^ L := by positivity
  have h7 := mul_le_mul_of_nonneg_left h5 h6
  have : (n * (hi + 1) ^ L : ℚ) ≤ (n + 3) *
      (Finset.univ.filter fun l : Fin L → Fin (hi + 1) => ReturnsWithin hi (List.ofFn fun i => (l i : Nat))).card := by
    have h8 := mul_le_mul_of_nonneg_left (h3.trans h4) (show (0 : ℚ) ≤ n + 3 by positivity)
    linarith
  exact_mod_cast this

example : ReturnsWithin 2 [1, 1, 0] ∧ 2 ^ 3 ≤ 7 + 1 := ⟨⟨3, leaf (.node [.node [.node []]]), [], fun _ => rfl⟩, by omega⟩

end Recursive
end Verif
