import Verif.Lemmas.ChanceTestLimit
import Verif.Lemmas.ChanceTendsto
import Verif.Props.ChanceTest
import Verif.Props.ChanceOneOf
import Verif.Props.OneOf
/-
C189: how likely a test finds a failure, for generators that draw again until they succeed.
-/
namespace Verif
namespace Engine
open PairTuple Integral IntType Filter Topology Comb
variable {n : Nat} {A : Fin n → Type}

theorem tendsto_powers {d : Nat → ℚ} {x : ℚ} (hx : x < 1) (hd : Tendsto d atTop (𝓝 x)) (h0 : ∀ᶠ m in atTop, 0 ≤ d m) :
    Tendsto (fun m => powers (d m) m) atTop (𝓝 (1 / (1 - x))) := by
  have hx0 : 0 ≤ x := ge_of_tendsto hd h0
  have hy : x < (x + 1) / 2 := by linarith
  have hy1 : (x + 1) / 2 < 1 := by linarith
  have hlt : ∀ᶠ m in atTop, d m < (x + 1) / 2 := hd.eventually_lt_const hy
  have hz : Tendsto (fun m => d m ^ m) atTop (𝓝 0) := by
    refine tendsto_of_tendsto_of_tendsto_of_le_of_le' tendsto_const_nhds
      (tendsto_pow_atTop_nhds_zero_of_lt_one (r := (x + 1) / 2) (by linarith) hy1) ?_ ?_
    · filter_upwards [h0] with m hm using pow_nonneg hm m
    · filter_upwards [h0, hlt] with m hm hm' using pow_le_pow_left₀ hm hm'.le m
  have h1 : Tendsto (fun m => (1 - d m ^ m) / (1 - d m)) atTop (𝓝 ((1 - 0) / (1 - x))) :=
    (tendsto_const_nhds.sub hz).div (tendsto_const_nhds.sub hd) (by linarith)
  rw [sub_zero] at h1
  refine h1.congr' ?_
  filter_upwards [hlt] with m hm
  rw [powers_eq (by linarith)]

theorem tendsto_powers_const {a : Nat → ℚ} {x : ℚ} (ha : Tendsto a atTop (𝓝 x)) (N : Nat) :
    Tendsto (fun m => powers (a m) N) atTop (𝓝 (powers x N)) := by
  induction N with
  | zero => exact tendsto_const_nhds
  | succ N ih => exact tendsto_const_nhds.add (ha.mul ih)

theorem mean_nonneg {α : Type} {e : Exp (Outcome α)} (he : e.Valid) (E : α → Bool) : 0 ≤ e.mean (hit E) := by
  have := Exp.mean_le (f := fun _ => 0) (g := hit E) (fun o => by
    cases o <;> simp only [hit] <;> first | exact le_rfl | (split <;> norm_num)) he
  rwa [Exp.mean_const 0 he] at this

section
variable {c : AnyTest A} {f : Args A → Ev Bool} {N : Nat} (h : Searching c f N)
  {fails : Args A → Bool} (hfails : ∀ a, fails a = true ↔ (f a).Fails)
include h hfails

/-- What can happen in a run. -/
theorem mean_runs {r p d : ℚ} {e : Exp (Outcome (Args A))} (hr : e.mean (hit fun _ => true) = r)
    (hp : e.mean (hit fails) = p) (hd : e.mean (hit fun a => (f a).discarded) = d) (fuel : Nat) (E : Args A → Bool) :
    passRun f e fuel = (r - p - d) * powers d fuel ∧
    failRun f e fuel E = e.mean (hit fun a => fails a && E a) * powers d fuel := by
  classical
  have hf : ∀ a, decide (f a).Fails = fails a := fun a => by
    rw [Bool.eq_iff_iff, hfails]; simp
  have hsum : e.mean (hit fun a => !(f a).discarded && !decide (f a).Fails) + p + d = r := by
    rw [← hp, ← hd, ← Exp.mean_add, ← Exp.mean_add]
    refine Eq.trans ?_ hr
    congr 1
    funext o
    cases o with
    | ok a =>
      simp only [hit, hf]
      by_cases h1 : (f a).discarded = true
      · have : fails a = false := by
          have := not_both' h a h1
          rw [← hfails] at this
          simpa using this
        simp [h1, this]
      · cases hb : fails a <;> simp [h1]
    | throws x => simp [hit]
    | ub => simp [hit]
    | diverges => simp [hit]
  refine ⟨?_, ?_⟩
  · rw [passRun, hd]; congr 1; linarith
  · rw [failRun, hd]; simp only [hf]

end

section
variable {c : Nat → AnyTest A} {f : Args A → Ev Bool} {N : Nat} (h : ∀ m, Searching (c m) f N)
  {fails : Args A → Bool} (hfails : ∀ a, fails a = true ↔ (f a).Fails)
  {p d : ℚ} (hr : ChanceLimit (fun m => argsDraw (c m)) (fun _ => true) 1)
  (hp : ChanceLimit (fun m => argsDraw (c m)) fails p)
  (hd : ChanceLimit (fun m => argsDraw (c m)) (fun a => (f a).discarded) d) (hd1 : d < 1)
include h hfails hr hp hd hd1

/-- Limits of what happens in a run. -/
theorem runs_limit (E : Args A → Bool) (b : ℚ)
    (hb : ChanceLimit (fun m => argsDraw (c m)) (fun a => fails a && E a) b) :
    ∃ x y : Nat → ℚ, Tendsto x atTop (𝓝 (1 - p / (1 - d))) ∧ Tendsto y atTop (𝓝 (b / (1 - d))) ∧
      ∀ᶠ m in atTop, ∃ e, Follows (argsDraw (c m)) e ∧ passRun f e m = x m ∧ failRun f e m E = y m := by
  obtain ⟨r', hr', hr⟩ := chanceLimit_iff.1 hr
  obtain ⟨p', hp', hp⟩ := chanceLimit_iff.1 hp
  obtain ⟨d', hd', hd⟩ := chanceLimit_iff.1 hd
  obtain ⟨b', hb', hb⟩ := chanceLimit_iff.1 hb
  have hd0 : ∀ᶠ m in atTop, 0 ≤ d' m := by
    filter_upwards [hd] with m hm
    obtain ⟨e, he, hm⟩ := hm
    rw [← hm]
    exact mean_nonneg he.1 _
  have hP := tendsto_powers hd1 hd' hd0
  have hpos : 1 - d ≠ 0 := by linarith
  refine ⟨fun m => (r' m - p' m - d' m) * powers (d' m) m, fun m => b' m * powers (d' m) m, ?_, ?_, ?_⟩
  · have : 1 - p / (1 - d) = (1 - p - d) * (1 / (1 - d)) := by field_simp; ring
    rw [this]
    exact ((hr'.sub hp').sub hd').mul hP
  · rw [div_eq_mul_one_div]
    exact hb'.mul hP
  · filter_upwards [hr, hp, hd, hb] with m hr hp hd hb
    obtain ⟨e, he, hp⟩ := hp
    obtain ⟨h1, h2⟩ := mean_runs (h m) hfails (chance_unique ⟨e, he, rfl⟩ hr) hp (chance_unique ⟨e, he, rfl⟩ hd) m E
    rw [chance_unique ⟨e, he, rfl⟩ hb] at h2
    exact ⟨e, he, h1, h2⟩

/-- C189. Generators of the arguments that return with probability 1, if not after a fixed number of draws: if drawn
arguments fail with probability `p` and are discarded with probability `d`, a test of `N` runs finds a failure with
probability 1 - (1 - p/(1-d))^N. -/
theorem C189_found : ChanceLimit (fun m => forAllCall (c m) m) (fun r => r.isSome) (1 - (1 - p / (1 - d)) ^ N) := by
  obtain ⟨x, y, hx, hy, he⟩ := runs_limit h hfails hr hp hd hd1 (fun _ => true) p (by simpa using hp)
  refine chanceLimit_iff.2 ⟨fun m => y m * powers (x m) N, ?_, ?_⟩
  · rw [← powers_mul]
    have : 1 - (1 - p / (1 - d)) = p / (1 - d) := by ring
    rw [this]
    exact hy.mul (tendsto_powers_const hx N)
  · filter_upwards [he] with m hm
    obtain ⟨e, he, h1, h2⟩ := hm
    refine ⟨_, follows_forAll' (h m) he m, ?_⟩
    rw [mean_testExp_any f e (not_both' (h m)), h1, h2]

/-- C189. The failure is reported in run `k+1` with arguments (before shrinking) in `E` with the probability that `k`
runs pass and the next one fails with arguments in `E`. -/
theorem C189_reported (E : Args A → Bool) (b : ℚ)
    (hb : ChanceLimit (fun m => argsDraw (c m)) (fun a => fails a && E a) b) (k : Nat) (hk : k < N) :
    ChanceLimit (fun m => forAllCall (c m) m) (reports (k + 1) E) ((1 - p / (1 - d)) ^ k * (b / (1 - d))) := by
  obtain ⟨x, y, hx, hy, he⟩ := runs_limit h hfails hr hp hd hd1 E b hb
  refine chanceLimit_iff.2 ⟨fun m => x m ^ k * y m, (hx.pow k).mul hy, ?_⟩
  filter_upwards [he] with m hm
  obtain ⟨e, he, h1, h2⟩ := hm
  refine ⟨_, follows_forAll' (h m) he m, ?_⟩
  have := mean_testExp_some f e (not_both' (h m)) m E k N 0 hk
  rw [Nat.zero_add] at this
  rw [this, h1, h2]

/-- C189. The test passes with probability (1 - p/(1-d))^N; it returns with probability 1. -/
theorem C189_returns : ChanceLimit (fun m => forAllCall (c m) m) (fun r => r.isNone) ((1 - p / (1 - d)) ^ N) ∧
    ChanceLimit (fun m => forAllCall (c m) m) (fun _ => true) 1 := by
  obtain ⟨x, y, hx, hy, he⟩ := runs_limit h hfails hr hp hd hd1 (fun _ => true) p (by simpa using hp)
  have e1 : 1 - (1 - p / (1 - d)) = p / (1 - d) := by ring
  refine ⟨chanceLimit_iff.2 ⟨fun m => x m ^ N, hx.pow N, ?_⟩,
    chanceLimit_iff.2 ⟨fun m => y m * powers (x m) N + x m ^ N, ?_, ?_⟩⟩
  · filter_upwards [he] with m hm
    obtain ⟨e, he, h1, h2⟩ := hm
    refine ⟨_, follows_forAll' (h m) he m, ?_⟩
    rw [mean_testExp_none f e (not_both' (h m)), h1]
  · have h2 := (hy.mul (tendsto_powers_const hx N)).add (hx.pow N)
    have e2 := powers_mul (1 - p / (1 - d)) N
    rw [e1] at e2
    rw [e2] at h2
    simpa using h2
  · filter_upwards [he] with m hm
    obtain ⟨e, he, h1, h2⟩ := hm
    refine ⟨_, follows_forAll' (h m) he m, ?_⟩
    rw [← h1, ← h2, ← mean_testExp_none f e (not_both' (h m)) m N 0, ← mean_testExp_any f e (not_both' (h m)) m N 0,
      ← Exp.mean_add]
    congr 1
    funext o
    cases o with
    | ok r => cases r <;> simp [hit]
    | throws x => simp [hit]
    | ub => simp [hit]
    | diverges => simp [hit]

end

/-- C189. The arguments are drawn independently of each other, also if the generators draw again until they succeed. -/
theorem C189_arguments (c : Nat → AnyTest A) (order : List (Fin n)) (hnd : order.Nodup) (hall : ∀ i, i ∈ order)
    (gens : Nat → (i : Fin n) → Src (Shr (A i)))
    (hc : ∀ m σ R, (c m σ R).orderRun = order ∧ (c m σ R).gens = fun i => gens m i σ R)
    (E : (i : Fin n) → A i → Bool) (p : Fin n → ℚ)
    (hp : ∀ i, ChanceLimit (fun m => gens m i) (fun t => E i t.value) (p i)) :
    ChanceLimit (fun m => argsDraw (c m)) (fun a => decide (∀ i, E i (a i) = true)) (∏ i, p i) := by
  choose q hq hc' using fun i => chanceLimit_iff.1 (hp i)
  refine chanceLimit_iff.2 ⟨fun m => ∏ i, q i m, tendsto_finset_prod _ fun i _ => hq i, ?_⟩
  filter_upwards [eventually_all.2 hc'] with m hm
  exact C148_arguments (c m) order hnd hall (gens m) (hc m) E (fun i => q i m) hm

/-! ### Generators that return or go on forever -/

/-- C189. If each generator returns or goes on forever, so does drawing the arguments. -/
theorem C189_settles (c : AnyTest A) (gens : (i : Fin n) → Src (Shr (A i))) (order : List (Fin n)) (hall : ∀ i, i ∈ order)
    (hc : ∀ σ R, (c σ R).orderRun = order ∧ (c σ R).gens = fun i => gens i σ R) (h : ∀ i, Settles (gens i)) (σ : Type) (R : Rng σ)
    (s : σ) : (∃ r, Gen.drawTuple (c σ R).gens (c σ R).orderRun s = .ok r) ∨
      Gen.drawTuple (c σ R).gens (c σ R).orderRun s = .diverges := by
  rw [(hc σ R).1, (hc σ R).2]
  have key : ∀ (is : List (Fin n)) (acc : (i : Fin n) → Option (Shr (A i))) (s : σ),
      (∃ r, Gen.drawInto (fun i => gens i σ R) is acc s = .ok r ∧ ∀ i, i ∈ is ∨ (acc i).isSome = true → (r.1 i).isSome = true) ∨
      Gen.drawInto (fun i => gens i σ R) is acc s = .diverges := by
    intro is
    induction is with
    | nil => intro acc s; exact .inl ⟨_, rfl, by simp⟩
    | cons i is ih =>
      intro acc s
      rcases h i σ R s with ⟨r, hr⟩ | hr
      · rcases ih (fun j => if h : i = j then some (h ▸ r.1) else acc j) r.2 with ⟨q, hq, hq'⟩ | hq
        · refine .inl ⟨q, by simp only [Gen.drawInto, hr, Outcome.ok_bind, hq], fun j hj => hq' j ?_⟩
          by_cases hij : i = j
          · right; simp [hij]
          · rcases hj with hj | hj
            · rcases List.mem_cons.1 hj with e | e
              · exact absurd e.symm hij
              · exact .inl e
            · right; simpa [hij] using hj
        · exact .inr (by simp only [Gen.drawInto, hr, Outcome.ok_bind, hq])
      · exact .inr (by simp only [Gen.drawInto, hr]; rfl)
  rcases key order (fun _ => none) s with ⟨r, hr, hr'⟩ | hr
  · refine .inl ?_
    simp only [Gen.drawTuple, hr, Outcome.ok_bind]
    rw [dif_pos fun i => hr' i (.inl (hall i))]
    exact ⟨_, rfl⟩
  · exact .inr (by simp only [Gen.drawTuple, hr]; rfl)

/-- C189. `filter` of a generator that returns. -/
theorem C189_settles_filter {α : Type} {g : Src (Shr α)} (hg : Settles g) (c : α → Bool) (m : Nat) :
    Settles (fun σ R s => Comb.filter (g σ R) c m s) := by
  intro σ R s
  induction m generalizing s with
  | zero => exact .inr rfl
  | succ m ih =>
    rcases hg σ R s with ⟨⟨t, s'⟩, hr⟩ | hr
    · simp only [Comb.filter, hr, Outcome.ok_bind]
      by_cases hc : c t.value = true
      · rw [if_pos hc]
        rw [Shr.filterTol, if_pos hc]
        exact .inl ⟨_, rfl⟩
      · rw [if_neg hc]
        exact ih s'
    · exact .inr (by simp only [Comb.filter, hr]; rfl)

/-- C189. `oneOf` of generators that return or go on forever. -/
theorem C189_settles_oneOf {α : Type} (alts : List (Src (Shr α) × Dbl)) (qs : List ℚ) (hw : alts.map (·.2) = qs.map Dbl.fin)
    (ws : List Dbl) (hok : assignWeights (alts.map (·.2)) = .ok ws) (hne : alts ≠ []) (hlen : alts.length ≤ 2 ^ 32)
    (h : ∀ a ∈ alts, Settles a.1) (m : Nat) : Settles (oneOfCall alts m) := by
  intro σ R s
  have h1 : ∃ vs, Comb.oneOf (alts.map fun a => ({ gen := a.1 σ R, weight := a.2 } : Comb.Weighted σ α)) = .ok vs := by
    unfold Comb.oneOf
    rw [List.map_map]
    have : (alts.map ((fun w : Comb.Weighted σ α => w.weight) ∘ fun a => { gen := a.1 σ R, weight := a.2 })) = alts.map (·.2) := rfl
    rw [this, hok]
    exact ⟨_, rfl⟩
  obtain ⟨vs, hvs⟩ := h1
  have h2 := C33_no_other_outcome R (alts.map fun a => ({ gen := a.1 σ R, weight := a.2 } : Comb.Weighted σ α)) vs qs
    (by rw [List.map_map, ← hw]; rfl) hvs (by simpa using hne) (by simpa using hlen) m s
  simp only [oneOfCall, hvs, Outcome.ok_bind]
  rcases h2 with h2 | ⟨g, hg, s₀, e, -⟩
  · exact .inr h2
  · obtain ⟨a, ha, rfl⟩ := List.mem_map.1 hg
    rw [e]
    exact h a ha σ R s₀

/-! ### An example -/

/-- A throw of a die of which only even numbers count, and one of three values. -/
def evenGens (m : Nat) (i : Fin 2) : Src (Shr Int) :=
  if i = 0 then fun σ R s => Comb.filter (die σ R) (fun v => decide (v % 2 = 0)) m s
  else elementOfCall [(1, .fin 0), (4, .fin 0), (6, .fin 0)] m

/-- A test with these arguments. -/
def evenTest (N : Nat) (f : Int → Int → Ev Bool) (m : Nat) : AnyTest (fun _ : Fin 2 => Int) := fun σ R =>
  { twoDice N f σ R with gens := fun i => evenGens m i σ R }

theorem evenTest_settles (N : Nat) (f : Int → Int → Ev Bool) (m : Nat) (σ : Type) (R : Rng σ) (s : σ) :
    (∃ r, Gen.drawTuple (evenTest N f m σ R).gens (evenTest N f m σ R).orderRun s = .ok r) ∨
      Gen.drawTuple (evenTest N f m σ R).gens (evenTest N f m σ R).orderRun s = .diverges := by
  refine C189_settles (evenTest N f m) (evenGens m) [1, 0] (by decide) (fun _ _ => ⟨rfl, rfl⟩) (fun i => ?_) σ R s
  unfold evenGens
  split
  · exact C189_settles_filter (fun σ R s => .inl (die_total R s)) _ m
  · rw [elementOfCall_eq]
    exact C189_settles_oneOf _ [0, 0, 0] rfl (List.replicate 3 ((Dbl.fin 0).oneMinus.divNat 3)) (by decide +kernel) (by simp) (by simp) (by
      intro a ha
      obtain ⟨v, -, rfl⟩ := List.mem_map.1 ha
      exact fun _ _ s => .inl ⟨_, rfl⟩) m

theorem evenTest_searching (N : Nat) (d : Bool) (m : Nat) :
    Searching (evenTest N (noSixes d) m) (fun a => noSixes d (a 0) (a 1)) N where
  setting := fun σ R => ⟨⟨fun _ h => (by cases h), fun _ h => (by cases h)⟩, rfl, by simp [evenTest, twoDice], fun s => by
    rcases evenTest_settles N (noSixes d) m σ R s with ⟨r, hr⟩ | hr <;> rw [hr] <;> simp⟩
  draws := evenTest_settles N (noSixes d) m
  pure := fun _ _ _ _ => rfl
  out := (twoDice_searches N d).out
  quiet := (twoDice_searches N d).quiet
  runs := fun _ _ => rfl
  noLimit := fun _ _ => rfl

theorem evenTest_draw (N : Nat) (f : Int → Int → Ev Bool) (E : Fin 2 → Int → Bool) (p q : Nat)
    (hp : ((Finset.Icc (1 : Int) 6).filter fun v => E 0 v && decide (v % 2 = 0)).card = p)
    (hq : [1, 4, 6].countP (E 1) = q) :
    ChanceLimit (fun m => argsDraw (evenTest N f m)) (fun a => decide (∀ i, E i (a i) = true)) (p / 3 * (q / 3)) := by
  have := C189_arguments (evenTest N f) [1, 0] (by decide) (by decide) evenGens (fun _ _ _ => ⟨rfl, rfl⟩) E
    (fun i => if i = 0 then p / 3 else q / 3) (fun i => by
      fin_cases i
      · have := C142_filter die (fun v => decide (v % 2 = 0)) (E 0) ((3 : Nat) / 6) (p / 6) die_returns
          (die_chance (fun v => decide (v % 2 = 0)) 3 (by decide)) (die_chance (fun v => E 0 v && decide (v % 2 = 0)) p hp)
          (by norm_num)
        have e : (p : ℚ) / 6 / ((3 : Nat) / 6) = p / 3 := by norm_num; ring
        rw [e] at this
        exact this
      · have := C140_elementOf_even [(1 : Int), 4, 6] (by simp) (by simp) (E 1)
        rw [hq] at this
        exact this)
  simpa [Fin.prod_univ_two] using this

/-- Two sixes have probability 1/9; with four runs they are found with probability 1 - (8/9)^4, in the third run with
probability (8/9)^2 / 9. -/
example : ChanceLimit (fun m => forAllCall (evenTest 4 (noSixes false) m) m) (fun r => r.isSome) (1 - (8 / 9) ^ 4) ∧
    ChanceLimit (fun m => forAllCall (evenTest 4 (noSixes false) m) m) (reports 3 fun _ => true) ((8 / 9) ^ 2 * (1 / 9)) ∧
    ChanceLimit (fun m => forAllCall (evenTest 4 (noSixes false) m) m) (fun _ => true) 1 := by
  have hr := evenTest_draw 4 (noSixes false) (fun _ _ => true) 3 3 (by decide) (by decide)
  have hp := evenTest_draw 4 (noSixes false) (fun _ v => decide (v = 6)) 1 1 (by decide) (by decide)
  have hd := evenTest_draw 4 (noSixes false) (fun _ _ => false) 0 0 (by decide) (by decide)
  norm_num at hr hp hd
  have hd' : ChanceLimit (fun m => argsDraw (evenTest 4 (noSixes false) m)) (fun a => (noSixes false (a 0) (a 1)).discarded) 0 := by
    simpa [noSixes, returns, Ev.discarded] using hd
  have hf := noSixes_fails false
  simp only [decide_eq_true_eq] at hf
  have h1 := C189_found (evenTest_searching 4 false) (by simpa using hf) hr hp hd' (by norm_num)
  have h2 := C189_reported (evenTest_searching 4 false) (by simpa using hf) hr hp hd' (by norm_num) (fun _ => true) (1 / 9)
    (by simpa using hp) 2 (by decide)
  have h3 := C189_returns (evenTest_searching 4 false) (by simpa using hf) hr hp hd' (by norm_num)
  norm_num at h1 h2 ⊢
  exact ⟨h1, h2, h3.2⟩

end Engine
end Verif
