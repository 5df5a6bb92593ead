import Verif.Lemmas.ChanceDiscard
import Verif.Props.ChanceOneOf
/-
C140: alternatives of `oneOf` that may discard keep their shares.
-/
namespace Verif
open Shr Random Comb
variable {α : Type}

/-- The alternative discards with a probability below 1, and `p` is the conditional probability of a result in `E`. -/
def GivenReturn (h : Src (Option (Shr α))) (E : Shr α → Bool) (p : ℚ) : Prop :=
  ∃ d u, d < 1 ∧ Chance h (fun o => o.isNone) d ∧ Chance h (fun o => o.any E) u ∧ p = u / (1 - d)

/-- C140. Alternatives without weights that may discard: an alternative is tried again until it returns, so each is
chosen with the same probability however often it discards, and contributes its conditional probability. -/
theorem C140_discarding_even (alts : List (Src (Option (Shr α)) × Dbl)) (hw : ∀ a ∈ alts, a.2 = .fin 0) (hne : alts ≠ [])
    (hlen : alts.length ≤ 2 ^ 32)
    (hd : ∀ a ∈ alts, ∀ (σ : Type) (R : Rng σ) (s : σ), a.1 σ R s ≠ .throws .discard) (E : Shr α → Bool) (ps : List ℚ)
    (hp : List.Forall₂ (fun a p => GivenReturn a.1 E p) alts ps) :
    ChanceLimit (oneOfDiscarding alts) E (ps.sum / alts.length) := by
  obtain ⟨rs, h1, h2, h3⟩ := weights_even (alts.map (·.2)) (List.forall_mem_map.2 hw) (by simpa using hne) (by simpa using hlen)
  have key := limit_discarding alts rs ps E h1 h2 hne hlen hd hp
  rw [h3 ps (by rw [List.length_map, hp.length_eq]), List.length_map] at key
  exact key

/-- C140. Alternatives that may discard and that all have weights: the shares are those of alternatives that do not
discard. -/
theorem C140_discarding_weighted (alts : List (Src (Option (Shr α)) × Dbl)) (qs : List ℚ)
    (hw : alts.map (·.2) = qs.map Dbl.fin) (hq : ∀ q ∈ qs, 0 < q ∧ q ≤ 1) (ws : List Dbl)
    (hok : assignWeights (alts.map (·.2)) = .ok ws) (hne : alts ≠ []) (hlen : alts.length ≤ 2 ^ 32)
    (hd : ∀ a ∈ alts, ∀ (σ : Type) (R : Rng σ) (s : σ), a.1 σ R s ≠ .throws .discard) :
    ∃ sh : List ℚ, List.Forall₂ (fun q x => |x - q / qs.sum| ≤ qs.length / (2 ^ 64 * qs.sum)) qs sh ∧ sh.sum = 1 ∧
      ∀ (E : Shr α → Bool) (ps : List ℚ), List.Forall₂ (fun a p => GivenReturn a.1 E p) alts ps →
        ChanceLimit (oneOfDiscarding alts) E (List.zipWith (· * ·) sh ps).sum := by
  have hqne : qs ≠ [] := by
    rintro rfl
    exact hne (List.map_eq_nil_iff.1 hw)
  obtain ⟨h1, h2, h3, h4⟩ := weights_all qs hq ws (hw ▸ hok) hqne
  refine ⟨shares qs, h3, h4, fun E ps hp => ?_⟩
  rw [← shares_sum]
  exact limit_discarding alts qs ps E (hw ▸ h1) h2 hne hlen hd hp

/-- C140. Alternatives that may discard and of which some have weights: the shares are those of alternatives that do
not discard. -/
theorem C140_discarding_rest (alts : List (Src (Option (Shr α)) × Dbl)) (qs : List ℚ)
    (hw : alts.map (·.2) = qs.map Dbl.fin) (h0 : 0 ∈ qs) (ws : List Dbl)
    (hok : assignWeights (alts.map (·.2)) = .ok ws) (hlen : alts.length ≤ 2 ^ 32)
    (hd : ∀ a ∈ alts, ∀ (σ : Type) (R : Rng σ) (s : σ), a.1 σ R s ≠ .throws .discard) :
    ∃ sh : List ℚ, List.Forall₂ (fun q x => |x - (if q = 0 then (1 - qs.sum) / qs.count 0 else q)| ≤ (qs.length + 2) / 2 ^ 51)
        qs sh ∧ sh.sum = 1 ∧
      ∀ (E : Shr α → Bool) (ps : List ℚ), List.Forall₂ (fun a p => GivenReturn a.1 E p) alts ps →
        ChanceLimit (oneOfDiscarding alts) E (List.zipWith (· * ·) sh ps).sum := by
  have hne : alts ≠ [] := by
    rintro rfl
    rw [List.map_nil] at hw
    rw [List.map_eq_nil_iff.1 hw.symm] at h0
    cases h0
  have hlq : alts.length = qs.length := by simpa using congrArg List.length hw
  obtain ⟨rs, h1, h2, h3, h4⟩ := weights_rest qs h0 ws (hw ▸ hok) (hlq ▸ hlen)
  refine ⟨shares rs, h3, h4, fun E ps hp => ?_⟩
  rw [← shares_sum]
  exact limit_discarding alts rs ps E (hw ▸ h1) h2 hne hlen hd hp

/-- A generator that throws a die and discards odd results. -/
def evenOrDiscard : Src (Option (Shr Int)) := fun _ R s =>
  .ok (if (R.draw s 1 6).1 % 2 = 0 then some (leaf (R.draw s 1 6).1) else none, (R.draw s 1 6).2)

theorem evenOrDiscard_follows :
    Follows evenOrDiscard (.draw 1 6 fun v => .ret (.ok (if v % 2 = 0 then some (leaf v) else none))) :=
  ⟨⟨by norm_num, fun _ _ _ => trivial⟩, fun _ _ _ => rfl⟩

theorem evenOrDiscard_chance (E : Option (Shr Int) → Bool) (n : Nat)
    (hn : ((Finset.Icc (1 : Int) 6).filter fun v => E (if v % 2 = 0 then some (leaf v) else none)).card = n) :
    Chance evenOrDiscard E (n / 6) := by
  refine ⟨_, evenOrDiscard_follows, ?_⟩
  simp only [Exp.mean, hit]
  rw [Finset.sum_boole, hn]
  norm_num

/-- A constant, as an alternative that could discard. -/
def certain (v : Int) : Src (Option (Shr Int)) := fun _ _ s => .ok (some (leaf v), s)

theorem certain_given (v : Int) (E : Shr Int → Bool) : GivenReturn (certain v) E (if E (leaf v) then 1 else 0) := by
  have hf : Follows (certain v) (.ret (.ok (some (leaf v)))) := ⟨trivial, fun _ _ _ => rfl⟩
  exact ⟨0, _, by norm_num, ⟨_, hf, rfl⟩, ⟨_, hf, rfl⟩, by simp [Exp.mean, hit]⟩

theorem evenOrDiscard_given (w : Int) (n : Nat)
    (hn : ((Finset.Icc (1 : Int) 6).filter fun v => v % 2 = 0 ∧ v = w).card = n) :
    GivenReturn evenOrDiscard (fun t => t.value = w) (n / 3) := by
  refine ⟨3 / 6, n / 6, by norm_num, evenOrDiscard_chance _ 3 (by decide), evenOrDiscard_chance _ n ?_, by ring⟩
  rw [← hn]
  congr 1
  ext v
  simp only [Finset.mem_filter]
  split_ifs with h
  · exact ⟨fun x => ⟨x.1, h, of_decide_eq_true x.2⟩, fun x => ⟨x.1, decide_eq_true x.2.2⟩⟩
  · exact ⟨fun x => (Bool.false_ne_true x.2).elim, fun x => absurd x.2.1 h⟩

/-- A die that discards odd numbers beside the constant 0: although the die discards half of its throws, 0 has the
probability 1/2 and 2 has the probability 1/6. -/
example :
    ChanceLimit (oneOfDiscarding [(evenOrDiscard, .fin 0), (certain 0, .fin 0)]) (fun t => t.value = 0) (1 / 2) ∧
    ChanceLimit (oneOfDiscarding [(evenOrDiscard, .fin 0), (certain 0, .fin 0)]) (fun t => t.value = 2) (1 / 6) := by
  have key := fun (w : Int) (n : Nat) hn => C140_discarding_even [(evenOrDiscard, .fin 0), (certain 0, .fin 0)] (by simp) (by simp)
    (by simp) (by
      intro a ha σ R s
      simp only [List.mem_cons, List.not_mem_nil, or_false] at ha
      rcases ha with rfl | rfl <;> intro h <;> cases h) (fun t => t.value = w) _
    (.cons (evenOrDiscard_given w n hn) (.cons (certain_given 0 _) .nil))
  have a := key 0 0 (by decide)
  have b := key 2 1 (by decide)
  norm_num [leaf, Shr.value] at a b ⊢
  exact ⟨a, b⟩

/-- The same with the weights 1/4 and 3/4: 2 has the probability 1/12, up to 2^-64. -/
example : ∃ p, ChanceLimit (oneOfDiscarding [(evenOrDiscard, .fin (1 / 4)), (certain 0, .fin (3 / 4))])
    (fun t => t.value = 2) p ∧ |p - 1 / 12| ≤ 1 / 2 ^ 64 := by
  obtain ⟨sh, a1, -, a3⟩ := C140_discarding_weighted [(evenOrDiscard, .fin (1 / 4)), (certain 0, .fin (3 / 4))] [1 / 4, 3 / 4] rfl
    (by norm_num) [.fin (1 / 4), .fin (3 / 4)]
    (by show Comb.assignWeights [.fin (1 / 4), .fin (3 / 4)] = _; decide +kernel) (by simp) (by simp) (by
      intro a ha σ R s
      simp only [List.mem_cons, List.not_mem_nil, or_false] at ha
      rcases ha with rfl | rfl <;> intro h <;> cases h)
  have a4 := a3 (fun t => t.value = 2) _ (.cons (evenOrDiscard_given 2 1 (by decide)) (.cons (certain_given 0 _) .nil))
  cases a1 with
  | cons b1 a1 =>
    cases a1 with
    | cons b2 a1 =>
      cases a1
      refine ⟨_, a4, ?_⟩
      norm_num [leaf, Shr.value] at b1 ⊢
      rw [abs_le] at b1 ⊢
      constructor <;> linarith

/-- The same with the weight 1/4 for the die only: the constant has what remains, 2 has the probability 1/12, up to
2^-49. -/
example : ∃ p, ChanceLimit (oneOfDiscarding [(evenOrDiscard, .fin (1 / 4)), (certain 0, .fin 0)])
    (fun t => t.value = 2) p ∧ |p - 1 / 12| ≤ 1 / 2 ^ 49 := by
  obtain ⟨sh, a1, -, a3⟩ := C140_discarding_rest [(evenOrDiscard, .fin (1 / 4)), (certain 0, .fin 0)] [1 / 4, 0] rfl
    (by simp) [.fin (1 / 4), .fin (3 / 4)]
    (by show Comb.assignWeights [.fin (1 / 4), .fin 0] = _; decide +kernel) (by simp) (by
      intro a ha σ R s
      simp only [List.mem_cons, List.not_mem_nil, or_false] at ha
      rcases ha with rfl | rfl <;> intro h <;> cases h)
  have a4 := a3 (fun t => t.value = 2) _ (.cons (evenOrDiscard_given 2 1 (by decide)) (.cons (certain_given 0 _) .nil))
  cases a1 with
  | cons b1 a1 =>
    cases a1 with
    | cons b2 a1 =>
      cases a1
      refine ⟨_, a4, ?_⟩
      norm_num [leaf, Shr.value] at b1 ⊢
      rw [abs_le] at b1 ⊢
      constructor <;> linarith

end Verif
