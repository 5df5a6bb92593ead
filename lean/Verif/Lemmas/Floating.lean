import Verif.Model.Floating
import Verif.Lemmas.BinSearch
import Verif.Lemmas.Tree
import Verif.Props.BinSearch
/-
Lemmas about the shrinking of floating point numbers.
-/
namespace Verif
namespace Floating
open Shr BinSearch

variable {α β : Type}

theorem mapO_ok {f : α → Outcome β} {g : α → β} {t : Shr α} (h : ∀ v, Reach t v → f v = .ok (g v)) :
    mapO f t = .ok (t.map g) := by
  induction t using Shr.ind with
  | h v ss ih =>
    have hl : ∀ l : List (Shr α), (∀ s ∈ l, s ∈ ss) → mapListO f l = .ok (l.map (Shr.map g)) := by
      intro l
      induction l with
      | nil => intro _; rfl
      | cons s l ihl =>
        intro hm
        rw [mapListO, ih s (hm s (by simp)) (fun v hv => h v (Reach.child (by simpa using hm s (by simp)) hv)),
          ihl (fun s' m => hm s' (by simp [m]))]
        rfl
    rw [mapO, h v (Reach.self _), hl ss (fun _ m => m), map_node]
    rfl

theorem andThenO_ok {k : Shr α → Outcome (List (Shr α))} {k' : Shr α → List (Shr α)} {t : Shr α}
    (h : ∀ s, Desc t s → s.shrinks = [] → k s = .ok (k' s)) : andThenO k t = .ok (t.andThen k') := by
  induction t using Shr.ind with
  | h v ss ih =>
    have hl : ∀ l : List (Shr α), (∀ s ∈ l, s ∈ ss) →
        andThenListO k l = .ok (l.map (Shr.andThen k')) := by
      intro l
      induction l with
      | nil => intro _; rfl
      | cons s l ihl =>
        intro hm
        rw [andThenListO, ih s (hm s (by simp))
          (fun u hu => h u (.step (by simpa using hm s (by simp)) hu)),
          ihl (fun s' m => hm s' (by simp [m]))]
        rfl
    rw [andThenO, Shr.andThen, andThenList_eq]
    cases ss with
    | nil =>
      simp only [List.isEmpty_nil, if_true]
      rw [h _ (.refl _) rfl]
      rfl
    | cons s ss =>
      simp only [List.isEmpty_cons, Bool.false_eq_true, if_false]
      rw [hl _ (fun _ m => m)]
      rfl

theorem andThenO_ub {k : Shr α → Outcome (List (Shr α))} {t : Shr α}
    (h : ∀ s, Desc t s → s.shrinks = [] → k s = .ub ∨ ∃ l, k s = .ok l)
    {s : Shr α} (hs : Desc t s) (hl : s.shrinks = []) (hu : k s = .ub) : andThenO k t = .ub := by
  have total : ∀ t : Shr α, (∀ s, Desc t s → s.shrinks = [] → k s = .ub ∨ ∃ l, k s = .ok l) →
      andThenO k t = .ub ∨ ∃ u, andThenO k t = .ok u := by
    intro t
    induction t using Shr.ind with
    | h v ss ih =>
      intro h
      have hl : ∀ l : List (Shr α), (∀ s ∈ l, s ∈ ss) →
          andThenListO k l = .ub ∨ ∃ u, andThenListO k l = .ok u := by
        intro l
        induction l with
        | nil => intro _; exact .inr ⟨[], rfl⟩
        | cons s l ihl =>
          intro hm
          rw [andThenListO]
          rcases ih s (hm s (by simp)) (fun u hu => h u (.step (by simpa using hm s (by simp)) hu)) with e | ⟨u, e⟩
          · exact .inl (by rw [e]; rfl)
          · rcases ihl (fun s' m => hm s' (by simp [m])) with e' | ⟨u', e'⟩
            · exact .inl (by rw [e, e']; rfl)
            · exact .inr ⟨u :: u', by rw [e, e']; rfl⟩
      rw [andThenO]
      cases ss with
      | nil =>
        simp only [List.isEmpty_nil, if_true]
        rcases h _ (.refl _) rfl with e | ⟨l, e⟩
        · exact .inl (by rw [e]; rfl)
        · exact .inr ⟨_, by rw [e]; rfl⟩
      | cons s ss =>
        simp only [List.isEmpty_cons, Bool.false_eq_true, if_false]
        rcases hl _ (fun _ m => m) with e | ⟨l, e⟩
        · exact .inl (by rw [e]; rfl)
        · exact .inr ⟨_, by rw [e]; rfl⟩
  induction t using Shr.ind with
  | h v ss ih =>
    rw [desc_iff] at hs
    rw [andThenO]
    rcases hs with rfl | ⟨c, hc, hs⟩
    · have : ss = [] := hl
      subst this
      simp only [List.isEmpty_nil, if_true]
      rw [hu]; rfl
    · have hc : c ∈ ss := hc
      have hne : ss.isEmpty = false := by cases ss <;> simp_all
      have key : ∀ l : List (Shr α), (∀ s ∈ l, s ∈ ss) → c ∈ l → andThenListO k l = .ub := by
        intro l
        induction l with
        | nil => intro _ m; simp at m
        | cons x l ihl =>
          intro hm m
          have hx := fun u hu => h u (.step (by simpa using hm x (by simp)) hu)
          rw [andThenListO]
          rcases List.mem_cons.mp m with rfl | m
          · rw [ih c hc hx hs]; rfl
          · rcases total x hx with e | ⟨u, e⟩
            · rw [e]; rfl
            · rw [e, ihl (fun s' m => hm s' (by simp [m])) m]; rfl
      simp only [hne, Bool.false_eq_true, if_false]
      rw [key ss (fun _ m => m) hc]; rfl

theorem andThen_const_nil {k : Shr α → List (Shr α)} {t : Shr α}
    (h : ∀ s, Desc t s → s.shrinks = [] → k s = []) : t.andThen k = t := by
  induction t using Shr.ind with
  | h v ss ih =>
    rw [Shr.andThen, andThenList_eq]
    cases hs : ss with
    | nil =>
      subst hs
      simp only [List.isEmpty_nil, if_true]
      rw [h _ (.refl _) rfl]
    | cons s l =>
      simp only [List.isEmpty_cons, Bool.false_eq_true, if_false]
      rw [← hs]
      congr 1
      exact (List.map_congr_left fun s m => ih s m (fun u hu => h u (.step (by simpa using m) hu))).trans
        (List.map_id ss)

/-- Positions of `t.andThen k`, where `k` gives leaves only. -/
theorem desc_andThen_leaf {k : Shr α → List (Shr α)} {t u : Shr α} (hk : ∀ s, ∀ c ∈ k s, c.shrinks = [])
    (hu : Desc (t.andThen k) u) :
    ∃ s, Desc t s ∧ (u = s.andThen k ∨ (s.shrinks = [] ∧ u ∈ k s)) := by
  induction t using Shr.ind generalizing u with
  | h v ss ih =>
    rw [desc_iff] at hu
    rcases hu with rfl | ⟨c, hc, hu⟩
    · exact ⟨_, .refl _, .inl rfl⟩
    · by_cases hs : ss = []
      · rw [shrinks_andThen_nil _ (by simpa)] at hc
        refine ⟨_, .refl _, .inr ⟨by simpa, ?_⟩⟩
        rw [desc_iff] at hu
        rcases hu with rfl | ⟨d, hd, _⟩
        · exact hc
        · rw [hk _ _ hc] at hd; simp at hd
      · rw [shrinks_andThen_ne _ (by simpa)] at hc
        obtain ⟨s', m', rfl⟩ := List.mem_map.mp hc
        obtain ⟨w, hw, h⟩ := ih _ m' hu
        exact ⟨w, .step (by simpa using m') hw, h⟩

theorem desc_andThen {k : Shr α → List (Shr α)} {t s : Shr α} (h : Desc t s) :
    Desc (t.andThen k) (s.andThen k) := by
  induction h with
  | refl => exact .refl _
  | step m _ ih =>
    rename_i t s u h
    refine .step ?_ ih
    rw [shrinks_andThen_ne _ (by intro e; rw [e] at m; simp at m)]
    exact List.mem_map.mpr ⟨_, m, rfl⟩

/-! ### Numbers -/

theorem Fmt.p_pos (F : Fmt) : 24 ≤ F.p := by cases F <;> decide
theorem Fmt.emin_p (F : Fmt) : F.emin + F.p ≤ 0 := by cases F <;> decide
theorem Fmt.emax_lt (F : Fmt) : F.emax ≤ 1024 := by cases F <;> decide
theorem Fmt.emax_ge (F : Fmt) : 128 ≤ F.emax := by cases F <;> decide
theorem Fmt.emin_gt (F : Fmt) : -1074 ≤ F.emin := by cases F <;> decide

theorem Fmt.Finite.emin_lt {F : Fmt} {f : Nat} {e : Int} (h : F.Finite f e) : F.emin < e := by
  obtain ⟨h1, h2, _, h4⟩ := h
  have hp := F.p_pos
  have hf : 0 < f := Nat.lt_of_lt_of_le (Nat.two_pow_pos _) h1
  have := Nat.lt_of_le_of_lt (Nat.le_of_dvd hf h4) h2
  have := (Nat.pow_lt_pow_iff_right (by decide : 1 < 2)).mp this
  omega

theorem Fmt.Finite.between {F : Fmt} {f : Nat} {e e' : Int} (h : F.Finite f e) (hb : Between0 e' e) :
    F.Finite f e' := by
  obtain ⟨h1, h2, h3, h4⟩ := h
  have hp := F.emin_p
  have := F.emax_ge
  refine ⟨h1, h2, ?_, ?_⟩
  · unfold Between0 at hb; omega
  · refine Nat.dvd_trans (Nat.pow_dvd_pow 2 ?_) h4
    unfold Between0 at hb
    omega

theorem Fmt.Finite.half {F : Fmt} {f : Nat} {e : Int} (h : F.Finite f e) : F.Finite (2^(F.p - 1)) e := by
  have hp := F.p_pos
  have := h.emin_lt
  obtain ⟨h1, h2, h3, h4⟩ := h
  exact ⟨Nat.le_refl _, Nat.pow_lt_pow_right (by decide) (by omega), h3, Nat.pow_dvd_pow 2 (by omega)⟩

/-- The shrinks that `fractionStep` adds. -/
def frac (F : Fmt) (t : Shr Fl) : List (Shr Fl) :=
  match t.value with
  | .fin neg _ e => [leaf (.fin neg (2^(F.p - 1)) e)]
  | _ => []

theorem trunc_half (F : Fmt) (e : Int) : trunc F (2^(F.p - 1)) e = if 1 ≤ e then 2^(e - 1).toNat else 0 := by
  have hp := F.p_pos
  unfold trunc
  rw [← Nat.pow_add]
  split
  · rcases Int.le_total e F.p with h | h
    · rw [Nat.pow_div (by omega) (by decide)]
      congr 1; omega
    · rw [show (F.p - e).toNat = 0 by omega, Nat.pow_zero, Nat.div_one]
      congr 1; omega
  · exact Nat.div_eq_of_lt (Nat.pow_lt_pow_right (by decide) (by omega))

theorem integerStep_zero (F : Fmt) {t : Shr Fl} {neg : Bool} (h : t.value = .zero neg) : integerStep F t = .ok [] := by
  unfold integerStep; rw [h]; rfl

theorem integerStep_half (F : Fmt) {t : Shr Fl} {neg : Bool} {e : Int} (h : t.value = .fin neg (2^(F.p - 1)) e) :
    integerStep F t = if 32 ≤ e then .ub else .ok [] := by
  have hp := F.p_pos
  unfold integerStep
  rw [h]
  simp only [toInt]
  rw [trunc_half]
  by_cases h1 : 1 ≤ e
  · simp only [if_pos h1]
    by_cases h2 : 32 ≤ e
    · rw [if_pos h2]
      have hpow : (2:Nat)^31 ≤ 2^(e - 1).toNat := Nat.pow_le_pow_right (by decide) (by omega)
      by_cases he : neg = true ∧ (2:Nat)^(e-1).toNat = 2^31
      · obtain ⟨rfl, he⟩ := he
        rw [he]
        rfl
      · rw [if_neg]
        · rfl
        · cases neg
          · simp only [Bool.false_eq_true, if_false]; omega
          · simp only [true_and] at he
            simp only [if_true]; omega
    · rw [if_neg h2]
      have hpow : (2:Nat)^(e - 1).toNat ≤ 2^30 := Nat.pow_le_pow_right (by decide) (by omega)
      have hpos : 0 < (2:Nat)^(e - 1).toNat := Nat.two_pow_pos _
      have hlt : ltAbs F (2^(e-1).toNat) (2^(F.p-1)) e = false := by
        unfold ltAbs
        rw [← Nat.pow_add, ← Nat.pow_add]
        simp only [decide_eq_false_iff_not, Nat.not_lt]
        exact Nat.pow_le_pow_right (by decide) (by omega)
      cases neg
      · simp only [Bool.false_eq_true, if_false]
        rw [if_pos (by omega), Outcome.ok_bind, if_neg (by omega)]
        simp only [absInt]
        rw [if_neg (by omega), Outcome.ok_bind]
        simp only [Int.natAbs_natCast]
        simp only [hlt]
        rfl
      · simp only [if_true]
        rw [if_pos (by omega), Outcome.ok_bind, if_neg (by omega)]
        simp only [absInt]
        rw [if_neg (by omega), Outcome.ok_bind]
        simp only [Int.natAbs_neg, Int.natAbs_natCast]
        simp only [hlt]
        rfl
  · simp only [if_neg h1]
    rw [if_neg (show ¬ 32 ≤ e by omega)]
    cases neg <;> rfl

/-- The tree of exponents. -/
theorem exps (e : Int) (h : IsI64 e) : ∃ t, binarySearchShrinkable e = .ok t ∧ t.value = e ∧
    (∀ w, Reach t w ↔ Between0 w e) ∧ (∀ c ∈ t.shrinks, ∀ w, Reach c w → w.natAbs < e.natAbs) ∧
    (∀ s, Desc t s → ∀ c ∈ s.shrinks, c.value ≠ s.value) := by
  obtain ⟨t, ht, hv⟩ := C16_signed_no_overflow e h
  refine ⟨t, ht, hv, fun w => ⟨C12_range e t (.inl ⟨h, ht⟩) w, (C13_complete e t (.inl ⟨h, ht⟩) w).mpr⟩, ?_, ?_⟩
  · intro c hc w hw
    obtain ⟨n, ⟨_, rfl, rfl⟩ | ⟨_, rfl, rfl⟩⟩ := bs_cases (.inl ⟨h, ht⟩)
    all_goals
      simp only [shrinks_map, List.mem_map] at hc
      obtain ⟨c, hc, rfl⟩ := hc
      obtain ⟨x, hx, rfl⟩ := reach_map.mp hw
      obtain ⟨s, hs, rfl⟩ := hx
      have h1 := (bsNat_desc n (.refl _)).2 c hc
      have h2 : s.value ≤ c.value := by
        have : ∀ {c s : Shr Nat}, Desc c s → Desc (bsNat n) c → s.value ≤ c.value := by
          intro c s hd
          induction hd with
          | refl => intro _; exact Nat.le_refl _
          | step m _ ih =>
            intro hc
            have := (bsNat_desc n hc).2 _ m
            have := ih (hc.trans (.child m))
            omega
        exact this hs (.child hc)
      rw [bsNat_value] at h1
      simp [negNat]
      omega
  · intro s hs c hc
    obtain ⟨n, ⟨_, rfl, rfl⟩ | ⟨_, rfl, rfl⟩⟩ := bs_cases (.inl ⟨h, ht⟩)
    all_goals
      obtain ⟨s, hd, rfl⟩ := desc_map.mp hs
      simp only [shrinks_map, List.mem_map] at hc
      obtain ⟨c, hc, rfl⟩ := hc
      have h1 := (bsNat_desc n hd).2 c hc
      simp [negNat]
      omega

/-- The tree before the integer step. -/
def mid (F : Fmt) (neg : Bool) (f : Nat) (t : Shr Int) : List (Shr Fl) :=
  leaf (.zero false) :: t.shrinks.map (fun c => (c.map (Fl.fin neg f)).andThen (frac F))

theorem fractionStep_ok {F : Fmt} {s : Shr Fl}
    (h : (∃ neg, s.value = .zero neg) ∨ ∃ neg f e, s.value = .fin neg f e ∧ F.Finite f e) :
    fractionStep F s = .ok (frac F s) := by
  unfold fractionStep frac
  rcases h with ⟨neg, h⟩ | ⟨neg, f, e, h, hf⟩
  · rw [h]
  · rw [h]
    simp only [ldexp]
    rw [if_pos hf.half]
    rfl

theorem shrinkFinite_step {F : Fmt} {neg : Bool} {f : Nat} {e : Int} (h : F.Finite f e) {t : Shr Int}
    (ht : binarySearchShrinkable e = .ok t) (hr : ∀ w, Reach t w ↔ Between0 w e) :
    shrinkFinite F neg f e = (andThenO (integerStep F) (node (Fl.fin neg f t.value) (mid F neg f t))).bind
      (fun t => .ok t.shrinks) := by
  unfold shrinkFinite
  rw [ht, Outcome.ok_bind, mapO_ok (g := Fl.fin neg f)
    (fun v hv => by unfold ldexp; rw [if_pos (h.between ((hr v).mp hv))]), Outcome.ok_bind]
  simp only []
  rw [andThenO_ok (k' := frac F), Outcome.ok_bind]
  · rw [show Shr.andThen (frac F) ((Shr.map (Fl.fin neg f) t).withShrinks
        (leaf (.zero false) :: (Shr.map (Fl.fin neg f) t).shrinks)) = node (Fl.fin neg f t.value) (mid F neg f t) from ?_]
    · rfl
    · rw [← Shr.eta (Shr.andThen _ _), value_andThen, shrinks_andThen_ne _ (by simp)]
      simp only [value_withShrinks, value_map, shrinks_withShrinks, shrinks_map, List.map_cons, List.map_map, mid]
      congr 1
  · intro s hs _
    apply fractionStep_ok
    have key : ∀ w, Reach (t.map (Fl.fin neg f)) w → ∃ neg f e, w = Fl.fin neg f e ∧ F.Finite f e := by
      intro w hw
      obtain ⟨x, hx, rfl⟩ := reach_map.mp hw
      exact ⟨neg, f, x, rfl, h.between ((hr x).mp hx)⟩
    rw [desc_iff] at hs
    rcases hs with rfl | ⟨c, hc, hs⟩
    · right
      simpa using key _ (Reach.self _)
    · simp only [shrinks_withShrinks, List.mem_cons] at hc
      rcases hc with rfl | hc
      · rw [desc_iff] at hs
        rcases hs with rfl | ⟨d, hd, _⟩
        · exact .inl ⟨_, rfl⟩
        · simp at hd
      · right
        exact key _ ⟨s, .step hc hs, rfl⟩

/-- The leaves of `mid`. -/
theorem mid_leaf {F : Fmt} {neg : Bool} {f : Nat} {e : Int} {t : Shr Int}
    (hn : ∀ c ∈ t.shrinks, ∀ w, Reach c w → w.natAbs < e.natAbs) (hr : ∀ w, Reach t w ↔ Between0 w e) {s : Shr Fl}
    (hs : Desc (node (Fl.fin neg f t.value) (mid F neg f t)) s) (hl : s.shrinks = []) :
    s.value = .zero false ∨ ∃ e', Between0 e' e ∧ e' ≠ e ∧ s.value = .fin neg (2^(F.p - 1)) e' := by
  rw [desc_iff] at hs
  rcases hs with rfl | ⟨c, hc, hs⟩
  · simp [mid] at hl
  · simp only [shrinks_node, mid, List.mem_cons, List.mem_map] at hc
    rcases hc with rfl | ⟨c, hc, rfl⟩
    · rw [desc_iff] at hs
      rcases hs with rfl | ⟨d, hd, _⟩
      · exact .inl rfl
      · simp at hd
    · right
      have hk : ∀ s, ∀ c ∈ frac F s, c.shrinks = [] := by
        intro s c hc
        unfold frac at hc
        split at hc
        · rw [List.mem_singleton] at hc; subst hc; rfl
        · simp at hc
      obtain ⟨u, hu, h⟩ := desc_andThen_leaf hk hs
      obtain ⟨x, hx, rfl⟩ := desc_map.mp hu
      have hb : Between0 x.value e ∧ x.value ≠ e :=
        ⟨(hr _).mp ⟨x, .step hc hx, rfl⟩, fun e' => by have := hn c hc x.value ⟨x, hx, rfl⟩; omega⟩
      refine ⟨x.value, hb.1, hb.2, ?_⟩
      rcases h with rfl | ⟨_, h⟩
      · exfalso
        by_cases hx : x.shrinks = []
        · rw [shrinks_andThen_nil _ (by simpa)] at hl
          simp [frac] at hl
        · rw [shrinks_andThen_ne _ (by simpa)] at hl
          simp [hx] at hl
      · simp only [frac, value_map, List.mem_singleton] at h
        rw [h]
        rfl

theorem Fmt.Finite.i64 {F : Fmt} {f : Nat} {e : Int} (h : F.Finite f e) : IsI64 e := by
  have := h.emin_lt
  have := h.2.2.1
  have := F.emin_gt
  have := F.emax_lt
  unfold IsI64
  omega

theorem shrinkFinite_ok {F : Fmt} {neg : Bool} {f : Nat} {e : Int} (h : F.Finite f e) (he : e ≤ 32) :
    ∃ t, binarySearchShrinkable e = .ok t ∧ shrinkFinite F neg f e = .ok (mid F neg f t) := by
  obtain ⟨t, ht, hv, hr, hn, _⟩ := exps e h.i64
  refine ⟨t, ht, ?_⟩
  have key : ∀ s, Desc (node (Fl.fin neg f t.value) (mid F neg f t)) s → s.shrinks = [] →
      integerStep F s = .ok [] := by
    intro s hs hl
    rcases mid_leaf hn hr hs hl with h0 | ⟨e', hb, hne, h1⟩
    · exact integerStep_zero F h0
    · rw [integerStep_half F h1, if_neg]
      unfold Between0 at hb
      omega
  rw [shrinkFinite_step h ht hr, andThenO_ok (k' := fun _ => []) key, andThen_const_nil (by simp)]
  rfl

theorem posTree_last (fuel min max : Nat) (h : min + 2 ≤ max) (hf : max - min ≤ fuel) :
    leaf (max - 1) ∈ posTree fuel min max := by
  induction fuel generalizing min with
  | zero => omega
  | succ fuel ih =>
    rw [posTree_succ, if_neg (by omega)]
    split
    · rw [show (min + max) / 2 = max - 1 by omega]; simp
    · exact List.mem_cons_of_mem _ (ih _ (by omega) (by omega))

theorem exps_last (e : Int) (h : IsI64 e) (he : 2 ≤ e) {t : Shr Int} (ht : binarySearchShrinkable e = .ok t) :
    leaf (e - 1) ∈ t.shrinks := by
  obtain ⟨n, ⟨_, rfl, rfl⟩ | ⟨_, rfl, rfl⟩⟩ := bs_cases (.inl ⟨h, ht⟩)
  · rw [shrinks_map, List.mem_map]
    refine ⟨leaf (n - 1), ?_, ?_⟩
    · unfold bsNat
      rw [shrinks_node, if_neg (by omega)]
      exact List.mem_cons_of_mem _ (posTree_last n 0 n (by omega) (by omega))
    · rw [map_leaf]; congr 1; simp; omega
  · omega

theorem shrinkFinite_ub {F : Fmt} {neg : Bool} {f : Nat} {e : Int} (h : F.Finite f e) (he : 33 ≤ e) :
    shrinkFinite F neg f e = .ub := by
  obtain ⟨t, ht, hv, hr, hn, hne⟩ := exps e h.i64
  rw [shrinkFinite_step h ht hr]
  have hm := exps_last e h.i64 (by omega) ht
  rw [andThenO_ub (s := leaf (.fin neg (2^(F.p - 1)) (e - 1))) ?_ ?_ rfl ?_]
  · rfl
  · intro s hs hl
    rcases mid_leaf hn hr hs hl with h0 | ⟨e', hb, hne, h1⟩
    · exact .inr ⟨_, integerStep_zero F h0⟩
    · rw [integerStep_half F h1]
      split
      · exact .inl rfl
      · exact .inr ⟨_, rfl⟩
  · refine .step (s := ((leaf (e - 1)).map (Fl.fin neg f)).andThen (frac F)) ?_ (.child ?_)
    · exact List.mem_cons_of_mem _ (List.mem_map.mpr ⟨_, hm, rfl⟩)
    · rw [shrinks_andThen_nil _ (by simp)]
      simp [frac]
  · rw [integerStep_half F rfl, if_pos (by omega)]

/-- The values below the shrinks. -/
theorem mid_reach {F : Fmt} {neg : Bool} {f : Nat} {e : Int} (h : F.Finite f e) {t : Shr Int}
    (ht : binarySearchShrinkable e = .ok t) (w : Fl) :
    (∃ c ∈ mid F neg f t, Reach c w) →
      w = .zero false ∨ ∃ e', Between0 e' e ∧ e' ≠ e ∧ (w = .fin neg f e' ∨ w = .fin neg (2^(F.p - 1)) e') := by
  obtain ⟨t', ht', hv, hr, hn, hne⟩ := exps e h.i64
  rw [ht] at ht'
  cases ht'
  rintro ⟨c, hc, hw⟩
  simp only [mid, List.mem_cons, List.mem_map] at hc
  rcases hc with rfl | ⟨c, hc, rfl⟩
  · rw [reach_leaf] at hw
    exact .inl hw.symm
  · right
    obtain ⟨s, hs, hw⟩ := reach_andThen.mp hw
    obtain ⟨x, hx, rfl⟩ := desc_map.mp hs
    have hb : Between0 x.value e ∧ x.value ≠ e :=
      ⟨(hr _).mp ⟨x, .step hc hx, rfl⟩, fun e' => by have := hn c hc x.value ⟨x, hx, rfl⟩; omega⟩
    refine ⟨x.value, hb.1, hb.2, ?_⟩
    rcases hw with hw | ⟨_, u, hu, hw⟩
    · exact .inl (by rw [← hw]; simp)
    · simp only [frac, value_map, List.mem_singleton] at hu
      subst hu
      rw [reach_leaf] at hw
      exact .inr hw.symm

theorem reach_mid {F : Fmt} {neg : Bool} {f : Nat} {e : Int} (h : F.Finite f e) {t : Shr Int}
    (ht : binarySearchShrinkable e = .ok t) {e' : Int} (hb : Between0 e' e) (hne : e' ≠ e) :
    ∃ c ∈ mid F neg f t, Reach c (.fin neg f e') := by
  obtain ⟨t', ht', hv, hr, hn, _⟩ := exps e h.i64
  rw [ht] at ht'
  cases ht'
  have := (hr e').mpr hb
  rw [reach_iff] at this
  rcases this with h0 | ⟨c, hc, s, hs, hv'⟩
  · exact absurd (h0.symm.trans hv) hne
  · refine ⟨_, List.mem_cons_of_mem _ (List.mem_map.mpr ⟨c, hc, rfl⟩), ?_⟩
    exact reach_andThen.mpr ⟨s.map (Fl.fin neg f), desc_map.mpr ⟨s, hs, rfl⟩, .inl (by simp [hv'])⟩

end Floating
end Verif
