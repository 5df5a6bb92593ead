import Verif.Model.Integral
import Verif.Lemmas.BinSearch
namespace Verif
open Shr BinSearch Random Integral
variable {σ α β : Type}

theorem Shr.map_congr_reach {f g : α → β} {t : Shr α} (h : ∀ v, Reach t v → f v = g v) :
    t.map f = t.map g := by
  induction t using ind with
  | h v ss ih =>
    simp only [map_node]
    rw [h v (Reach.self _)]
    congr 1
    exact List.map_congr_left fun s hs => ih s hs fun w hw => h w (.child (by simpa using hs) hw)

theorem Shr.map_map {γ : Type} (f : β → γ) (g : α → β) (t : Shr α) :
    (t.map g).map f = t.map (fun x => f (g x)) := by
  induction t using ind with
  | h v ss ih =>
    simp only [map_node, List.map_map]
    congr 1
    exact List.map_congr_left ih

namespace IntType

theorem cases8 {T : IntType} (h : T ∈ all) :
    T = i8 ∨ T = i16 ∨ T = i32 ∨ T = i64 ∨ T = u8 ∨ T = u16 ∨ T = u32 ∨ T = u64 := by
  simpa [all] using h

theorem i8_lo : i8.lo = -128 := rfl
theorem i8_hi : i8.hi = 127 := rfl
theorem i8_wrap (x : Int) : i8.wrap x = (x + 128) % 256 - 128 := by
  show (x - (-128)) % 256 + (-128) = _
  omega
theorem i16_lo : i16.lo = -32768 := rfl
theorem i16_hi : i16.hi = 32767 := rfl
theorem i16_wrap (x : Int) : i16.wrap x = (x + 32768) % 65536 - 32768 := by
  show (x - (-32768)) % 65536 + (-32768) = _
  omega
theorem i32_lo : i32.lo = -2147483648 := rfl
theorem i32_hi : i32.hi = 2147483647 := rfl
theorem i32_wrap (x : Int) : i32.wrap x = (x + 2147483648) % 4294967296 - 2147483648 := by
  show (x - (-2147483648)) % 4294967296 + (-2147483648) = _
  omega
theorem i64_lo : i64.lo = -9223372036854775808 := rfl
theorem i64_hi : i64.hi = 9223372036854775807 := rfl
theorem i64_wrap (x : Int) : i64.wrap x = (x + 9223372036854775808) % 18446744073709551616 - 9223372036854775808 := by
  show (x - (-9223372036854775808)) % 18446744073709551616 + (-9223372036854775808) = _
  omega
theorem u8_lo : u8.lo = 0 := rfl
theorem u8_hi : u8.hi = 255 := rfl
theorem u8_wrap (x : Int) : u8.wrap x = x % 256 := by
  show (x - (0)) % 256 + (0) = _
  omega
theorem u16_lo : u16.lo = 0 := rfl
theorem u16_hi : u16.hi = 65535 := rfl
theorem u16_wrap (x : Int) : u16.wrap x = x % 65536 := by
  show (x - (0)) % 65536 + (0) = _
  omega
theorem u32_lo : u32.lo = 0 := rfl
theorem u32_hi : u32.hi = 4294967295 := rfl
theorem u32_wrap (x : Int) : u32.wrap x = x % 4294967296 := by
  show (x - (0)) % 4294967296 + (0) = _
  omega
theorem u64_lo : u64.lo = 0 := rfl
theorem u64_hi : u64.hi = 18446744073709551615 := rfl
theorem u64_wrap (x : Int) : u64.wrap x = x % 18446744073709551616 := by
  show (x - (0)) % 18446744073709551616 + (0) = _
  omega

/-- Unfolds everything for the eight concrete types. -/
macro "int_types" h:ident : tactic => `(tactic| (
  rcases cases8 $h with e | e | e | e | e | e | e | e <;> subst e <;>
  simp only [i8_lo, i8_hi, i8_wrap, i16_lo, i16_hi, i16_wrap, i32_lo, i32_hi, i32_wrap, i64_lo, i64_hi,
    i64_wrap, u8_lo, u8_hi, u8_wrap, u16_lo, u16_hi, u16_wrap, u32_lo, u32_hi, u32_wrap, u64_lo, u64_hi,
    u64_wrap] at *))

theorem wrap_id {T : IntType} (hT : T ∈ all) {x : Int} (h1 : T.lo ≤ x) (h2 : x ≤ T.hi) : T.wrap x = x := by
  int_types hT <;> omega

theorem lo_le_hi {T : IntType} (hT : T ∈ all) : T.lo ≤ 0 ∧ 127 ≤ T.hi := by
  int_types hT <;> omega

theorem wrap_mem {T : IntType} (hT : T ∈ all) (x : Int) : T.lo ≤ T.wrap x ∧ T.wrap x ≤ T.hi := by
  int_types hT <;> omega

theorem arith_ok {T : IntType} (hT : T ∈ all) {x : Int} (h1 : T.lo ≤ x) (h2 : x ≤ T.hi) :
    T.arith x = .ok x := by
  unfold arith
  split
  · rfl
  · split
    · rw [if_pos ⟨h1, h2⟩]
    · rw [wrap_id hT h1 h2]

theorem addU64_eq {T : IntType} (hT : T ∈ all) (base v : Int) : addU64 T base v = T.wrap (base + v) := by
  unfold addU64
  int_types hT <;> omega

theorem u64_bounds {T : IntType} (hT : T ∈ all) : T.hi ≤ u64.hi ∧ i64.lo ≤ T.lo := by
  int_types hT <;> omega

theorem signed_hi {T : IntType} (hT : T ∈ all) (h : T.lo < 0) : T.hi ≤ i64.hi := by
  int_types hT <;> omega

end IntType
open IntType

/-- The point of `[min, max]` nearest to zero. -/
def near0 (min max : Int) : Int := if min ≥ 0 then min else if max ≤ 0 then max else 0

theorem shrinkableOf_eq {T : IntType} (hT : T ∈ all) {min max v : Int} (h1 : T.lo ≤ min) (h2 : min ≤ v)
    (h3 : v ≤ max) (h4 : max ≤ T.hi) :
    (near0 min max ≤ v ∧ shrinkableOf T min max v =
      .ok ((bsNat (v - near0 min max).natAbs).map (fun x : Nat => near0 min max + (x : Int)))) ∨
    (v ≤ near0 min max ∧ shrinkableOf T min max v =
      .ok ((bsNat (v - near0 min max).natAbs).map (fun x : Nat => near0 min max - (x : Int)))) := by
  have hb := u64_bounds hT
  have hl := lo_le_hi hT
  have hs := signed_hi hT
  have hv : ¬ (v < min ∨ max < v) := by omega
  simp only [shrinkableOf, near0, if_neg hv]
  by_cases c1 : min ≥ 0
  · left
    simp only [if_pos c1]
    refine ⟨h2, ?_⟩
    have hu : (v - min).natAbs ≤ u64.hi := by omega
    rw [arith_ok hT (by omega) (by omega), Outcome.ok_bind, wrap_id hT (by omega) (by omega),
      wrap_id (by simp [all]) (by rw [u64_lo]; omega) (by omega)]
    have e : v - min = ((v - min).natAbs : Int) := by omega
    unfold binarySearchShrinkableU
    rw [e, tree_pos exact_U64 _ (by rw [u64_hi] at hu; omega), Outcome.ok_bind, Outcome.pure_eq,
      Shr.map_map, Int.natAbs_natCast]
    congr 1
    refine Shr.map_congr_reach fun x hx => ?_
    have hx := (bsNat_reach _ x).mp hx
    rw [addU64_eq hT]
    exact wrap_id hT (by simp; omega) (by simp; omega)
  · simp only [if_neg c1]
    have hs := hs (by omega)
    by_cases c2 : max ≤ 0
    · right
      simp only [if_pos c2]
      refine ⟨h3, ?_⟩
      have e : v - max = -((v - max).natAbs : Int) := by omega
      have hlo : i64.lo ≤ -((v - max).natAbs : Int) := by omega
      rw [arith_ok hT (by omega) (by omega), Outcome.ok_bind, wrap_id hT (by omega) (by omega),
        wrap_id (by simp [all]) (by omega) (by rw [i64_hi]; omega)]
      unfold binarySearchShrinkable
      rw [e, tree_neg (fun x a b => exact_S64 x a (by omega)) _ (by rw [i64_lo] at hlo; omega),
        Outcome.ok_bind, Outcome.pure_eq, Shr.map_map, Int.natAbs_neg, Int.natAbs_natCast]
      congr 1
      refine Shr.map_congr_reach fun x hx => ?_
      have hx := (bsNat_reach _ x).mp hx
      rw [addU64_eq hT]
      exact wrap_id hT (by simp [negNat]; omega) (by simp [negNat]; omega)
    · simp only [if_neg c2, Int.sub_zero]
      have hlo : i64.lo ≤ v := by omega
      have hhi : v ≤ i64.hi := by omega
      rw [wrap_id (by simp [all]) hlo hhi]
      rw [i64_lo] at hlo
      rw [i64_hi] at hhi
      unfold binarySearchShrinkable
      rcases Int.natAbs_eq v with e | e
      · left
        refine ⟨by omega, ?_⟩
        rw [e, tree_pos (fun x a b => exact_S64 x (by omega) b) _ (by omega), Outcome.ok_bind,
          Outcome.pure_eq, Shr.map_map, Int.natAbs_natCast]
        congr 1
        refine Shr.map_congr_reach fun x hx => ?_
        have hx := (bsNat_reach _ x).mp hx
        rw [Int.zero_add]
        exact wrap_id hT (by simp; omega) (by simp; omega)
      · right
        refine ⟨by omega, ?_⟩
        rw [e, tree_neg (fun x a b => exact_S64 x a (by omega)) _ (by omega), Outcome.ok_bind,
          Outcome.pure_eq, Shr.map_map, Int.natAbs_neg, Int.natAbs_natCast]
        congr 1
        refine Shr.map_congr_reach fun x hx => ?_
        have hx := (bsNat_reach _ x).mp hx
        rw [Int.zero_sub]
        exact wrap_id hT (by simp [negNat]; omega) (by simp [negNat]; omega)

theorem boundary_mem {T : IntType} (hT : T ∈ all) : ∀ v ∈ boundaryValues T, T.lo ≤ v ∧ v ≤ T.hi := by
  rcases cases8 hT with rfl | rfl | rfl | rfl | rfl | rfl | rfl | rfl <;> decide

theorem boundary_length {T : IntType} (hT : T ∈ all) :
    0 < (boundaryValues T).length ∧ (boundaryValues T).length < 100 := by
  rcases cases8 hT with rfl | rfl | rfl | rfl | rfl | rfl | rfl | rfl <;> decide

theorem uniform_ok (R : Rng σ) {a b : Int} (s : σ) (h : a ≤ b) :
    ∃ v s', uniform R a b s = .ok (v, s') ∧ a ≤ v ∧ v ≤ b :=
  ⟨_, _, by rw [uniform, if_pos h], R.draw_mem s a b h⟩

theorem getRandomT_ok (R : Rng σ) {T : IntType} (hT : T ∈ all) {min max : Int} (s : σ)
    (h1 : T.lo ≤ min) (h2 : min ≤ max) (h3 : max ≤ T.hi) :
    ∃ v s', getRandomT R T min max s = .ok (v, s') ∧ min ≤ v ∧ v ≤ max := by
  obtain ⟨v, s', e, h⟩ := uniform_ok R s h2
  refine ⟨v, s', ?_, h⟩
  unfold getRandomT
  rw [wrap_id hT h1 (by omega), wrap_id hT (by omega) h3, e, Outcome.ok_bind]
  simp only [wrap_id hT (x := v) (by omega) (by omega)]
  rfl

theorem getRandomSize_ok (R : Rng σ) {a b : Nat} (s : σ) (h : a < b) (hb : b ≤ 2^32) :
    ∃ v s', getRandomSize R a b s = .ok (v, s') ∧ (a : Int) ≤ v ∧ v < b := by
  unfold getRandomSize
  have e : u64.wrap ((b : Int) - 1) = (b : Int) - 1 :=
    wrap_id (by simp [all]) (by rw [u64_lo]; omega) (by rw [u64_hi]; omega)
  rw [e]
  obtain ⟨v, s', h1, h2, h3⟩ := getRandomT_ok R (T := u32) (by simp [all]) (min := a)
    (max := (b : Int) - 1) s (by rw [u32_lo]; omega) (by omega) (by rw [u32_hi]; omega)
  exact ⟨v, s', h1, h2, by omega⟩

/-- A size in `a..b` is exactly what the engine draws from that range. -/
theorem getRandomSize_draw (R : Rng σ) {a b : Nat} (s : σ) (h : a ≤ b) (hb : b < 2^32) :
    ∃ v s', getRandomSize R a (b + 1) s = .ok (v, s') ∧ (a : Int) ≤ v ∧ v ≤ b ∧ R.draw s a b = (v, s') := by
  obtain ⟨v, s', h1, h2, h3⟩ := getRandomSize_ok R (a := a) (b := b + 1) s (by omega) (by omega)
  refine ⟨v, s', h1, h2, by omega, ?_⟩
  unfold getRandomSize getRandomT at h1
  have e : u64.wrap (((b + 1 : Nat) : Int) - 1) = b := by
    rw [wrap_id (by simp [all]) (by rw [u64_lo]; omega) (by rw [u64_hi]; omega)]; omega
  rw [e, wrap_id (by simp [all]) (by rw [u32_lo]; omega) (by rw [u32_hi]; omega),
    wrap_id (by simp [all]) (by rw [u32_lo]; omega) (by rw [u32_hi]; omega), uniform, if_pos (by omega)] at h1
  have hm := R.draw_mem s a b (by omega)
  generalize R.draw s a b = r at h1 hm ⊢
  obtain ⟨w, s2⟩ := r
  simp only [Outcome.ok_bind, Outcome.pure_eq, Outcome.ok.injEq, Prod.mk.injEq] at h1 hm
  rw [wrap_id (by simp [all]) (by rw [u32_lo]; omega) (by rw [u32_hi]; omega)] at h1
  rw [h1.1, h1.2]

theorem drawValue_ok (R : Rng σ) {T : IntType} (hT : T ∈ all) {table : List Int}
    (htab : ∀ v ∈ table, T.lo ≤ v ∧ v ≤ T.hi) (hlen : 0 < table.length ∧ table.length < 100)
    {min max : Int} (s : σ) (h1 : T.lo ≤ min) (h2 : min ≤ max) (h3 : max ≤ T.hi) :
    ∃ v s', drawValue R T table (getRandomT R T) min max s = .ok (v, s') ∧ min ≤ v ∧ v ≤ max := by
  unfold drawValue
  by_cases hfull : min = T.lo ∧ max = T.hi
  · rw [if_pos hfull]
    obtain ⟨rfl, rfl⟩ := hfull
    cases hb : getRandomBool R half s with
    | mk b s' =>
      simp only
      cases b with
      | false => exact getRandomT_ok R hT s' (by omega) h2 (by omega)
      | true =>
        simp only [if_true]
        obtain ⟨i, s'', e, hi0, hi⟩ := getRandomSize_ok R (a := 0) (b := table.length) s' hlen.1 (by omega)
        rw [e, Outcome.ok_bind]
        have hlt : i.toNat < table.length := by omega
        simp only [List.getElem?_eq_getElem hlt]
        exact ⟨_, s'', rfl, htab _ (List.getElem_mem hlt)⟩
  · rw [if_neg hfull]
    exact getRandomT_ok R hT s h1 h2 h3

end Verif
