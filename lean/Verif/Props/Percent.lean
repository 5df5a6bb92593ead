import Verif.Lemmas.Percent
import Verif.Lemmas.Printing
import Verif.Props.Context
import Verif.Spec.Printing
/-!
C159: what the percentages in the tag statistics tell.
-/
namespace Verif
namespace Context
open Printing

/-- C159, the part that holds: the percentage shown, read as a decimal number, is off by at most one part in 199999. -/
theorem C159_accurate_partial (count total : Nat) (hc : 0 < count) (ht : 0 < total) :
    |readDec (percentText count total) - 100 * count / total| ≤ (100 * count / total : ℚ) / 199999 := by
  obtain ⟨n, d, hn, hd, hq, htx⟩ := percentText_eq hc ht
  obtain ⟨h1, h2, h3⟩ := sixDigits_spec hn hd
  obtain ⟨b1, b2⟩ := percent_bounds hc ht
  have hr := read_formatG (neg := false) h1 h2 (sixDigits n d).2
  simp only [Bool.false_eq_true, if_false, List.nil_append, one_mul] at hr
  rw [htx, hr]
  rw [hq] at h3
  have hv : (0 : ℚ) < 100 * count / total := by
    have : (0 : ℚ) < count := by exact_mod_cast hc
    have : (0 : ℚ) < total := by exact_mod_cast ht
    positivity
  generalize ((sixDigits n d).1 : ℚ) * 10^((sixDigits n d).2 - 5) = r at *
  generalize (100 * count / total : ℚ) = v at *
  generalize percent count total = p at *
  rw [abs_le] at h3 ⊢
  norm_num at *
  constructor <;> linarith [h3.1, h3.2]

/-- C159, the part that holds: if all the values recorded for a key are the same, 100 is shown. -/
theorem C159_all_partial (total : Nat) (ht : 0 < total) : percentText total total = "100".toList.map Char.toNat := by
  obtain ⟨n, d, hn, hd, hq, htx⟩ := percentText_eq ht ht
  obtain ⟨b1, b2⟩ := percent_bounds ht ht
  have ht' : (0 : ℚ) < total := by exact_mod_cast ht
  rw [mul_div_assoc, div_self ht'.ne'] at b1 b2
  rw [htx, sixDigits_hundred hn hd (by rw [hq]; norm_num at *; linarith) (by rw [hq]; norm_num at *; linarith)]
  decide +kernel

/-- C159, the part that holds: no more than 100 is shown. -/
theorem C159_at_most_partial (count total : Nat) (hc : 0 < count) (ht : count ≤ total) :
    readDec (percentText count total) ≤ 100 := by
  have ht0 : 0 < total := by omega
  obtain ⟨n, d, hn, hd, hq, htx⟩ := percentText_eq hc ht0
  obtain ⟨b1, b2⟩ := percent_bounds hc ht0
  have ht' : (0 : ℚ) < total := by exact_mod_cast ht0
  have hv : (100 * count / total : ℚ) ≤ 100 := by
    rw [div_le_iff₀ ht']
    have : (count : ℚ) ≤ total := by exact_mod_cast ht
    linarith
  obtain ⟨h1, h2, h3⟩ := sixDigits_spec hn hd
  have hr := read_formatG (neg := false) h1 h2 (sixDigits n d).2
  simp only [Bool.false_eq_true, if_false, List.nil_append, one_mul] at hr
  rw [htx, hr]
  exact sixDigits_le hn hd (by rw [hq]; norm_num at *; linarith)

/-- C159, the part that holds: with fewer than two million values recorded for a key, 100 is shown only if all are the
same. -/
theorem C159_only_all_partial (count total : Nat) (hc : 0 < count) (ht : count ≤ total) (hs : total < 2000000) :
    percentText count total = "100".toList.map Char.toNat ↔ count = total := by
  constructor
  · intro h
    by_contra hne
    have hlt : count < total := by omega
    have ht0 : 0 < total := by omega
    obtain ⟨n, d, hn, hd, hq, htx⟩ := percentText_eq hc ht0
    obtain ⟨b1, b2⟩ := percent_bounds hc ht0
    have ht' : (0 : ℚ) < total := by exact_mod_cast ht0
    have hv : (100 * count / total : ℚ) ≤ 100 - 100 / 1999999 := by
      rw [div_le_iff₀ ht']
      have h1 : (count : ℚ) + 1 ≤ total := by exact_mod_cast hlt
      have h2 : (total : ℚ) ≤ 1999999 := by exact_mod_cast (by omega : total ≤ 1999999)
      norm_num
      linarith
    have hb := sixDigits_below hn hd (by rw [hq]; norm_num at *; linarith)
    obtain ⟨h1, h2, h3⟩ := sixDigits_spec hn hd
    have hr := read_formatG (neg := false) h1 h2 (sixDigits n d).2
    simp only [Bool.false_eq_true, if_false, List.nil_append, one_mul] at hr
    rw [← hr, ← htx, h] at hb
    have : readDec ("100".toList.map Char.toNat) = 100 := by decide +kernel
    rw [this] at hb
    exact absurd hb (lt_irrefl _)
  · rintro rfl
    exact C159_all_partial count hc

/-- C159, violated: of more than two million values, some may differ although 100% is shown for one of them. -/
theorem C159_hundred_violated (count total : Nat) (h : count < total) (hs : (total - count) * 2000001 ≤ total) :
    percentText count total = "100".toList.map Char.toNat := by
  have ht0 : 0 < total := by omega
  have hc : 0 < count := by omega
  obtain ⟨n, d, hn, hd, hq, htx⟩ := percentText_eq hc ht0
  obtain ⟨b1, b2⟩ := percent_bounds hc ht0
  have ht' : (0 : ℚ) < total := by exact_mod_cast ht0
  have hle : (100 * count / total : ℚ) ≤ 100 := by
    rw [div_le_iff₀ ht']
    have : (count : ℚ) ≤ total := by exact_mod_cast h.le
    linarith
  have hge : (100 - 100 / 2000001 : ℚ) ≤ 100 * count / total := by
    rw [le_div_iff₀ ht']
    have h1 : total * 2000001 ≤ total + count * 2000001 := by
      have : total = (total - count) + count := by omega
      calc total * 2000001 = (total - count) * 2000001 + count * 2000001 := by rw [← Nat.add_mul, ← this]
        _ ≤ _ := Nat.add_le_add_right hs _
    have h2 : (total : ℚ) * 2000001 ≤ total + count * 2000001 := by exact_mod_cast h1
    norm_num
    linarith
  rw [htx, sixDigits_hundred hn hd (by rw [hq]; norm_num at *; linarith) (by rw [hq]; norm_num at *; linarith)]
  decide +kernel

/-- C159: the count and the total of a line can be read off. -/
theorem C159_counts_shown (c c' t t' : Nat) (h : countText c t = countText c' t') : c = c' ∧ t = t' := by
  have sep : ∀ (x : Nat) (s s' u u' : Text), x ∉ s → x ∉ s' → s ++ x :: u = s' ++ x :: u' → s = s' ∧ u = u' := by
    intro x s
    induction s with
    | nil =>
      intro s' u u' _ h2 h
      cases s' with
      | nil => simpa using h
      | cons b s' =>
        simp only [List.nil_append, List.cons_append, List.cons.injEq] at h
        exact absurd (by simp [h.1]) h2
    | cons a s ih =>
      intro s' u u' h1 h2 h
      cases s' with
      | nil =>
        simp only [List.nil_append, List.cons_append, List.cons.injEq] at h
        exact absurd (by simp [h.1]) h1
      | cons b s' =>
        simp only [List.cons_append, List.cons.injEq] at h
        obtain ⟨e1, e2⟩ := ih s' u u' (fun hx => h1 (by simp [hx])) (fun hx => h2 (by simp [hx])) h.2
        exact ⟨by rw [h.1, e1], e2⟩
  have digit : ∀ x n, (x < 48 ∨ 57 < x) → x ∉ dec n := by
    intro x n hx hm
    have := dec_digit n x hm
    omega
  unfold countText at h
  simp only [List.append_assoc, List.cons_append, List.nil_append, List.cons.injEq, true_and] at h
  obtain ⟨h1, h2⟩ := sep 47 _ _ _ _ (digit 47 c (by omega)) (digit 47 c' (by omega)) h
  obtain ⟨h3, _⟩ := sep 32 _ _ _ _ (digit 32 t (by omega)) (digit 32 t' (by omega)) h2
  exact ⟨dec_inj h1, dec_inj h3⟩

/-- C159: the lines of the statistics after any calls of `tag`: for every key and every value recorded for it there is
one, with the number of calls for both, the number of calls for the key, and a percentage that tells their ratio. -/
theorem C159_lines {K V : Type} [LinearOrder K] [LinearOrder V] (calls : List (K × V)) (k : K) (v : V) (hm : (k, v) ∈ calls) :
    ∃ rows, (k, rows) ∈ summaryTexts (calls.foldl (fun t kv => tag t kv.1 kv.2) ([] : Tags K V)) ∧
      (v, countText (calls.count (k, v)) (calls.countP fun kv => kv.1 = k)) ∈ rows := by
  obtain ⟨_, h2, h3⟩ := C59_tag_counts calls
  obtain ⟨⟨k', lines⟩, h4, rfl⟩ := List.mem_map.1 ((h2 k).2 ⟨v, hm⟩)
  obtain ⟨_, h5, h6⟩ := h3 k' lines h4
  obtain ⟨⟨v', c, t⟩, h7, rfl⟩ := List.mem_map.1 ((h5 v).2 hm)
  obtain ⟨rfl, rfl⟩ := h6 v' c t h7
  refine ⟨_, List.mem_map.2 ⟨_, h4, rfl⟩, List.mem_map.2 ⟨_, h7, rfl⟩⟩

/-- Three calls for key 2. -/
example : summaryTexts ([(2, 7), (1, 5), (2, 6), (2, 7)].foldl (fun t (kv : Nat × Nat) => tag t kv.1 kv.2) []) =
    [(1, [(5, ": 1/1 (100%)".toList.map Char.toNat)]),
      (2, [(6, ": 1/3 (33.3333%)".toList.map Char.toNat), (7, ": 2/3 (66.6667%)".toList.map Char.toNat)])] := by
  decide +kernel

/-- One of three million is different, 100% is shown. -/
example : countText 2999999 3000000 = ": 2999999/3000000 (100%)".toList.map Char.toNat := by
  unfold countText
  rw [C159_hundred_violated 2999999 3000000 (by decide) (by decide)]
  decide +kernel

end Context
end Verif
