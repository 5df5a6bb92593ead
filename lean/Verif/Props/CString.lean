import Verif.Model.CString
import Mathlib.Data.List.TakeWhile
import Verif.Props.Context
import Verif.Props.Printing
/-
C186: comparing C strings with `PROP_EXPECT_STREQ` and `PROP_ASSERT_STREQ`.
-/
namespace Verif
namespace CString
open Context Printing Unicode

/-- The characters of a C string: those before the first zero. (Not part of /repo.) -/
def chars (mem : List Nat) : List Nat := mem.takeWhile (· ≠ 0)

/-- The strings are equal in their first `n` characters, as `strncmp` compares them. -/
def SameN (a b : List Nat) (n : Nat) : Prop := (chars a).take n = (chars b).take n

theorem compare_total (eq : Bool) {a b : List Nat} {n : Nat} (ha : n ≤ a.length) (hb : n ≤ b.length) :
    ∃ x y, showChars a n = .ok x ∧ showChars b n = .ok y ∧
      compare eq a b n = .ok (if decide (a.take n = b.take n) = eq then none else some (x, y)) := by
  obtain ⟨r, hr, h0⟩ := memcmp_zero a b n ha hb
  have hx : ∀ m : List Nat, n ≤ m.length → ∃ t, showChars m n = .ok t := fun m h => by
    simp only [showChars, h, if_true, showStr, printBytes, Outcome.ok_bind]
    exact ⟨_, rfl⟩
  obtain ⟨x, hx1⟩ := hx a ha
  obtain ⟨y, hy1⟩ := hx b hb
  refine ⟨x, y, hx1, hy1, ?_⟩
  simp only [compare, hr, Outcome.ok_bind, hx1, hy1, Outcome.pure_eq, h0]
  split_ifs <;> rfl

theorem mem_split {mem : List Nat} (h : 0 ∈ mem) : ∃ rest, mem = chars mem ++ 0 :: rest := by
  induction mem with
  | nil => cases h
  | cons x xs ih =>
    by_cases hx : x = 0
    · subst hx; exact ⟨xs, by simp [chars]⟩
    · obtain ⟨rest, hr⟩ := ih (by simpa [Ne.symm hx] using h)
      refine ⟨rest, ?_⟩
      have : chars (x :: xs) = x :: chars xs := by simp [chars, hx]
      rw [this, List.cons_append, ← hr]

theorem zero_not_mem (mem : List Nat) : 0 ∉ chars mem := fun h => by
  simpa using List.mem_takeWhile_imp h

theorem take_same {a b : List Nat} {n : Nat} (ha : 0 ∈ a) (hb : 0 ∈ b) (hna : n ≤ (chars a).length + 1)
    (hnb : n ≤ (chars b).length + 1) : n ≤ a.length ∧ n ≤ b.length ∧ (a.take n = b.take n ↔ SameN a b n) := by
  obtain ⟨r, hr⟩ := mem_split ha
  obtain ⟨q, hq⟩ := mem_split hb
  have za := zero_not_mem a
  have zb := zero_not_mem b
  unfold SameN
  generalize chars a = c at *
  generalize chars b = d at *
  subst hr hq
  refine ⟨by simp; omega, by simp; omega, ?_⟩
  have key : ∀ (c r : List Nat), n = c.length + 1 → (c ++ 0 :: r).take n = c ++ [0] := by
    rintro c r rfl
    simp [List.take_append]
  rcases Nat.lt_or_ge c.length n with h1 | h1 <;> rcases Nat.lt_or_ge d.length n with h2 | h2
  · rw [key c r (by omega), key d q (by omega), List.take_of_length_le (by omega), List.take_of_length_le (by omega),
      List.append_left_inj]
  · rw [key c r (by omega), List.take_append_of_le_length h2, List.take_of_length_le (by omega : c.length ≤ n)]
    constructor
    · intro h
      exact absurd (List.mem_of_mem_take (h ▸ by simp : (0 : Nat) ∈ d.take n)) zb
    · intro h
      have := congrArg List.length h
      simp at this
      omega
  · rw [key d q (by omega), List.take_append_of_le_length h1, List.take_of_length_le (by omega : d.length ≤ n)]
    constructor
    · intro h
      exact absurd (List.mem_of_mem_take (h ▸ by simp : (0 : Nat) ∈ c.take n)) za
    · intro h
      have := congrArg List.length h
      simp at this
      omega
  · rw [List.take_append_of_le_length h1, List.take_append_of_le_length h2]

/-- **C186, partial.** If `n` does not go beyond the terminating zeros, `STREQ` passes iff the strings are equal in their first `n`
characters, `STRNE` iff they are not, and nothing is undefined. (Missing: larger `n`, see `C186_rest_violated` and
`C186_end_violated`.) -/
theorem C186_strings_partial (a b : List Nat) (n : Nat) (ha : 0 ∈ a) (hb : 0 ∈ b) (hna : n ≤ (chars a).length + 1)
    (hnb : n ≤ (chars b).length + 1) :
    (∃ o, compare true a b n = .ok o ∧ (o = none ↔ SameN a b n)) ∧
    (∃ o, compare false a b n = .ok o ∧ (o = none ↔ ¬ SameN a b n)) := by
  obtain ⟨h1, h2, h3⟩ := take_same ha hb hna hnb
  obtain ⟨x, y, _, _, hc⟩ := compare_total true h1 h2
  obtain ⟨x', y', _, _, hc'⟩ := compare_total false h1 h2
  exact ⟨⟨_, hc, by rw [← h3]; by_cases h : a.take n = b.take n <;> simp [h]⟩,
    ⟨_, hc', by rw [← h3]; by_cases h : a.take n = b.take n <;> simp [h]⟩⟩

/-- **C186, violated.** If `n` goes beyond the zeros and the memory behind them differs, equal strings are reported as different. -/
theorem C186_rest_violated (c r q : List Nat) (hc : 0 ∉ c) (hl : r.length = q.length) (hd : r ≠ q) :
    SameN (c ++ 0 :: r) (c ++ 0 :: q) (c.length + 1 + r.length) ∧
    ∃ x y, compare true (c ++ 0 :: r) (c ++ 0 :: q) (c.length + 1 + r.length) = .ok (some (x, y)) ∧
      compare false (c ++ 0 :: r) (c ++ 0 :: q) (c.length + 1 + r.length) = .ok none := by
  have hch : ∀ r, chars (c ++ 0 :: r) = c := fun r => by
    rw [chars, List.takeWhile_append_of_pos (fun x hx => by simpa using fun h : x = 0 => hc (h ▸ hx))]
    simp
  refine ⟨by rw [SameN, hch, hch], ?_⟩
  have e1 : (c ++ 0 :: r).length = c.length + 1 + r.length := by simp; omega
  have e2 : (c ++ 0 :: q).length = c.length + 1 + r.length := by simp; omega
  have hne : ¬ (c ++ 0 :: r).take (c.length + 1 + r.length) = (c ++ 0 :: q).take (c.length + 1 + r.length) := by
    rw [List.take_of_length_le e1.le, List.take_of_length_le e2.le]
    simpa using hd
  obtain ⟨x, y, _, _, hx⟩ := compare_total true e1.ge e2.ge
  obtain ⟨_, _, _, _, hy⟩ := compare_total false e1.ge e2.ge
  refine ⟨x, y, ?_, ?_⟩
  · rw [hx]; simp [hne]
  · rw [hy]; simp [hne]

/-- **C186, violated.** If `n` goes beyond the end of the memory of a string, the comparison is undefined, also of a string with itself. -/
theorem C186_end_violated (a b : List Nat) (n : Nat) (h : a.length < n ∨ b.length < n) (eq : Bool) : compare eq a b n = .ub := by
  rw [compare, memcmp, if_pos h]
  rfl

/-- **C186, messages.** A failing `STREQ` shows two different texts, a failing `STRNE` twice the same; what is shown are the `n` bytes
that were compared. -/
theorem C186_message (eq : Bool) (a b : List Nat) (ha : Bytes a) (hb : Bytes b) (n : Nat) (x y : Text)
    (h : compare eq a b n = .ok (some (x, y))) : showChars a n = .ok x ∧ showChars b n = .ok y ∧ (x = y ↔ eq = false) := by
  by_cases hn : a.length < n ∨ b.length < n
  · rw [C186_end_violated a b n hn] at h; cases h
  · obtain ⟨h1, h2⟩ := not_or.mp hn
    obtain ⟨u, v, hu, hv, hc⟩ := compare_total eq (not_lt.mp h1) (not_lt.mp h2)
    rw [hc] at h
    have hi : ¬ decide (a.take n = b.take n) = eq ∧ (u, v) = (x, y) := by
      split_ifs at h with hd
      · cases h
      · exact ⟨hd, by injection h with h; injection h⟩
    obtain ⟨hd, he⟩ := hi
    obtain ⟨rfl, rfl⟩ := Prod.mk.injEq .. ▸ he
    refine ⟨hu, hv, ?_⟩
    obtain ⟨t, ht, hinj⟩ := C119_chars_partial a b ha hb n n (not_lt.mp h1) (not_lt.mp h2)
    obtain rfl : t = u := by rw [hu] at ht; injection ht with ht; exact ht.symm
    have hiff : t = v ↔ a.take n = b.take n := by
      constructor
      · rintro rfl; exact hinj hv
      · intro hab
        have : showChars a n = showChars b n := by
          simp only [showChars, not_lt.mp h1, not_lt.mp h2, if_true, hab]
        rw [hu, hv] at this
        injection this
    rw [hiff]
    cases eq <;> simpa using hd

/-- **C186, messages of `STREQ2`.** The same for strings with two lengths: a failing `STREQ2` shows two different texts. -/
theorem C186_message2 (a b : List Nat) (ha : Bytes a) (hb : Bytes b) (x y : Text)
    (h : compare2 true a b a.length b.length = .ok (some (x, y))) :
    showChars a a.length = .ok x ∧ showChars b b.length = .ok y ∧ x ≠ y := by
  obtain ⟨r, h1, _, h3, h4⟩ := C91_streq2_partial a b
  obtain ⟨u, hu, hi⟩ := C119_chars_partial a b ha hb a.length b.length le_rfl le_rfl
  obtain ⟨v, hv, _⟩ := C119_chars_partial b a hb ha b.length a.length le_rfl le_rfl
  simp only [compare2, if_true, h1, hu, hv, Outcome.ok_bind, Outcome.pure_eq] at h
  cases r with
  | true => cases h
  | false =>
    injection h with h
    injection h with h
    obtain ⟨rfl, rfl⟩ := Prod.mk.injEq .. ▸ h
    refine ⟨hu, hv, fun e => ?_⟩
    have := hi (e ▸ hv)
    simp only [List.take_length] at this
    have hf := h3.not.mp (by simp)
    exact hf (Or.inl (this ▸ List.prefix_refl _))

/-- "ab" in memory of 3 and of 5 bytes: 3 bytes can be compared (`C186_strings_partial`), with 5 bytes equal strings differ
(`C186_rest_violated`) or the memory ends (`C186_end_violated`). -/
example : compare true [97, 98, 0] [97, 98, 0, 1, 2] 3 = .ok none ∧ compare true [97, 98, 0] [97, 99, 0] 2 ≠ .ok none ∧
    compare true [97, 98, 0, 7, 7] [97, 98, 0, 1, 2] 5 ≠ .ok none ∧ compare true [97, 98, 0] [97, 98, 0] 5 = .ub := by decide +kernel
example : (0 : Nat) ∈ [97, 98, 0] ∧ (0 : Nat) ∈ [97, 98, 0, 1, 2] ∧ 3 ≤ (chars [97, 98, 0]).length + 1 ∧
    3 ≤ (chars [97, 98, 0, 1, 2]).length + 1 ∧ SameN [97, 98, 0] [97, 98, 0, 1, 2] 3 ∧ ¬ SameN [97, 98, 0] [97, 99, 0] 2 := by
  unfold SameN; decide

/-- The message of a failing comparison: `"ab" (61 62) not equals "ac" (61 63)`. -/
example : compare true [97, 98, 0] [97, 99, 0] 2 = .ok (some
    ([34, 97, 98, 34, 32, 40, 54, 49, 32, 54, 50, 41], [34, 97, 99, 34, 32, 40, 54, 49, 32, 54, 51, 41])) := by decide +kernel
example : compare2 true [97, 98] [97, 99, 100] 2 3 ≠ .ok none ∧ compare2 true [97, 98] [97, 98, 100] 2 3 = .ok none := by
  decide +kernel

end CString
end Verif
