import Verif.Lemmas.Printing
import Verif.Lemmas.PrintingFloat
/-
C119, C120: what the printed arguments of a failed property tell about the arguments.
-/
namespace Verif
open Printing Unicode Floating

/-! ### C119 printed arguments identify the arguments -/

/-- C119, the part that holds: two values of a type built from `bool`, integers, strings of all kinds, vectors, lists, pairs,
tuples, maps, sets of integers, `shared_ptr` and `Nullable` are shown as the same text only if they are equal. Missing:
`Nullable` of `Nullable` and sets of strings (see `C119_nested_null_violated` and `C119_set_violated`), floating point numbers
(C120) and types without `show`. -/
theorem C119_arguments_identified_partial (t : Ty) (ht : t.NoNestedNull) (a b : t.Val) (s : Text) (ha : t.show a = .ok s)
    (hb : t.show b = .ok s) : a = b :=
  (exact_ty t ht).inj ha hb

/-- C119, the same in the middle of a report: wherever the shown value ends a line, and whatever precedes it, the value and
where its text begins are determined. -/
theorem C119_end_of_line_partial (t : Ty) (ht : t.NoNestedNull) (a b : t.Val) (s s' u v : Text) (ha : t.show a = .ok s)
    (hb : t.show b = .ok s') (h : u ++ 32 :: s = v ++ 32 :: s') : u = v ∧ a = b := by
  obtain ⟨h1, rfl⟩ := (exact_ty t ht).sep ha hb u v h
  exact ⟨h1, (exact_ty t ht).inj ha hb⟩

/-- Two arguments, a vector of strings and an optional integer, with strings chosen to look like two elements. -/
example : (Ty.tuple 1 (fun i => if i = 0 then .vec (.str .utf8) else .nullable .int)).NoNestedNull := by
  intro i
  match i with
  | 0 => exact trivial
  | 1 => exact trivial

example : (Ty.vec (.str .utf8)).show [⟨[97, 34, 44, 32, 34, 98], by intro x hx; revert x; decide⟩] =
    .ok [91, 32, 34, 97, 34, 44, 32, 34, 98, 34, 32, 40, 54, 49, 32, 50, 50, 32, 50, 99, 32, 50, 48, 32, 50, 50, 32, 54, 50,
      41, 32, 93] := by decide +kernel

/-- C119, the part that holds: characters given by a pointer and a length are always shown, and the text determines them. -/
theorem C119_chars_partial (mem mem' : List Nat) (h : Bytes mem) (h' : Bytes mem') (len len' : Nat) (hl : len ≤ mem.length)
    (hl' : len' ≤ mem'.length) : ∃ t, showChars mem len = .ok t ∧
      (showChars mem' len' = .ok t → mem.take len = mem'.take len') := by
  simp only [showChars, hl, hl', if_true, showStr, printBytes, Outcome.ok_bind]
  refine ⟨_, rfl, fun e => ?_⟩
  have b : Bytes (mem.take len) := fun x hx => h x (List.mem_of_mem_take hx)
  have b' : Bytes (mem'.take len') := fun x hx => h' x (List.mem_of_mem_take hx)
  injection e with e
  have e := List.append_cancel_right e
  have cut : ∀ (u v : Text), u ++ [34, 32, 40] ++ v = (u ++ [34, 32]) ++ 40 :: v := fun u v => by simp
  rw [cut, cut] at e
  exact asHex_inj _ _ b b' (sep_paren (asHex_chars _ b').1 (asHex_chars _ b).1 e).2.symm

example : showChars [97, 255, 0] 2 = .ok [34, 97, 255, 34, 32, 40, 54, 49, 32, 102, 102, 41] := by decide +kernel

/-- C119. The text of such characters: in quotation marks every character in its turn, as it is, or `\\` for a backslash and
`\x` with two digits for control characters; after them in parentheses two hexadecimal digits for each. -/
theorem C119_chars_text_partial (mem : List Nat) (len : Nat) (hl : len ≤ mem.length) :
    ∃ (parts : List Text) (codes : Text), showChars mem len = .ok ([34] ++ parts.flatten ++ [34, 32, 40] ++ codes ++ [41]) ∧
      List.Forall₂ (fun c t => (32 ≤ c ∧ c ≠ 92 ∧ c ≠ 127 → t = [c]) ∧ (c = 92 → t = [92, 92]) ∧
        (c < 32 ∨ c = 127 → ∃ a b, t = [92, 120, a, b])) (mem.take len) parts ∧
      codes.length = 3 * len - 1 := by
  refine ⟨(mem.take len).map fun c => (Tok.ascii c).text, asHex (mem.take len), ?_, ?_, ?_⟩
  · simp only [showChars, hl, if_true, showStr, printBytes, Outcome.ok_bind]
    rw [List.flatMap_map, ← List.flatMap_def]
  · rw [List.forall₂_map_right_iff]
    refine List.forall₂_same.2 fun c _ => ⟨fun h => ?_, fun h => ?_, fun h => ?_⟩
    · simp only [Tok.text]
      rw [if_neg h.2.1, if_neg (by omega)]
    · simp only [Tok.text]
      rw [if_pos h]
    · simp only [Tok.text]
      rw [if_neg (by omega), if_pos h]
      exact ⟨_, _, rfl⟩
  · have : ∀ cs : List Nat, (asHex cs).length = 3 * cs.length - 1 := by
      intro cs
      match cs with
      | [] => rfl
      | [b] => rfl
      | b :: c :: cs =>
        have ih : ∀ (c : Nat) (cs : List Nat), (asHex (c :: cs)).length = 3 * cs.length + 2 := by
          intro c cs
          induction cs generalizing c with
          | nil => rfl
          | cons d ds ih => simp only [asHex, List.length_append, List.length_cons, ih, hex2, List.length_nil]; omega
        rw [ih]
        simp only [List.length_cons]; omega
    rw [this, List.length_take, min_eq_left hl]

example : ∃ (parts : List Text) (codes : Text),
    showChars [97, 0, 92, 98] 3 = .ok ([34] ++ parts.flatten ++ [34, 32, 40] ++ codes ++ [41]) ∧ codes.length = 8 := by
  obtain ⟨p, c, h, -, hc⟩ := C119_chars_text_partial [97, 0, 92, 98] 3 (by simp)
  exact ⟨p, c, h, hc⟩

/-- C119, the part that holds: characters given by a pointer alone are shown as the bytes before the first zero, and the text
determines these. -/
theorem C119_cstr_partial (cs cs' rest rest' : List Nat) (h : Bytes cs) (h' : Bytes cs') (h0 : 0 ∉ cs) (h0' : 0 ∉ cs') :
    ∃ t, showCStr (cs ++ 0 :: rest) = .ok t ∧ (showCStr (cs' ++ 0 :: rest') = .ok t → cs = cs') := by
  have e : ∀ (cs rest : List Nat), 0 ∉ cs → (cs ++ 0 :: rest).takeWhile (· ≠ 0) = cs := fun cs rest h => by
    induction cs with
    | nil => simp
    | cons c cs ih =>
      simp only [List.mem_cons, not_or] at h
      have := ih h.2
      simp only [ne_eq, decide_not] at this
      simp [Ne.symm h.1, this]
  simp only [showCStr, List.mem_append, List.mem_cons, true_or, or_true, if_true, e cs rest h0, e cs' rest' h0']
  refine ⟨_, rfl, fun e => ?_⟩
  injection e with e
  exact (asHex_inj _ _ h' h (List.append_cancel_left (List.append_cancel_right e))).symm

example : showCStr [97, 98, 0, 99] = .ok [40, 54, 49, 32, 54, 50, 41] := by decide +kernel

/-- C119, characters given by a pointer: the text is defined only if there is a zero in the memory behind the pointer, and
what comes after the first zero has no influence. -/
theorem C119_cstr_needs_end (mem : List Nat) (t : Text) (h : showCStr mem = .ok t) :
    ∃ cs rest, mem = cs ++ 0 :: rest ∧ 0 ∉ cs ∧ ∀ rest', showCStr (cs ++ 0 :: rest') = .ok t := by
  unfold showCStr at h
  split at h
  · next h0 =>
    have e : ∀ (cs rest : List Nat), 0 ∉ cs → (cs ++ 0 :: rest).takeWhile (· ≠ 0) = cs := fun cs rest h => by
      induction cs with
      | nil => simp
      | cons c cs ih =>
        simp only [List.mem_cons, not_or] at h
        have := ih h.2
        simp only [ne_eq, decide_not] at this
        simp [Ne.symm h.1, this]
    obtain ⟨cs, rest, rfl, hcs⟩ : ∃ cs rest, mem = cs ++ 0 :: rest ∧ 0 ∉ cs := by
      clear h e
      induction mem with
      | nil => simp at h0
      | cons c mem ih =>
        by_cases hc : c = 0
        · exact ⟨[], mem, by rw [hc]; rfl, by simp⟩
        · obtain ⟨cs, rest, rfl, hcs⟩ := ih (by simpa [Ne.symm hc] using h0)
          exact ⟨c :: cs, rest, rfl, by simp [hcs, Ne.symm hc]⟩
    refine ⟨cs, rest, rfl, hcs, fun rest' => ?_⟩
    rw [showCStr, if_pos (by simp), e cs rest' hcs, ← h, e cs rest hcs]
  · cases h

example : showCStr [97, 98] = .ub := by
  cases h : showCStr [97, 98] with
  | ub => rfl
  | ok t =>
    obtain ⟨cs, rest, e, -, -⟩ := C119_cstr_needs_end _ _ h
    have : (0 : Nat) ∈ [97, 98] := by rw [e]; simp
    simp at this
  | throws e => simp [showCStr] at h
  | diverges => simp [showCStr] at h

/-- C119 is violated: a null `Nullable<Nullable<T>>` and one that contains a null `Nullable<T>` are shown as the same text. -/
theorem C119_nested_null_violated (t : Ty) :
    ∃ a b : (Ty.nullable (.nullable t)).Val, a ≠ b ∧ (Ty.nullable (.nullable t)).show a = (Ty.nullable (.nullable t)).show b :=
  ⟨(none : Option (Option t.Val)), (some none : Option (Option t.Val)), fun h => by injection h, rfl⟩

/-- C119 is violated: sets show their elements without quotes, so a set of two strings is shown as the set of one string that
contains a comma and a space. This holds for all strings. -/
theorem C119_set_violated (a b : List Nat) :
    [a, b] ≠ [a ++ [44, 32] ++ b] ∧ showSet putString [a, b] = showSet putString [a ++ [44, 32] ++ b] := by
  refine ⟨by simp, ?_⟩
  simp [showSet, showSeq, showRest, putString]

/-- C119 is violated: sets of the empty set of strings and of the empty string are shown as the same text. -/
theorem C119_empty_set_violated : showSet putString [] = showSet putString [[]] := by decide

/-- C119 is violated: all values of a type without `show` are shown as the same text. -/
theorem C119_default_violated (α : Type) (a b : α) : (showDefault : Printer α) a = showDefault b ∧
    (showDefault : Printer α) a = .ok ("<???>".toList.map Char.toNat) := ⟨rfl, rfl⟩

/-! ### C120 printed floating point numbers -/

/-- C120, the part that holds: the shown text, read as a decimal number, differs from the number by at most half a unit of the
sixth digit, that is by at most the number divided by 200000. Missing: the text determines the number (see
`C120_identified_violated`). -/
theorem C120_accurate_partial (F : Fmt) (x : Fl) (hx : x.Valid F) (v : ℚ) (hv : x.toRat? F = some v) :
    ∃ t, showFl F x = .ok t ∧ |readDec t - v| ≤ |v| / 200000 := by
  obtain ⟨t, ht⟩ : ∃ t, showFl F x = .ok t := by
    cases x <;> exact ⟨_, rfl⟩
  exact ⟨t, ht, showFl_accurate F x hx hv ht⟩

/-- C120, the part that holds: numbers shown as the same text are close to each other. -/
theorem C120_close_partial (F : Fmt) (x y : Fl) (hx : x.Valid F) (hy : y.Valid F) (v w : ℚ) (hv : x.toRat? F = some v)
    (hw : y.toRat? F = some w) (h : showFl F x = showFl F y) : |v - w| ≤ (|v| + |w|) / 200000 := by
  obtain ⟨t, ht, h1⟩ := C120_accurate_partial F x hx v hv
  obtain ⟨u, hu, h2⟩ := C120_accurate_partial F y hy w hw
  rw [h, hu] at ht
  injection ht with ht
  subst ht
  have h3 := abs_sub_le v (readDec u) w
  have h4 := abs_sub_comm v (readDec u)
  linarith

/-- C120, the part that holds: the sign is shown, also of zero and of the infinities. -/
theorem C120_sign_partial (F : Fmt) (x : Fl) : ∃ t, showFl F x = .ok t ∧
    (t.head? = some 45 ↔ x = .inf true ∨ x = .zero true ∨ ∃ f e, x = .fin true f e) := by
  cases x with
  | nan => exact ⟨_, rfl, by simp⟩
  | inf n => exact ⟨_, rfl, by cases n <;> simp⟩
  | zero n => exact ⟨_, rfl, by cases n <;> simp⟩
  | fin n f e =>
    refine ⟨_, rfl, ?_⟩
    cases n with
    | true => simp
    | false =>
      simp only [Bool.false_eq_true, if_false, List.nil_append, reduceCtorEq, false_or, Fl.fin.injEq, false_and, exists_false,
        iff_false]
      exact formatG_head _ _

example : showFl .double (.zero true) = .ok [45, 48] := by decide

/-- C120, the part that holds: the special values are shown as such, and numbers are not shown as special values. -/
theorem C120_special_partial (F : Fmt) (x : Fl) (neg : Bool)
    (h : showFl F x = .ok [110, 97, 110] ∨ showFl F x = .ok ((if neg then [45] else []) ++ [105, 110, 102])) :
    x = .nan ∨ x = .inf neg := by
  cases x with
  | nan => exact .inl rfl
  | inf n =>
    right
    rcases h with h | h
    · have := ok_inj h
      cases n <;> simp at this
    · have := ok_inj h
      cases n <;> cases neg <;> simp at this ⊢
  | zero n =>
    rcases h with h | h
    · have := ok_inj h
      cases n <;> simp at this
    · have := ok_inj h
      cases n <;> cases neg <;> simp at this
  | fin n f e =>
    exfalso
    have hc : ∀ t, showFl F (.fin n f e) = .ok t → ∀ c ∈ t, c ≠ 110 := by
      intro t ht c hc
      have ht' : t = (if n then [45] else []) ++ formatG (sixDigits (f * 2^(e - F.p).toNat) (2^((F.p : Int) - e).toNat)).1
        (sixDigits (f * 2^(e - F.p).toNat) (2^((F.p : Int) - e).toNat)).2 := (ok_inj ht).symm
      rw [ht', List.mem_append] at hc
      rcases hc with hc | hc
      · cases n <;> simp at hc; omega
      · exact formatG_chars _ _ c hc
    rcases h with h | h
    · exact hc _ h 110 (by simp) rfl
    · exact hc _ h 110 (by simp) rfl

example : Fl.Valid .double (.fin true (3 * 2^51) (-10)) ∧
    showFl .double (.fin true (3 * 2^51) (-10)) = .ok [45, 48, 46, 48, 48, 48, 55, 51, 50, 52, 50, 50] := by decide +kernel

/-- C120 is violated: all doubles in `[1, 1 + 2^-18]`, more than `2^34` many, are shown as `1`. -/
theorem C120_identified_violated (f : Nat) (h1 : 2^52 ≤ f) (h2 : f ≤ 2^52 + 2^34) :
    Fl.Valid .double (.fin false f 1) ∧ showFl .double (.fin false f 1) = .ok [49] := by
  have hp : (Fmt.double.p : Int) = 53 := rfl
  refine ⟨⟨h1, ?_, by decide, ?_⟩, ?_⟩
  · show f < 2^53
    omega
  · show 2^(_ : Int).toNat ∣ f
    have : (Fmt.double.emin - (1 - (Fmt.double.p : Int))).toNat = 0 := by decide
    rw [this]
    exact one_dvd _
  · have e0 : expo f (2^52) = 0 := by
      unfold expo
      rw [if_pos h1]
      have : f / 2^52 = 1 := by omega
      rw [this]
      decide
    have e1 : sixDigits f (2^52) = (10^5, 0) := by
      unfold sixDigits
      rw [e0]
      have : roundEven (f * 10^(5 - (0 : Int)).toNat) (2^52 * 10^((0 : Int) - 5).toNat) = 10^5 := by
        have a : (5 - (0 : Int)).toNat = 5 := by decide
        have b : ((0 : Int) - 5).toNat = 0 := by decide
        rw [a, b]
        have q : f * 10^5 / (2^52 * 10^0) = 10^5 := by omega
        unfold roundEven
        rw [q, if_pos (by left; omega)]
      simp only [this]
      decide
    have : showFl .double (.fin false f 1) = .ok ((if false then [45] else []) ++ formatG (sixDigits f (2^52)).1
        (sixDigits f (2^52)).2) := by
      unfold showFl
      have a : ((1 : Int) - (Fmt.double.p : Int)).toNat = 0 := by decide
      have b : ((Fmt.double.p : Int) - 1).toNat = 52 := by decide
      simp only [a, b, pow_zero, mul_one]
    rw [this, e1]
    decide +kernel

/-- C120 is violated for `float` as well: `1` and the next number. -/
theorem C120_float_violated : ∃ x y : Fl, x ≠ y ∧ x.Valid .single ∧ y.Valid .single ∧ showFl .single x = showFl .single y :=
  ⟨.fin false (2^23) 1, .fin false (2^23 + 1) 1, by decide, by decide, by decide, by decide +kernel⟩

end Verif
