import Verif.Lemmas.Format
/-
C149: what showing values has to do with the format settings of the stream.
-/
namespace Verif
namespace Printing
open Unicode

/-- C149, the part that holds: on a stream in base 10 without field width, whatever its fill character is, showing a value
writes the text of the value and nothing else, and shows it if and only if it can be shown at all. Missing: other bases (see
`C149_hex_violated`). -/
theorem C149_text_partial (t : Ty) (v : t.Val) (o : Sink) (hb : o.hex = false) (hw : o.width = 0) (s : Text) :
    t.show v = .ok s ↔ ∃ o', t.write v o = .ok o' ∧ o'.out = o.out ++ s := by
  rcases agreesAt_ty t v o with ⟨u, o', h1, h2, h3⟩ | ⟨h1, h2⟩
  · have h4 := h3.out hb hw
    constructor
    · intro h
      rw [h1] at h
      cases h
      exact ⟨o', h2, h4⟩
    · rintro ⟨o2, h5, h6⟩
      rw [h2] at h5
      cases h5
      rw [h4] at h6
      rw [h1, List.append_cancel_left h6]
  · exact ⟨fun h => absurd h (h1 s), fun ⟨o', h, _⟩ => absurd h (h2 o')⟩

/-- A stream with the fill character `*` and a vector of two strings with a control character and a backslash. -/
def sampleStrings : (Ty.vec (.str .utf8)).Val := [⟨[7], by intro x hx; revert x; decide⟩, ⟨[92], by intro x hx; revert x; decide⟩]

example : ∃ o', (Ty.vec (.str .utf8)).write sampleStrings ⟨[62], false, 42, 0⟩ = .ok o' ∧
    o'.out = 62 :: [91, 32, 34, 92, 120, 48, 55, 34, 32, 40, 48, 55, 41, 44, 32, 34, 92, 92, 34, 32, 40, 53, 99, 41, 32, 93] :=
  ⟨⟨62 :: [91, 32, 34, 92, 120, 48, 55, 34, 32, 40, 48, 55, 41, 44, 32, 34, 92, 92, 34, 32, 40, 53, 99, 41, 32, 93], false, 48, 0⟩,
    by decide +kernel, rfl⟩

/-- C149, the part that holds: showing a value keeps the base of the stream, whatever the base is, leaves no field width, and
keeps the fill character if there is no nonempty string in the value. Missing: the fill character in all cases (see
`C149_fill_violated`). -/
theorem C149_settings_partial (t : Ty) (v : t.Val) (o o' : Sink) (h : t.write v o = .ok o') :
    o'.hex = o.hex ∧ o'.width = 0 ∧ (¬t.HasString v → o'.fill = o.fill) := by
  rcases agreesAt_ty t v o with ⟨u, o2, h1, h2, h3⟩ | ⟨h1, h2⟩
  · rw [h] at h2
    cases h2
    exact ⟨h3.hex, h3.width, h3.kept⟩
  · exact absurd h (h2 o')

example : (Ty.vec .int).write ([16, -1] : List Int) ⟨[], true, 42, 6⟩ =
    .ok ⟨[42, 42, 42, 42, 91, 32, 49, 48, 44, 32] ++ List.replicate 16 102 ++ [32, 93], true, 42, 0⟩ := by decide +kernel

/-- C149 is violated: showing any value in which there is a nonempty string leaves `0` as the fill character of the stream, so
what the user writes next into a field is filled with zeros, whatever their fill character was. -/
theorem C149_fill_violated (t : Ty) (v : t.Val) (hv : t.HasString v) (o o' : Sink) (h : t.write v o = .ok o') (w : Nat)
    (s : Text) : o'.fill = 48 ∧
      (Sink.put s { o' with width := w }).out = o'.out ++ List.replicate (w - s.length) 48 ++ s := by
  rcases agreesAt_ty t v o with ⟨u, o2, h1, h2, h3⟩ | ⟨h1, h2⟩
  · rw [h] at h2
    cases h2
    have := h3.filled hv
    exact ⟨this, by simp only [Sink.put, this]⟩
  · exact absurd h (h2 o')

/-- The text `7` in a field of 3 characters, after `"a" (61)` was shown on a fresh stream. -/
example : ∃ o', (Ty.str .utf8).write ⟨[97], by intro x hx; revert x; decide⟩ ⟨[], false, 32, 0⟩ = .ok o' ∧
    (Sink.put [55] { o' with width := 3 }).out = [34, 97, 34, 32, 40, 54, 49, 41] ++ [48, 48, 55] :=
  ⟨⟨[34, 97, 34, 32, 40, 54, 49, 41], false, 48, 0⟩, by decide +kernel, by decide +kernel⟩

/-- C149 is violated: the text of a value depends on the base of the stream. On a stream that was left in base 16, 16 is shown
as 10 is shown on a fresh stream. -/
theorem C149_hex_violated (out : Text) (fill : Nat) :
    ∃ o o', Ty.int.write (16 : Int) ⟨out, true, fill, 0⟩ = .ok o ∧ Ty.int.write (10 : Int) ⟨out, false, fill, 0⟩ = .ok o' ∧
      o.out = o'.out := by
  refine ⟨_, _, rfl, rfl, ?_⟩
  have : hexDigits (16 % 2^64 : Int).toNat = dec (10 : Int).natAbs := by decide +kernel
  simp [Sink.putInt, Sink.put] at this ⊢
  exact this

/-- C149 is violated: a field width that is set when a value is shown applies to the first piece of its text. Here a vector is
shown on a stream with field width 4. -/
theorem C149_width_violated (t : Ty) (out : Text) (fill : Nat) :
    ∃ o', (Ty.vec t).write ([] : List t.Val) ⟨out, false, fill, 4⟩ = .ok o' ∧
      o'.out = out ++ [fill, fill] ++ [91, 32, 32, 93] := by
  refine ⟨_, rfl, ?_⟩
  simp [Sink.put, List.replicate]

end Printing
end Verif
