import Verif.Props.Unicode
/-! C32 (shrinking of encoded strings), C65, C82, C83 (displaying encoded strings). -/
namespace Verif
namespace Unicode
open Shr BinSearch Random ListLike Containers
variable {σ : Type}

/-! ### C32 -/

section
variable {F : List Nat → Nat → Prop} {enc : Nat → Outcome (List Nat)} {dec : List Nat → Outcome Nat}
  {step : List Nat → Outcome (Option Nat)}

theorem Codec.generated (H : Codec F enc dec step) (hE : ∀ c bs, enc c = .ok bs → ∃ c', F bs c')
    (R : Rng σ) (trailer : List Nat) (g : Gen σ Nat) (minSize maxSize : Nat) (h : minSize ≤ maxSize)
    (hb : maxSize < 2 ^ 32) (s s' : σ) (t : Shr (List Nat))
    (e : arbiStringLike R enc (fun cs => validLoop step cs.length cs) trailer g minSize maxSize s = .ok (t, s')) :
    ∃ s₁ xs, R.draw s minSize maxSize = ((xs.length : Int), s₁) ∧ g.Draws s₁ xs s' ∧
    ∃ codes : List Nat, (∀ c ∈ codes, c.isValidChar) ∧ minSize ≤ codes.length ∧ codes.length ≤ maxSize ∧
      codes.length = (xs.map Shr.value).length ∧ encodeAll enc (xs.map Shr.value) = .ok t.value ∧
      encodeAll enc codes = .ok t.value ∧
      ∀ ys, Reach t ys ↔ ∃ k, minSize ≤ k ∧ k ≤ codes.length ∧
        (encodeAll enc (codes.take k) = .ok ys ∨
          ∃ v, minSize + v < k ∧ encodeAll enc ((codes.take k).drop (minSize + v)) = .ok ys) := by
  unfold arbiStringLike at e
  obtain ⟨v, s1, e1, h1, h2, hdr⟩ := getRandomSize_draw R s h hb
  rw [e1] at e
  simp only [Outcome.ok_bind, Outcome.bind_eq_ok] at e
  obtain ⟨⟨chars, positions, s2⟩, e2, r, e3, e4⟩ := e
  obtain ⟨codes, hl, hv, hc, hpl, hp⟩ := fillChars_ok hE H g _ _ _ _ _ _ e2
  obtain ⟨xs, bs, hd, hxl, hxe, hxc⟩ := fillChars_draws enc g _ _ _ _ _ _ e2
  cases r with
  | none => simp at e4
  | some n =>
    simp only [Outcome.bind_eq_ok] at e4
    obtain ⟨t', e5, e6⟩ := e4
    cases e6
    have hc' : chars = bytesOf enc codes := by simpa using hc
    subst hc'
    rw [← hl] at e5
    have hm : minSize ≤ codes.length := by omega
    have hpos : Positions enc codes positions := ⟨by omega, fun i hi => by
      have := hp i (by omega); simpa using this⟩
    rw [H.shrinkStringLike_eq hv hpos trailer hm] at e5
    cases e5
    have henc : ∀ l : List Nat, (∀ c ∈ l, c.isValidChar) → encodeAll enc l = .ok (bytesOf enc l) := fun l hl =>
      (H.encodes (H.enc_bytesOf hl)).1
    have hval : ((shrinkString codes minSize).map (bytesOf enc)).value = bytesOf enc codes := by
      simp only [value_map, shrinkString, value_concat, shrinkRear, bsNat_value]
      rw [List.take_of_length_le (by omega)]
    refine ⟨s1, xs, by rw [hdr, hxl]; congr 1; omega, hd, codes, hv, by omega, by omega,
      by rw [List.length_map]; omega, ?_, by rw [hval]; exact henc _ hv, fun ys => ?_⟩
    · rw [hval, hxe]; simpa using hxc.symm
    rw [reach_map]
    have ht : ∀ k, ∀ c ∈ codes.take k, c.isValidChar := fun k c h => hv c (List.mem_of_mem_take h)
    constructor
    · rintro ⟨w, hw, rfl⟩
      obtain ⟨k, h1, h2, hk⟩ := (C31_reachable codes minSize hm w).1 hw
      refine ⟨k, h1, h2, ?_⟩
      rcases hk with rfl | ⟨v, hv', rfl⟩
      · exact .inl (henc _ (ht k))
      · exact .inr ⟨v, hv', henc _ fun c h => ht k c (List.mem_of_mem_drop h)⟩
    · rintro ⟨k, h1, h2, hk⟩
      rcases hk with hk | ⟨v, hv', hk⟩
      · rw [henc _ (ht k)] at hk
        cases hk
        exact ⟨_, (C31_reachable codes minSize hm _).2 ⟨k, h1, h2, .inl rfl⟩, rfl⟩
      · rw [henc _ fun c h => ht k c (List.mem_of_mem_drop h)] at hk
        cases hk
        exact ⟨_, (C31_reachable codes minSize hm _).2 ⟨k, h1, h2, .inr ⟨v, hv', rfl⟩⟩, rfl⟩

theorem Codec.fill_total (H : Codec F enc dec step) (g : Gen σ Nat)
    (hg : ∀ s, ∃ x s', g s = .ok (x, s') ∧ x.value.isValidChar) :
    ∀ n pre s, ∃ r, fillChars enc g n pre s = .ok r := by
  intro n
  induction n with
  | zero => exact fun pre s => ⟨_, rfl⟩
  | succ n ih =>
    intro pre s
    obtain ⟨x, s1, e1, hx⟩ := hg s
    obtain ⟨bs, hf⟩ := H.ofValid hx
    obtain ⟨⟨c, p, s2⟩, e2⟩ := ih (pre ++ bs) s1
    exact ⟨(c, pre.length :: p, s2), by simp [fillChars, e1, H.encode hf, e2]⟩

theorem Codec.generates (H : Codec F enc dec step) (hE : ∀ c bs, enc c = .ok bs → ∃ c', F bs c')
    (R : Rng σ) (trailer : List Nat) (htr : ∃ l, (∀ c ∈ l, c.isValidChar) ∧ encodeAll enc l = .ok trailer)
    (g : Gen σ Nat) (minSize maxSize : Nat) (h : minSize ≤ maxSize)
    (hb : maxSize < 2 ^ 32) (hg : ∀ s, ∃ x s', g s = .ok (x, s') ∧ x.value.isValidChar) (s : σ) :
    ∃ r, arbiStringLike R enc (fun cs => validLoop step cs.length cs) trailer g minSize maxSize s = .ok r := by
  unfold arbiStringLike
  obtain ⟨v, s1, e1, h1, h2⟩ := getRandomSize_ok R (a := minSize) (b := maxSize + 1) s (by omega) (by omega)
  obtain ⟨⟨chars, positions, s2⟩, e2⟩ := H.fill_total g hg v.toNat [] s1
  obtain ⟨codes, hl, hv, hc, hpl, hp⟩ := fillChars_ok hE H g _ _ _ _ _ _ e2
  obtain ⟨l, hlv, hle⟩ := htr
  have hc' : chars = bytesOf enc codes := by simpa using hc
  subst hc'
  have hE1 := (H.enc_bytesOf hv).append ((H.enc_iff hlv).2 hle)
  have hE2 := H.encodes hE1
  have hval := (H.valid_some (H.enc_bytes hE1)).2 ⟨codes ++ l, rfl, hE2.2, hE2.1⟩
  have hm : minSize ≤ codes.length := by omega
  have hpos : Positions enc codes positions := ⟨by omega, fun i hi => by
    have := hp i (by omega); simpa using this⟩
  have e5 := H.shrinkStringLike_eq hv hpos trailer hm
  rw [hl] at e5
  refine ⟨((shrinkString codes minSize).map (bytesOf enc), s2), ?_⟩
  simp only [e1, e2, hval, e5, Outcome.ok_bind]
end

theorem utf8_form {c : Nat} {bs : List Nat} (h : encodeUTF8 c = .ok bs) : ∃ c', Form8 bs c' := by
  by_cases hc : c.isValidChar
  · obtain ⟨bs', hf⟩ := form8_of_valid hc
    rw [hf.encode] at h; cases h; exact ⟨c, hf⟩
  · rw [encodeUTF8_throws hc] at h; cases h

theorem cesu8_form {c : Nat} {bs : List Nat} (h : encodeCESU8 c = .ok bs) : ∃ c', FormC bs c' := by
  by_cases hc : c.isValidChar
  · obtain ⟨bs', hf⟩ := formC_of_valid hc
    rw [hf.encode] at h; cases h; exact ⟨c, hf⟩
  · rw [encodeCESU8_throws hc] at h; cases h

theorem surrogates_form {c : Nat} {p : Nat × Nat × Nat × Nat} (h : surrogates c = .ok p) :
    0xD8 ≤ p.1 ∧ p.1 ≤ 0xDB ∧ p.2.1 < 256 ∧ 0xDC ≤ p.2.2.1 ∧ p.2.2.1 ≤ 0xDF ∧ p.2.2.2 < 256 := by
  unfold surrogates at h
  dsimp only at h
  split at h
  · cases h
  · rename_i hb
    simp only [Bool.not_eq_true', Bool.not_eq_false, Bool.and_eq_true, btw_iff] at hb
    cases h
    dsimp only
    omega

theorem utf16BE_form {c : Nat} {bs : List Nat} (h : encodeUTF16BE c = .ok bs) : ∃ c', FormBE bs c' := by
  unfold encodeUTF16BE at h
  split at h
  · cases h
    exact ⟨_, .one _ _ (Nat.mod_lt _ (by decide)) (Nat.mod_lt _ (by decide)) (by omega)⟩
  · simp only [Outcome.bind_eq_ok] at h
    obtain ⟨p, hp, h⟩ := h
    cases h
    have := surrogates_form hp
    exact ⟨_, .pair _ _ _ _ this.1 this.2.1 this.2.2.1 this.2.2.2.1 this.2.2.2.2.1 this.2.2.2.2.2⟩

theorem utf16LE_form {c : Nat} {bs : List Nat} (h : encodeUTF16LE c = .ok bs) : ∃ c', FormLE bs c' := by
  unfold encodeUTF16LE at h
  split at h
  · cases h
    exact ⟨_, .one _ _ (Nat.mod_lt _ (by decide)) (Nat.mod_lt _ (by decide)) (by omega)⟩
  · simp only [Outcome.bind_eq_ok] at h
    obtain ⟨p, hp, h⟩ := h
    cases h
    have := surrogates_form hp
    exact ⟨_, .pair _ _ _ _ this.1 this.2.1 this.2.2.1 this.2.2.2.1 this.2.2.2.2.1 this.2.2.2.2.2⟩

/-- What C32 says about the result `t` of a generator for the encoding `enc` that has drawn the code points `drawn`:
`t` is their encoding; for some sequence of as many scalar values, `t` is its encoding (the same sequence, unless the
encoder accepts other numbers, see C62), and the strings reachable by shrinking are the encodings of its prefixes with at least
`minSize` characters and of what remains of such a prefix of length `k` when its first `minSize + v < k` characters
are removed. A specification (no file of /repo). -/
def ShrinksAtBoundaries (enc : Nat → Outcome (List Nat)) (minSize maxSize : Nat) (drawn : List Nat)
    (t : Shr (List Nat)) : Prop :=
  ∃ codes : List Nat, (∀ c ∈ codes, c.isValidChar) ∧ minSize ≤ codes.length ∧ codes.length ≤ maxSize ∧
    codes.length = drawn.length ∧ encodeAll enc drawn = .ok t.value ∧ encodeAll enc codes = .ok t.value ∧
    ∀ ys, Reach t ys ↔ ∃ k, minSize ≤ k ∧ k ≤ codes.length ∧
      (encodeAll enc (codes.take k) = .ok ys ∨
        ∃ v, minSize + v < k ∧ encodeAll enc ((codes.take k).drop (minSize + v)) = .ok ys)

/-- C32, UTF-8, for any generator of code points: the number of characters is drawn uniformly from
`minSize..maxSize`, then the characters one after the other. -/
theorem C32_utf8 (R : Rng σ) (g : Gen σ Nat) (minSize maxSize : Nat) (h : minSize ≤ maxSize) (hb : maxSize < 2 ^ 32)
    (s s' : σ) (t : Shr (List Nat)) (e : arbiUTF8String R g minSize maxSize s = .ok (t, s')) :
    ∃ s₁ xs, R.draw s minSize maxSize = ((xs.length : Int), s₁) ∧ g.Draws s₁ xs s' ∧
      ShrinksAtBoundaries encodeUTF8 minSize maxSize (xs.map value) t :=
  codec8.generated (fun _ _ h => utf8_form h) R [] g minSize maxSize h hb s s' t e

/-- C32, CESU-8. -/
theorem C32_cesu8 (R : Rng σ) (g : Gen σ Nat) (minSize maxSize : Nat) (h : minSize ≤ maxSize) (hb : maxSize < 2 ^ 32)
    (s s' : σ) (t : Shr (List Nat)) (e : arbiCESU8String R g minSize maxSize s = .ok (t, s')) :
    ∃ s₁ xs, R.draw s minSize maxSize = ((xs.length : Int), s₁) ∧ g.Draws s₁ xs s' ∧
      ShrinksAtBoundaries encodeCESU8 minSize maxSize (xs.map value) t :=
  codecC.generated (fun _ _ h => cesu8_form h) R [] g minSize maxSize h hb s s' t e

/-- C32, UTF-16 BE. -/
theorem C32_utf16be (R : Rng σ) (g : Gen σ Nat) (minSize maxSize : Nat) (h : minSize ≤ maxSize) (hb : maxSize < 2 ^ 32)
    (s s' : σ) (t : Shr (List Nat)) (e : arbiUTF16BEString R g minSize maxSize s = .ok (t, s')) :
    ∃ s₁ xs, R.draw s minSize maxSize = ((xs.length : Int), s₁) ∧ g.Draws s₁ xs s' ∧
      ShrinksAtBoundaries encodeUTF16BE minSize maxSize (xs.map value) t :=
  codecBE.generated (fun _ _ h => utf16BE_form h) R [0, 0] g minSize maxSize h hb s s' t e

/-- C32, UTF-16 LE. -/
theorem C32_utf16le (R : Rng σ) (g : Gen σ Nat) (minSize maxSize : Nat) (h : minSize ≤ maxSize) (hb : maxSize < 2 ^ 32)
    (s s' : σ) (t : Shr (List Nat)) (e : arbiUTF16LEString R g minSize maxSize s = .ok (t, s')) :
    ∃ s₁ xs, R.draw s minSize maxSize = ((xs.length : Int), s₁) ∧ g.Draws s₁ xs s' ∧
      ShrinksAtBoundaries encodeUTF16LE minSize maxSize (xs.map value) t :=
  codecLE.generated (fun _ _ h => utf16LE_form h) R [0, 0] g minSize maxSize h hb s s' t e

/-- C32. Every string reached by shrinking is the encoding of contiguous characters of the generated string, so no
character is cut and the string is valid again. -/
theorem C32_substring (enc : Nat → Outcome (List Nat)) (minSize maxSize : Nat) (drawn : List Nat)
    (t : Shr (List Nat)) (h : ShrinksAtBoundaries enc minSize maxSize drawn t) : ∃ codes, encodeAll enc codes = .ok t.value ∧
      ∀ ys, Reach t ys → ∃ sub, sub <:+: codes ∧ encodeAll enc sub = .ok ys := by
  obtain ⟨codes, _, _, _, _, _, he, hr⟩ := h
  refine ⟨codes, he, fun ys hy => ?_⟩
  obtain ⟨k, _, _, hk⟩ := (hr ys).1 hy
  rcases hk with hk | ⟨v, _, hk⟩
  · exact ⟨_, (List.take_prefix _ _).isInfix, hk⟩
  · exact ⟨_, (List.drop_suffix _ _).isInfix.trans (List.take_prefix _ _).isInfix, hk⟩

/-- C32. With a generator of scalar values all four generators return: the self-check never throws and shrinking
never throws or reads out of bounds. -/
theorem C32_total (R : Rng σ) (g : Gen σ Nat) (minSize maxSize : Nat) (h : minSize ≤ maxSize) (hb : maxSize < 2 ^ 32)
    (hg : ∀ s, ∃ x s', g s = .ok (x, s') ∧ x.value.isValidChar) (s : σ) :
    (∃ r, arbiUTF8String R g minSize maxSize s = .ok r) ∧ (∃ r, arbiCESU8String R g minSize maxSize s = .ok r) ∧
    (∃ r, arbiUTF16BEString R g minSize maxSize s = .ok r) ∧ (∃ r, arbiUTF16LEString R g minSize maxSize s = .ok r) :=
  ⟨codec8.generates (fun _ _ h => utf8_form h) R [] ⟨[], by simp, rfl⟩ g minSize maxSize h hb hg s,
    codecC.generates (fun _ _ h => cesu8_form h) R [] ⟨[], by simp, rfl⟩ g minSize maxSize h hb hg s,
    codecBE.generates (fun _ _ h => utf16BE_form h) R [0, 0] ⟨[0], by decide, rfl⟩ g minSize maxSize h hb hg s,
    codecLE.generates (fun _ _ h => utf16LE_form h) R [0, 0] ⟨[0], by decide, rfl⟩ g minSize maxSize h hb hg s⟩

/-- A generator of code points that meets the hypothesis of `C32_total`: it always gives the euro sign. -/
example (R : Rng σ) (s : σ) : ∃ r, arbiUTF8String R (fun s => .ok (leaf 0x20ac, s)) 1 5 s = .ok r :=
  (C32_total R _ 1 5 (by decide) (by decide) (fun s => ⟨_, s, rfl, by decide⟩) s).1

/-- The shrink tree of the two-character string U+20AC U+0041 with `minSize = 0`. -/
example : (shrinkStringLike isValidUTF8 [0xe2, 0x82, 0xac, 0x41] 0 2 [0, 3, 4] : Outcome _) =
    .ok ((shrinkString [0x20ac, 0x41] 0).map (bytesOf encodeUTF8)) :=
  codec8.shrinkStringLike_eq (codes := [0x20ac, 0x41]) (by decide)
    ⟨rfl, fun i hi => by
      have : i = 0 ∨ i = 1 ∨ i = 2 := by simp at hi; omega
      rcases this with rfl | rfl | rfl <;> decide⟩ [] (by decide)

/-! ### C65 -/

/-- C65 is violated: displaying any byte string of odd length as UTF-16 reads past its end, in both byte orders. -/
theorem C65_violated_odd (cs : List Nat) (hb : Bytes cs) (h : cs.length % 2 = 1) :
    printUTF16BE cs = .ub ∧ printUTF16LE cs = .ub := by
  have key : ∀ (step : List Nat → Outcome (List Tok × Option Nat)),
      (∀ a l, (a :: l).length % 2 = 1 → step (a :: l) = .ub ∨ ∃ ts k, step (a :: l) = .ok (ts, some k) ∧
        (k = 1 ∨ k = 3) ∧ k < (a :: l).length) →
      ∀ fuel cs, cs.length ≤ fuel → cs.length % 2 = 1 → printLoop16 step fuel cs = .ub := by
    intro step hs fuel
    induction fuel with
    | zero => intro cs h1 h2; omega
    | succ fuel ih =>
      intro cs h1 h2
      rcases cs with _ | ⟨a, cs⟩
      · simp at h2
      rcases hs a cs h2 with h | ⟨ts, k, h, hk, hl⟩
      · simp [printLoop16, h]
      · have := ih (cs.drop k) (by simp at h1 ⊢; omega) (by simp at h2 hl ⊢; omega)
        simp [printLoop16, h, this]
  constructor
  · refine key _ ?_ _ cs (Nat.le_refl _) h
    intro a l hl
    unfold printUTF16BEStep
    rcases l with _ | ⟨b, _ | ⟨c, l⟩⟩
    · left
      by_cases h0 : a = 0
      · subst h0; simp [rd]
      · by_cases h1 : a ≤ 0xD7 ∨ 0xE0 ≤ a <;> simp [h0, h1, rd]
    · simp at hl
    · by_cases h0 : a = 0
      · subst h0
        by_cases hb : b ≤ 0x7f
        · right; exact ⟨_, 1, by simp [hb]; rfl, .inl rfl, by simp⟩
        · right; exact ⟨_, 1, by simp [hb]; rfl, .inl rfl, by simp⟩
      · by_cases h1 : a ≤ 0xD7 ∨ 0xE0 ≤ a
        · right; exact ⟨_, 1, by simp [h0, h1]; rfl, .inl rfl, by simp⟩
        · rcases l with _ | ⟨d, l⟩
          · left; simp [h0, h1]; simp [rd]
          · right
            exact ⟨[.code (combine (a * 256 + b) (c * 256 + d))], 3, by
              simp [h0, h1, show ¬ (l.length + 1 + 1 + 1 + 1 < 4) by omega,
                show ¬ (l.length + 1 + 1 + 1 + 1 < 2) by omega], .inr rfl, by simp⟩
  · refine key _ ?_ _ cs (Nat.le_refl _) h
    intro a l hl
    unfold printUTF16LEStep
    rcases l with _ | ⟨b, _ | ⟨c, l⟩⟩
    · left; simp [rd]
    · simp at hl
    · by_cases h0 : b = 0 ∧ a ≤ 0x7f
      · obtain ⟨rfl, hb⟩ := h0
        right; exact ⟨_, 1, by simp [hb]; rfl, .inl rfl, by simp⟩
      · by_cases h1 : b ≤ 0xD7 ∨ 0xE0 ≤ b
        · right; exact ⟨_, 1, by simp [h0, h1]; rfl, .inl rfl, by simp⟩
        · rcases l with _ | ⟨d, l⟩
          · left; simp [h0, h1]; simp [rd]
          · right
            exact ⟨[.code (combine (b * 256 + a) (d * 256 + c))], 3, by
              simp [h0, h1, show ¬ (l.length + 1 + 1 + 1 + 1 < 4) by omega,
                show ¬ (l.length + 1 + 1 + 1 + 1 < 2) by omega], .inr rfl, by simp⟩

example : printUTF16BE [0, 0x41, 0] = .ub ∧ printUTF16LE [0x41] = .ub := by decide

/-- C65 is violated for strings of even length too: the display of a string ending in half of a surrogate pair reads
past its end, in both byte orders. -/
theorem C65_violated_surrogate : printUTF16BE [0, 0x41, 0xD8, 0x3D] = .ub ∧ printUTF16LE [0x41, 0, 0x3D, 0xD8] = .ub := by
  decide

section
variable {F : List Nat → Nat → Prop} {enc : Nat → Outcome (List Nat)} {dec : List Nat → Outcome Nat}
  {step : List Nat → Outcome (Option Nat)}

theorem Codec.print16 (H : Codec F enc dec step) {pstep : List Nat → Outcome (List Tok × Option Nat)}
    (hp : ∀ {bs c}, F bs c → ∀ rest, pstep (bs ++ rest) =
      .ok ([if c ≤ 0x7f then .wide c else .code c], some (bs.length - 1))) {codes cs : List Nat} (h : Enc F codes cs) :
    ∀ fuel, cs.length ≤ fuel → printLoop16 pstep fuel cs = .ok (codes.map fun c => if c ≤ 0x7f then .wide c else .code c) := by
  induction h with
  | nil => intro fuel _; cases fuel <;> rfl
  | @cons c bs codes cs hf _ ih =>
    intro fuel hl
    have h1 := List.length_pos_of_ne_nil (H.bytes hf).1
    rw [List.length_append] at hl
    rcases fuel with _ | fuel
    · omega
    have e := hp hf cs
    have hd := fun a l (he : a :: l = bs ++ cs) => H.drop hf he
    generalize hcs : bs ++ cs = l at *
    rcases l with _ | ⟨a, l⟩
    · rw [List.append_eq_nil_iff] at hcs
      exact absurd hcs.1 (H.bytes hf).1
    · have := ih fuel (by omega)
      simp only [printLoop16, e, Outcome.ok_bind, hd a l rfl, this, List.map_cons, List.cons_append, List.nil_append]
end

/-- C65 for valid strings: nothing is read out of bounds and the characters are shown in order. Missing: malformed
strings, for which the claim is false. -/
theorem C65_valid_partial (codes cs : List Nat) (hv : ∀ c ∈ codes, c.isValidChar) :
    (encodeAll encodeUTF16BE codes = .ok cs →
      printUTF16BE cs = .ok (codes.map fun c => if c ≤ 0x7f then .wide c else .code c)) ∧
    (encodeAll encodeUTF16LE codes = .ok cs →
      printUTF16LE cs = .ok (codes.map fun c => if c ≤ 0x7f then .wide c else .code c)) :=
  ⟨fun h => codecBE.print16 FormBE.print ((codecBE.enc_iff hv).2 h) _ (Nat.le_refl _),
    fun h => codecLE.print16 FormLE.print ((codecLE.enc_iff hv).2 h) _ (Nat.le_refl _)⟩

example : printUTF16BE [0, 0x41, 0xD8, 0x3D, 0xDE, 0] = .ok [.wide 0x41, .code 0x1F600] := by decide

/-! ### C82 -/

section
variable {F : List Nat → Nat → Prop} {enc : Nat → Outcome (List Nat)} {dec : List Nat → Outcome Nat}
  {step : List Nat → Outcome (Option Nat)}

/-- The items the byte-oriented printers write. -/
def Tok.plain : Tok → Prop
  | .ascii b => b ≤ 0x7f
  | .wide _ => False
  | .hex b => 0x80 ≤ b ∧ b < 256
  | .code c => 0x80 ≤ c ∧ c.isValidChar

theorem Codec.print8 (H : Codec F enc dec step) {pstep : List Nat → Outcome (Tok × Nat)}
    (hp : ∀ {bs c}, F bs c → ∀ rest, pstep (bs ++ rest) =
      .ok (if c ≤ 0x7f then .ascii c else .code c, bs.length - 1))
    (h1 : ∀ {bs c}, F bs c → c ≤ 0x7f → bs = [c])
    (hc : ∀ a cs, (∃ bs rest c, a :: cs = bs ++ rest ∧ F bs c) ∨ (pstep (a :: cs) = .ok (.hex a, 0) ∧ 0x80 ≤ a)) :
    ∀ fuel cs, cs.length ≤ fuel → Bytes cs → ∃ ts, printLoop pstep fuel cs = .ok ts ∧ (∀ t ∈ ts, t.plain) ∧
      ts.flatMap (Tok.source enc) = cs := by
  intro fuel
  induction fuel with
  | zero =>
    intro cs hl _
    have : cs = [] := List.length_eq_zero_iff.1 (by omega)
    subst this
    exact ⟨[], rfl, by simp, rfl⟩
  | succ fuel ih =>
    intro cs hl hb
    rcases cs with _ | ⟨a, cs⟩
    · exact ⟨[], rfl, by simp, rfl⟩
    simp only [List.length_cons] at hl
    rcases hc a cs with ⟨bs, rest, c, e, hf⟩ | ⟨e, ha⟩
    · have hd := H.drop hf e
      have he := hp hf rest
      rw [← e] at he
      have hpos := List.length_pos_of_ne_nil (H.bytes hf).1
      have hlen := congrArg List.length e
      simp only [List.length_cons, List.length_append] at hlen
      obtain ⟨ts, h2, h3, h4⟩ := ih rest (by omega) fun x hx => hb x (by rw [e]; exact List.mem_append_right _ hx)
      refine ⟨(if c ≤ 0x7f then .ascii c else .code c) :: ts, ?_, ?_, ?_⟩
      · simp only [printLoop, he, Outcome.ok_bind, hd, h2]
      · intro t ht
        rcases List.mem_cons.1 ht with rfl | ht
        · by_cases h : c ≤ 0x7f
          · rw [if_pos h]; exact h
          · rw [if_neg h]; exact ⟨by omega, H.valid hf⟩
        · exact h3 t ht
      · rw [List.flatMap_cons, h4, e]
        congr 1
        by_cases h : c ≤ 0x7f
        · rw [if_pos h, h1 hf h]; rfl
        · rw [if_neg h]; simp [Tok.source, H.encode hf]
    · obtain ⟨ts, h2, h3, h4⟩ := ih cs (by omega) fun x hx => hb x (by simp [hx])
      refine ⟨.hex a :: ts, ?_, ?_, ?_⟩
      · simp only [printLoop, e, Outcome.ok_bind, List.drop_zero, h2]
      · intro t ht
        rcases List.mem_cons.1 ht with rfl | ht
        · exact ⟨ha, hb a (by simp)⟩
        · exact h3 t ht
      · rw [List.flatMap_cons, h4]; rfl
end

theorem utf8_print (cs : List Nat) (hb : Bytes cs) : ∃ ts, printUTF8 cs = .ok ts ∧ (∀ t ∈ ts, t.plain) ∧
    ts.flatMap (Tok.source encodeUTF8) = cs :=
  codec8.print8 Form8.print (fun h hc => by cases h <;> first | (exfalso; omega) | rfl)
    (fun a cs => (utf8_cases a cs).imp id fun h => ⟨h.2.2.1, h.2.2.2⟩) _ cs (Nat.le_refl _) hb

theorem cesu8_print (cs : List Nat) (hb : Bytes cs) : ∃ ts, printCESU8 cs = .ok ts ∧ (∀ t ∈ ts, t.plain) ∧
    ts.flatMap (Tok.source encodeCESU8) = cs :=
  codecC.print8 FormC.print (fun h hc => by cases h <;> first | (exfalso; omega) | rfl)
    (fun a cs => (cesu8_cases a cs).imp id fun h => ⟨h.2.2.1, h.2.2.2⟩) _ cs (Nat.le_refl _) hb

/-- C82. Displaying any byte string as UTF-8 returns without reading out of bounds, and the items shown, characters
and single bytes in hexadecimal, stand for exactly the bytes of the string, in order. -/
theorem C82_utf8 (cs : List Nat) (hb : Bytes cs) : ∃ ts, printUTF8 cs = .ok ts ∧
    ts.flatMap (Tok.source encodeUTF8) = cs := by
  obtain ⟨ts, h1, _, h2⟩ := utf8_print cs hb
  exact ⟨ts, h1, h2⟩

/-- C82, CESU-8. -/
theorem C82_cesu8 (cs : List Nat) (hb : Bytes cs) : ∃ ts, printCESU8 cs = .ok ts ∧
    ts.flatMap (Tok.source encodeCESU8) = cs := by
  obtain ⟨ts, h1, _, h2⟩ := cesu8_print cs hb
  exact ⟨ts, h1, h2⟩

/-- C82. The characters of a valid string are shown as such. -/
theorem C82_valid (codes cs : List Nat) (hv : ∀ c ∈ codes, c.isValidChar) :
    (encodeAll encodeUTF8 codes = .ok cs →
      printUTF8 cs = .ok (codes.map fun c => if c ≤ 0x7f then .ascii c else .code c)) ∧
    (encodeAll encodeCESU8 codes = .ok cs →
      printCESU8 cs = .ok (codes.map fun c => if c ≤ 0x7f then .ascii c else .code c)) := by
  have key : ∀ {F enc dec step} (H : Codec F enc dec step) {pstep : List Nat → Outcome (Tok × Nat)}
      (hp : ∀ {bs c}, F bs c → ∀ rest, pstep (bs ++ rest) =
        .ok (if c ≤ 0x7f then .ascii c else .code c, bs.length - 1)) {codes cs : List Nat} (h : Enc F codes cs),
      ∀ fuel, cs.length ≤ fuel →
        printLoop pstep fuel cs = .ok (codes.map fun c => if c ≤ 0x7f then .ascii c else .code c) := by
    intro F enc dec step H pstep hp codes cs h
    induction h with
    | nil => intro fuel _; cases fuel <;> rfl
    | @cons c bs codes cs hf _ ih =>
      intro fuel hl
      have h1 := List.length_pos_of_ne_nil (H.bytes hf).1
      rw [List.length_append] at hl
      rcases fuel with _ | fuel
      · omega
      have e := hp hf cs
      have hd := fun a l (he : a :: l = bs ++ cs) => H.drop hf he
      generalize hcs : bs ++ cs = l at *
      rcases l with _ | ⟨a, l⟩
      · rw [List.append_eq_nil_iff] at hcs
        exact absurd hcs.1 (H.bytes hf).1
      · have := ih fuel (by omega)
        simp only [printLoop, e, Outcome.ok_bind, hd a l rfl, this, List.map_cons]
  exact ⟨fun h => key codec8 Form8.print ((codec8.enc_iff hv).2 h) _ (Nat.le_refl _),
    fun h => key codecC FormC.print ((codecC.enc_iff hv).2 h) _ (Nat.le_refl _)⟩

example : printUTF8 [0x41, 0xe2, 0x82, 0xac, 0xe2, 0x82] = .ok [.ascii 0x41, .code 0x20ac, .hex 0xe2, .hex 0x82] := by
  decide

/-! ### C83 -/

theorem hexDigit_inj {a b : Nat} (ha : a < 16) (hb : b < 16) (h : hexDigit a = hexDigit b) : a = b := by
  unfold hexDigit at h
  split at h <;> split at h <;> omega

theorem hex2_inj {a b : Nat} (ha : a < 256) (hb : b < 256) (h1 : hexDigit (a / 16) = hexDigit (b / 16))
    (h2 : hexDigit (a % 16) = hexDigit (b % 16)) : a = b := by
  have := hexDigit_inj (by omega) (by omega) h1
  have := hexDigit_inj (by omega) (by omega) h2
  omega

theorem hex2_append {a b : Nat} (ha : a < 256) (hb : b < 256) {x y : List Nat} (h : hex2 a ++ x = hex2 b ++ y) :
    a = b ∧ x = y := by
  simp only [hex2, List.cons_append, List.nil_append, List.cons.injEq] at h
  exact ⟨hex2_inj ha hb h.1 h.2.1, h.2.2⟩

/-- How an item is shown: a single character other than a backslash, or a backslash, a letter and hexadecimal
digits. -/
theorem text_cases {t : Tok} (ht : t.plain) :
    (∃ b, t = .ascii b ∧ b ≠ 92 ∧ t.text = [b]) ∨ (t = .ascii 92 ∧ t.text = [92, 92]) ∨
    (∃ b, b < 256 ∧ (t = if b ≤ 0x7f then .ascii b else .hex b) ∧ t.text = 92 :: 120 :: hex2 b) ∨
    (∃ c, c < 0x10000 ∧ t = .code c ∧ t.text = 92 :: 117 :: (hex2 (c / 2 ^ 8 % 2 ^ 8) ++ hex2 (c % 2 ^ 8))) ∨
    (∃ c, c < 0x110000 ∧ t = .code c ∧
      t.text = 92 :: 85 :: (hex2 (c / 2 ^ 16 % 2 ^ 8) ++ (hex2 (c / 2 ^ 8 % 2 ^ 8) ++ hex2 (c % 2 ^ 8)))) := by
  rcases t with b | b | b | c
  · simp only [Tok.plain] at ht
    by_cases h1 : b = 92
    · subst h1; exact .inr (.inl ⟨rfl, rfl⟩)
    by_cases h2 : b < 0x20 ∨ b = 0x7f
    · refine .inr (.inr (.inl ⟨b, by omega, by rw [if_pos ht], ?_⟩))
      simp [Tok.text, h1, h2]
    · refine .inl ⟨b, rfl, h1, ?_⟩
      simp [Tok.text, h1, h2]
  · exact ht.elim
  · obtain ⟨h1, h2⟩ := ht
    exact .inr (.inr (.inl ⟨b, h2, by rw [if_neg (by omega)], rfl⟩))
  · obtain ⟨h1, h2⟩ := ht
    unfold Nat.isValidChar at h2
    by_cases h : c < 0x10000
    · refine .inr (.inr (.inr (.inl ⟨c, h, rfl, ?_⟩)))
      simp only [Tok.text, if_pos h]; rfl
    · refine .inr (.inr (.inr (.inr ⟨c, by omega, rfl, ?_⟩)))
      simp only [Tok.text, if_neg h, List.append_assoc]; rfl

/-- The text of an item determines it, whatever follows. -/
theorem text_prefix_free {t u : Tok} (ht : t.plain) (hu : u.plain) {x y : List Nat} (h : t.text ++ x = u.text ++ y) :
    t = u ∧ x = y := by
  rcases text_cases ht with ⟨b, e, hb, et⟩ | ⟨e, et⟩ | ⟨b, hb, e, et⟩ | ⟨c, hc, e, et⟩ | ⟨c, hc, e, et⟩ <;>
  rcases text_cases hu with ⟨b', e', hb', et'⟩ | ⟨e', et'⟩ | ⟨b', hb', e', et'⟩ | ⟨c', hc', e', et'⟩ |
    ⟨c', hc', e', et'⟩ <;>
  rw [et, et'] at h <;>
  simp only [List.cons_append, List.nil_append, List.cons.injEq, List.append_assoc, true_and] at h <;>
  first
    | (exfalso; omega)
    | skip
  · exact ⟨by rw [e, e', h.1], h.2⟩
  · exact ⟨by rw [e, e'], h⟩
  · obtain ⟨h1, h⟩ := hex2_append hb hb' h
    exact ⟨by rw [e, e', h1], h⟩
  · obtain ⟨h1, h⟩ := hex2_append (by omega) (by omega) h
    obtain ⟨h2, h⟩ := hex2_append (by omega) (by omega) h
    have : c = c' := by omega
    exact ⟨by rw [e, e', this], h⟩
  · obtain ⟨h1, h⟩ := hex2_append (by omega) (by omega) h
    obtain ⟨h2, h⟩ := hex2_append (by omega) (by omega) h
    obtain ⟨h3, h⟩ := hex2_append (by omega) (by omega) h
    have : c = c' := by omega
    exact ⟨by rw [e, e', this], h⟩

theorem text_inj : ∀ ts us : List Tok, (∀ t ∈ ts, t.plain) → (∀ u ∈ us, u.plain) →
    ts.flatMap Tok.text = us.flatMap Tok.text → ts = us := by
  have ne : ∀ t : Tok, t.plain → t.text ≠ [] := by
    intro t ht
    rcases text_cases ht with ⟨b, e, hb, et⟩ | ⟨e, et⟩ | ⟨b, hb, e, et⟩ | ⟨c, hc, e, et⟩ | ⟨c, hc, e, et⟩ <;>
      rw [et] <;> simp
  intro ts
  induction ts with
  | nil =>
    intro us _ hu h
    rcases us with _ | ⟨u, us⟩
    · rfl
    · simp only [List.flatMap_nil, List.flatMap_cons] at h
      exact absurd (List.append_eq_nil_iff.1 h.symm).1 (ne u (hu u (by simp)))
  | cons t ts ih =>
    intro us ht hu h
    rcases us with _ | ⟨u, us⟩
    · simp only [List.flatMap_nil, List.flatMap_cons] at h
      exact absurd (List.append_eq_nil_iff.1 h).1 (ne t (ht t (by simp)))
    · simp only [List.flatMap_cons] at h
      obtain ⟨h1, h⟩ := text_prefix_free (ht t (by simp)) (hu u (by simp)) h
      rw [h1, ih us (fun t h => ht t (by simp [h])) (fun u h => hu u (by simp [h])) h]

/-- C83. The text shown for a UTF-8 string, valid or not, determines the string. -/
theorem C83_utf8 (cs cs' : List Nat) (hb : Bytes cs) (hb' : Bytes cs') (ts ts' : List Tok)
    (h : printUTF8 cs = .ok ts) (h' : printUTF8 cs' = .ok ts') (he : ts.flatMap Tok.text = ts'.flatMap Tok.text) :
    cs = cs' := by
  obtain ⟨us, h1, h2, h3⟩ := utf8_print cs hb
  obtain ⟨us', h1', h2', h3'⟩ := utf8_print cs' hb'
  rw [h] at h1; rw [h'] at h1'
  cases h1; cases h1'
  rw [← h3, ← h3', text_inj _ _ h2 h2' he]

/-- C83, CESU-8. -/
theorem C83_cesu8 (cs cs' : List Nat) (hb : Bytes cs) (hb' : Bytes cs') (ts ts' : List Tok)
    (h : printCESU8 cs = .ok ts) (h' : printCESU8 cs' = .ok ts') (he : ts.flatMap Tok.text = ts'.flatMap Tok.text) :
    cs = cs' := by
  obtain ⟨us, h1, h2, h3⟩ := cesu8_print cs hb
  obtain ⟨us', h1', h2', h3'⟩ := cesu8_print cs' hb'
  rw [h] at h1; rw [h'] at h1'
  cases h1; cases h1'
  rw [← h3, ← h3', text_inj _ _ h2 h2' he]

/-- `\x01` for the control character, `\xe2` for a byte that starts no character, a doubled backslash. -/
example : ([.ascii 1, .hex 0xe2, .ascii 92, .code 0x20ac] : List Tok).flatMap Tok.text =
    [92, 120, 48, 49, 92, 120, 101, 50, 92, 92, 92, 117, 50, 48, 97, 99] ∧
    printUTF8 [1, 0xe2, 92, 0xe2, 0x82, 0xac] = .ok [.ascii 1, .hex 0xe2, .ascii 92, .code 0x20ac] := by decide

/-- How a character of a valid UTF-16 string is shown, expressed by the text of UTF-8 items. -/
theorem wide_text (c : Nat) : (if c ≤ 0x7f then Tok.wide c else Tok.code c).text =
    (if c < 0x20 ∨ c = 0x7f then 92 :: 117 :: (hex2 (c / 2 ^ 8 % 2 ^ 8) ++ hex2 (c % 2 ^ 8))
      else (if c ≤ 0x7f then Tok.ascii c else Tok.code c).text) := by
  by_cases h : c ≤ 0x7f
  · rw [if_pos h]
    by_cases h1 : c < 0x20 ∨ c = 0x7f
    · have h2 : ¬ c = 92 := by omega
      have e1 : c / 2 ^ 8 % 2 ^ 8 = 0 := by omega
      have e2 : c % 2 ^ 8 = c := by omega
      simp only [Tok.text, if_neg h2, if_pos h1, e1, e2]
      rfl
    · rw [if_neg h1, if_pos h]
      simp only [Tok.text, if_neg h1]
  · rw [if_neg h, if_neg (by omega), if_neg h]

theorem wide_text_inj {c c' : Nat} (hc : c.isValidChar) (hc' : c'.isValidChar) {x y : List Nat}
    (h : (if c ≤ 0x7f then Tok.wide c else Tok.code c).text ++ x =
      (if c' ≤ 0x7f then Tok.wide c' else Tok.code c').text ++ y) : c = c' ∧ x = y := by
  have plain : ∀ {c : Nat}, c.isValidChar → (if c ≤ 0x7f then Tok.ascii c else Tok.code c).plain := by
    intro c hc
    by_cases h : c ≤ 0x7f
    · rw [if_pos h]; exact h
    · rw [if_neg h]; exact ⟨by omega, hc⟩
  have inj : ∀ {c c' : Nat}, (if c ≤ 0x7f then Tok.ascii c else Tok.code c) =
      (if c' ≤ 0x7f then Tok.ascii c' else Tok.code c') → c = c' := by
    intro c c' h
    by_cases h1 : c ≤ 0x7f <;> by_cases h2 : c' ≤ 0x7f <;> simp [h1, h2] at h <;> exact h
  have low : ∀ {c c' : Nat} {x y : List Nat}, (c < 0x20 ∨ c = 0x7f) → ¬ (c' < 0x20 ∨ c' = 0x7f) → c'.isValidChar →
      92 :: 117 :: (hex2 (c / 2 ^ 8 % 2 ^ 8) ++ hex2 (c % 2 ^ 8)) ++ x ≠
        (if c' ≤ 0x7f then Tok.ascii c' else Tok.code c').text ++ y := by
    intro c c' x y h1 h2 hv h
    rcases text_cases (plain hv) with ⟨b, e, hb, et⟩ | ⟨e, et⟩ | ⟨b, hb, e, et⟩ | ⟨d, hd, e, et⟩ | ⟨d, hd, e, et⟩ <;>
      rw [et] at h <;> simp only [List.cons_append, List.nil_append, List.cons.injEq, List.append_assoc, true_and] at h
    · omega
    · omega
    · omega
    · obtain ⟨e1, h⟩ := hex2_append (by omega) (by omega) h
      obtain ⟨e2, h⟩ := hex2_append (by omega) (by omega) h
      have hcd : c = d := by omega
      by_cases h3 : c' ≤ 0x7f
      · rw [if_pos h3] at e; cases e
      · rw [if_neg h3] at e
        cases e
        omega
    · omega
  rw [wide_text c, wide_text c'] at h
  by_cases h1 : c < 0x20 ∨ c = 0x7f <;> by_cases h2 : c' < 0x20 ∨ c' = 0x7f
  · rw [if_pos h1, if_pos h2] at h
    simp only [List.cons_append, List.cons.injEq, List.append_assoc, true_and] at h
    obtain ⟨e1, h⟩ := hex2_append (by omega) (by omega) h
    obtain ⟨e2, h⟩ := hex2_append (by omega) (by omega) h
    exact ⟨by omega, h⟩
  · rw [if_pos h1, if_neg h2] at h
    exact absurd h (low h1 h2 hc')
  · rw [if_neg h1, if_pos h2] at h
    exact absurd h.symm (low h2 h1 hc)
  · rw [if_neg h1, if_neg h2] at h
    obtain ⟨e, h⟩ := text_prefix_free (plain hc) (plain hc') h
    exact ⟨inj e, h⟩

/-- C83, UTF-16: the text shown for a valid string determines its characters, in both byte orders. -/
theorem C83_utf16 (codes codes' cs cs' : List Nat) (hv : ∀ c ∈ codes, c.isValidChar)
    (hv' : ∀ c ∈ codes', c.isValidChar) (ts ts' : List Tok) (he : ts.flatMap Tok.text = ts'.flatMap Tok.text) :
    (encodeAll encodeUTF16BE codes = .ok cs → encodeAll encodeUTF16BE codes' = .ok cs' →
      printUTF16BE cs = .ok ts → printUTF16BE cs' = .ok ts' → cs = cs') ∧
    (encodeAll encodeUTF16LE codes = .ok cs → encodeAll encodeUTF16LE codes' = .ok cs' →
      printUTF16LE cs = .ok ts → printUTF16LE cs' = .ok ts' → cs = cs') := by
  have inj : ∀ l l' : List Nat, (∀ c ∈ l, c.isValidChar) → (∀ c ∈ l', c.isValidChar) →
      (l.map fun c => if c ≤ 0x7f then Tok.wide c else Tok.code c).flatMap Tok.text =
        (l'.map fun c => if c ≤ 0x7f then Tok.wide c else Tok.code c).flatMap Tok.text → l = l' := by
    have ne : ∀ c : Nat, (if c ≤ 0x7f then Tok.wide c else Tok.code c).text ≠ [] := by
      intro c
      split <;> simp only [Tok.text] <;> split_ifs <;> simp
    intro l
    induction l with
    | nil =>
      intro l' _ _ h
      rcases l' with _ | ⟨c, l'⟩
      · rfl
      · simp only [List.map_nil, List.map_cons, List.flatMap_nil, List.flatMap_cons] at h
        exact absurd (List.append_eq_nil_iff.1 h.symm).1 (ne c)
    | cons c l ih =>
      intro l' hl hl' h
      rcases l' with _ | ⟨c', l'⟩
      · simp only [List.map_nil, List.map_cons, List.flatMap_nil, List.flatMap_cons] at h
        exact absurd (List.append_eq_nil_iff.1 h).1 (ne c)
      · simp only [List.map_cons, List.flatMap_cons] at h
        obtain ⟨h1, h⟩ := wide_text_inj (hl c (by simp)) (hl' c' (by simp)) h
        rw [h1, ih l' (fun c h => hl c (by simp [h])) (fun c h => hl' c (by simp [h])) h]
  constructor
  · intro h h' hp hp'
    rw [(C65_valid_partial codes cs hv).1 h] at hp
    rw [(C65_valid_partial codes' cs' hv').1 h'] at hp'
    cases hp; cases hp'
    have := inj codes codes' hv hv' he
    subst this
    rw [h] at h'; cases h'; rfl
  · intro h h' hp hp'
    rw [(C65_valid_partial codes cs hv).2 h] at hp
    rw [(C65_valid_partial codes' cs' hv').2 h'] at hp'
    cases hp; cases hp'
    have := inj codes codes' hv hv' he
    subst this
    rw [h] at h'; cases h'; rfl

example : printUTF16LE [1, 0, 0x5c, 0, 0xac, 0x20] = .ok [.wide 1, .wide 92, .code 0x20ac] ∧
    ([.wide 1, .wide 92, .code 0x20ac] : List Tok).flatMap Tok.text =
      [92, 117, 48, 48, 48, 49, 92, 92, 92, 117, 50, 48, 97, 99] := by decide

end Unicode
end Verif
