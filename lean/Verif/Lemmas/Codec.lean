import Verif.Lemmas.Unicode
import Verif.Lemmas.Containers
import Verif.Lemmas.Integral
import Verif.Spec.Unicode
/-! String-level facts for any encoding given by a table of byte sequences. -/
namespace Verif
namespace Unicode
open Shr BinSearch Random ListLike Containers

/-- An encoding given by a table `F`. -/
structure Codec (F : List Nat → Nat → Prop) (enc : Nat → Outcome (List Nat)) (dec : List Nat → Outcome Nat)
    (step : List Nat → Outcome (Option Nat)) : Prop where
  valid : ∀ {bs c}, F bs c → c.isValidChar
  ofValid : ∀ {c}, c.isValidChar → ∃ bs, F bs c
  bytes : ∀ {bs c}, F bs c → bs ≠ [] ∧ ∀ x ∈ bs, x < 256
  encode : ∀ {bs c}, F bs c → enc c = .ok bs
  decode : ∀ {bs c}, F bs c → ∀ rest, dec (bs ++ rest) = .ok c
  stepF : ∀ {bs c}, F bs c → ∀ rest, step (bs ++ rest) = .ok (some (bs.length - 1))
  cases : ∀ a cs, Bytes (a :: cs) →
    (∃ bs rest c, a :: cs = bs ++ rest ∧ F bs c) ∨ step (a :: cs) = .ok none

theorem codec8 : Codec Form8 encodeUTF8 decodeUTF8 validUTF8Step :=
  ⟨Form8.valid, form8_of_valid, Form8.bytes, Form8.encode, Form8.decode, Form8.step,
    fun a cs _ => (utf8_cases a cs).imp id fun h => h.1⟩
theorem codecBE : Codec FormBE encodeUTF16BE decodeUTF16BE validUTF16BEStep :=
  ⟨FormBE.valid, formBE_of_valid, FormBE.bytes, FormBE.encode, FormBE.decode, FormBE.step, utf16BE_cases⟩
theorem codecLE : Codec FormLE encodeUTF16LE decodeUTF16LE validUTF16LEStep :=
  ⟨FormLE.valid, formLE_of_valid, FormLE.bytes, FormLE.encode, FormLE.decode, FormLE.step, utf16LE_cases⟩
theorem codecC : Codec FormC encodeCESU8 decodeCESU8 validCESU8Step :=
  ⟨FormC.valid, formC_of_valid, FormC.bytes, FormC.encode, FormC.decode, FormC.step,
    fun a cs _ => (cesu8_cases a cs).imp id fun h => h.1⟩

variable {F : List Nat → Nat → Prop} {enc : Nat → Outcome (List Nat)} {dec : List Nat → Outcome Nat}
  {step : List Nat → Outcome (Option Nat)}

/-- `cs` is the concatenation of table entries for the codes. -/
inductive Enc (F : List Nat → Nat → Prop) : List Nat → List Nat → Prop
  | nil : Enc F [] []
  | cons {c bs codes cs} : F bs c → Enc F codes cs → Enc F (c :: codes) (bs ++ cs)

theorem Codec.encodes (H : Codec F enc dec step) {codes cs : List Nat} (h : Enc F codes cs) :
    encodeAll enc codes = .ok cs ∧ (∀ c ∈ codes, c.isValidChar) := by
  induction h with
  | nil => exact ⟨rfl, by simp⟩
  | @cons c bs codes cs hf _ ih =>
    refine ⟨?_, ?_⟩
    · simp [encodeAll, H.encode hf, ih.1]
    · intro x hx
      rcases List.mem_cons.1 hx with rfl | hx
      · exact H.valid hf
      · exact ih.2 x hx

theorem Codec.enc_of_valid (H : Codec F enc dec step) {codes : List Nat} (h : ∀ c ∈ codes, c.isValidChar) :
    ∃ cs, Enc F codes cs := by
  induction codes with
  | nil => exact ⟨[], .nil⟩
  | cons c codes ih =>
    obtain ⟨bs, hb⟩ := H.ofValid (h c (by simp))
    obtain ⟨cs, hcs⟩ := ih fun x hx => h x (by simp [hx])
    exact ⟨_, .cons hb hcs⟩

theorem Codec.enc_iff (H : Codec F enc dec step) {codes cs : List Nat} (hv : ∀ c ∈ codes, c.isValidChar) :
    Enc F codes cs ↔ encodeAll enc codes = .ok cs := by
  constructor
  · exact fun h => (H.encodes h).1
  · intro h
    obtain ⟨cs', h'⟩ := H.enc_of_valid hv
    rw [(H.encodes h').1] at h
    cases h
    exact h'

theorem Codec.enc_bytes (H : Codec F enc dec step) {codes cs : List Nat} (h : Enc F codes cs) : Bytes cs := by
  induction h with
  | nil => intro x hx; simp at hx
  | cons hf _ ih =>
    intro x hx
    rcases List.mem_append.1 hx with hx | hx
    · exact (H.bytes hf).2 x hx
    · exact ih x hx

/-- One step on a legal prefix leaves the rest. -/
theorem Codec.drop (H : Codec F enc dec step) {bs rest : List Nat} {c a : Nat} {cs : List Nat} (hf : F bs c)
    (h : a :: cs = bs ++ rest) : cs.drop (bs.length - 1) = rest := by
  rcases bs with _ | ⟨b, bs⟩
  · exact absurd rfl (H.bytes hf).1
  · simp only [List.cons_append, List.cons.injEq] at h
    rw [h.2]
    simp

theorem Codec.validLoop_ok (H : Codec F enc dec step) : ∀ (fuel : Nat) (cs : List Nat), cs.length ≤ fuel → Bytes cs →
    (∃ codes, Enc F codes cs ∧ validLoop step fuel cs = .ok (some codes.length)) ∨
      ((¬ ∃ codes, Enc F codes cs) ∧ validLoop step fuel cs = .ok none) := by
  intro fuel
  induction fuel with
  | zero =>
    intro cs hl hb
    have : cs = [] := List.length_eq_zero_iff.1 (by omega)
    subst this
    exact .inl ⟨[], .nil, rfl⟩
  | succ fuel ih =>
    intro cs hl hb
    rcases cs with _ | ⟨a, cs⟩
    · exact .inl ⟨[], .nil, rfl⟩
    rcases H.cases a cs hb with ⟨bs, rest, c, he, hf⟩ | hn
    · have hs : step (a :: cs) = .ok (some (bs.length - 1)) := by rw [he]; exact H.stepF hf rest
      have hd := H.drop hf he
      have hlen : 0 < bs.length := List.length_pos_of_ne_nil (H.bytes hf).1
      have hl' : rest.length ≤ fuel := by
        have := congrArg List.length he
        simp at this hl
        omega
      have hb' : Bytes rest := fun x hx => hb x (by rw [he]; exact List.mem_append_right _ hx)
      rcases ih rest hl' hb' with ⟨codes, h1, h2⟩ | ⟨h1, h2⟩
      · refine .inl ⟨c :: codes, by rw [he]; exact .cons hf h1, ?_⟩
        simp [validLoop, hs, hd, h2]
      · refine .inr ⟨?_, by simp [validLoop, hs, hd, h2]⟩
        rintro ⟨codes, h⟩
        refine h1 ?_
        generalize hcs : a :: cs = l at h
        cases h with
        | nil => cases hcs
        | @cons c' bs' codes' cs' hf' h' =>
          refine ⟨codes', ?_⟩
          have hs' := H.stepF hf' cs'
          have hcs' := hcs
          rw [← hcs, hs] at hs'
          have hd' := H.drop hf' hcs'
          simp only [Outcome.ok.injEq, Option.some.injEq] at hs'
          rw [← hs', hd] at hd'
          rw [hd']
          exact h'
    · refine .inr ⟨?_, by simp [validLoop, hn]⟩
      rintro ⟨codes, h⟩
      generalize hcs : a :: cs = l at h
      cases h with
      | nil => cases hcs
      | cons hf' h' =>
        have := H.stepF hf' (by assumption)
        rw [← hcs, hn] at this
        cases this

theorem Codec.enc_unique (H : Codec F enc dec step) {codes codes' cs : List Nat} (h : Enc F codes cs)
    (h' : Enc F codes' cs) : codes = codes' := by
  induction h generalizing codes' with
  | nil =>
    generalize hcs : ([] : List Nat) = l at h'
    cases h' with
    | nil => rfl
    | cons hf _ => exact absurd (List.append_eq_nil_iff.1 hcs.symm).1 (H.bytes hf).1
  | @cons c bs codes cs hf _ ih =>
    generalize hcs : bs ++ cs = l at h'
    cases h' with
    | nil => exact absurd (List.append_eq_nil_iff.1 hcs).1 (H.bytes hf).1
    | @cons c' bs' codes' cs' hf' h' =>
      have e1 := H.decode hf cs
      rw [hcs, H.decode hf' cs'] at e1
      have e2 := H.stepF hf cs
      rw [hcs, H.stepF hf' cs'] at e2
      simp only [Outcome.ok.injEq, Option.some.injEq] at e1 e2
      have h1 := List.length_pos_of_ne_nil (H.bytes hf).1
      have h2 := List.length_pos_of_ne_nil (H.bytes hf').1
      have hbs := (List.append_inj hcs (by omega)).2
      subst hbs
      rw [e1, ih h']

theorem Codec.valid_some (H : Codec F enc dec step) {cs : List Nat} (hb : Bytes cs) {n : Nat} :
    validLoop step cs.length cs = .ok (some n) ↔
      ∃ codes : List Nat, codes.length = n ∧ (∀ c ∈ codes, c.isValidChar) ∧ encodeAll enc codes = .ok cs := by
  rcases H.validLoop_ok cs.length cs (Nat.le_refl _) hb with ⟨codes, h1, h2⟩ | ⟨h1, h2⟩
  · rw [h2]
    constructor
    · intro h
      cases h
      exact ⟨codes, rfl, (H.encodes h1).2, (H.encodes h1).1⟩
    · rintro ⟨codes', hl, hv, he⟩
      rw [H.enc_unique h1 ((H.enc_iff hv).2 he), hl]
  · rw [h2]
    constructor
    · intro h; cases h
    · rintro ⟨codes', hl, hv, he⟩
      exact absurd ⟨codes', (H.enc_iff hv).2 he⟩ h1

theorem Codec.valid_total (H : Codec F enc dec step) {cs : List Nat} (hb : Bytes cs) :
    ∃ r, validLoop step cs.length cs = .ok r := by
  rcases H.validLoop_ok cs.length cs (Nat.le_refl _) hb with ⟨codes, h1, h2⟩ | ⟨h1, h2⟩
  · exact ⟨_, h2⟩
  · exact ⟨_, h2⟩

theorem Codec.charsize_enc (H : Codec F enc dec step) {codes cs : List Nat} (h : Enc F codes cs) :
    charsize (fun cs => validLoop step cs.length cs) cs = .ok codes.length := by
  have := (H.valid_some (H.enc_bytes h) (n := codes.length)).2 ⟨codes, rfl, (H.encodes h).2, (H.encodes h).1⟩
  simp [charsize, this]

/-- The bytes of a sequence of codes (empty if one is rejected). -/
def bytesOf (enc : Nat → Outcome (List Nat)) (codes : List Nat) : List Nat :=
  match encodeAll enc codes with
  | .ok bs => bs
  | _ => []

theorem Codec.enc_bytesOf (H : Codec F enc dec step) {codes : List Nat} (hv : ∀ c ∈ codes, c.isValidChar) :
    Enc F codes (bytesOf enc codes) := by
  obtain ⟨cs, h⟩ := H.enc_of_valid hv
  simpa [bytesOf, (H.encodes h).1] using h

theorem Enc.append {a b as bs : List Nat} (h : Enc F a as) (h' : Enc F b bs) : Enc F (a ++ b) (as ++ bs) := by
  induction h with
  | nil => exact h'
  | cons hf _ ih => rw [List.append_assoc]; exact .cons hf ih

theorem Codec.bytesOf_append (H : Codec F enc dec step) {a b : List Nat} (ha : ∀ c ∈ a, c.isValidChar)
    (hb : ∀ c ∈ b, c.isValidChar) : bytesOf enc (a ++ b) = bytesOf enc a ++ bytesOf enc b := by
  have h := (H.encodes ((H.enc_bytesOf ha).append (H.enc_bytesOf hb))).1
  rw [bytesOf, h]

/-- `concatM` on an image of a tree on which the function never fails. -/
theorem concatM_map {α β : Type} (e : α → β) (f : Shr β → Outcome (List (Shr β))) (g : Shr α → List (Shr α)) :
    ∀ t : Shr α, (∀ s, Desc t s → f (s.map e) = .ok ((g s).map (Shr.map e))) →
      concatM f (t.map e) = .ok ((t.concat g).map e) := by
  intro t
  induction t using Shr.ind with
  | _ a ts ih =>
    intro h
    have hl : ∀ l : List (Shr α), (∀ t ∈ l, t ∈ ts) →
        concatMList f (Shr.mapList e l) = .ok (Shr.mapList e (Shr.concatList g l)) := by
      intro l
      induction l with
      | nil => intro _; rfl
      | cons t l ihl =>
        intro hm
        have ht := ih t (hm t (by simp)) fun s hs => h s (.step (hm t (by simp)) hs)
        simp only [Shr.mapList, Shr.concatList, concatMList, ht, ihl fun t h => hm t (by simp [h]), Outcome.ok_bind]
    have h0 := h _ (.refl _)
    simp only [Shr.map] at h0 ⊢
    simp only [concatM, hl ts fun _ h => h, h0, Outcome.ok_bind, Shr.concat, Shr.map]
    simp

/-- The byte positions are the lengths of the encodings of the prefixes. -/
def Positions (enc : Nat → Outcome (List Nat)) (codes positions : List Nat) : Prop :=
  positions.length = codes.length + 1 ∧ ∀ i, i ≤ codes.length → positions.getD i 0 = (bytesOf enc (codes.take i)).length

theorem Codec.take_bytes (H : Codec F enc dec step) {codes positions : List Nat} (hv : ∀ c ∈ codes, c.isValidChar)
    (hp : Positions enc codes positions) (trailer : List Nat) {i : Nat} (hi : i ≤ codes.length) :
    (bytesOf enc codes ++ trailer).take (positions.getD i 0) = bytesOf enc (codes.take i) := by
  have h := H.bytesOf_append (a := codes.take i) (b := codes.drop i) (fun c h => hv c (List.mem_of_mem_take h))
    (fun c h => hv c (List.mem_of_mem_drop h))
  rw [List.take_append_drop] at h
  rw [hp.2 i hi, h, List.append_assoc, List.take_left]

theorem Codec.slice_bytes (H : Codec F enc dec step) {codes positions : List Nat} (hv : ∀ c ∈ codes, c.isValidChar)
    (hp : Positions enc codes positions) {i k : Nat} (hik : i ≤ k) (hk : k ≤ codes.length) :
    ((bytesOf enc (codes.take k)).drop (positions.getD i 0)).take (positions.getD k 0 - positions.getD i 0) =
      bytesOf enc ((codes.take k).drop i) := by
  have hvk : ∀ c ∈ codes.take k, c.isValidChar := fun c h => hv c (List.mem_of_mem_take h)
  have h := H.bytesOf_append (a := (codes.take k).take i) (b := (codes.take k).drop i)
    (fun c h => hvk c (List.mem_of_mem_take h)) (fun c h => hvk c (List.mem_of_mem_drop h))
  rw [List.take_append_drop] at h
  have hi : (codes.take k).take i = codes.take i := by rw [List.take_take, Nat.min_eq_left hik]
  rw [hp.2 i (by omega), hp.2 k hk, h, hi, List.drop_left, List.length_append, Nat.add_sub_cancel_left, List.take_length]

theorem shrinkFront_map {β : Type} (e : List Nat → β) (minSize : Nat) (w : List Nat) (h : w.length ≠ minSize) :
    (shrinkFront minSize w).map (Shr.map e) =
      ((bsNat (w.length - minSize)).map fun v => e (w.drop (minSize + v))).shrinks := by
  unfold shrinkFront
  rw [if_neg h, shrinks_map, shrinks_map, List.map_map]
  refine List.map_congr_left fun t _ => ?_
  simp only [Function.comp, Shr.map_map]
  congr 1
  funext v
  rw [List.take_of_length_le (by simp)]

theorem bsNat_map_congr {β : Type} (n : Nat) {f g : Nat → β} (h : ∀ v ≤ n, f v = g v) :
    (bsNat n).map f = (bsNat n).map g :=
  Shr.map_congr_reach fun v hv => h v ((bsNat_reach n v).1 hv)

/-- C32 at the level of trees: the shrink tree of an encoded string is the encoding of the shrink tree of the
sequence of its characters. -/
theorem Codec.shrinkStringLike_eq (H : Codec F enc dec step) {codes positions : List Nat}
    (hv : ∀ c ∈ codes, c.isValidChar) (hp : Positions enc codes positions) (trailer : List Nat) {minSize : Nat}
    (hm : minSize ≤ codes.length) :
    shrinkStringLike (fun cs => validLoop step cs.length cs) (bytesOf enc codes ++ trailer) minSize codes.length positions =
      .ok ((shrinkString codes minSize).map (bytesOf enc)) := by
  have hne : positions.isEmpty = false := by
    rcases positions with _ | _
    · simp [Positions] at hp
    · rfl
  have hpl := hp.1
  unfold shrinkStringLike
  rw [if_neg (by omega)]
  simp only [hne, posUpTo, show codes.length < positions.length by omega, if_true, Outcome.ok_bind, Bool.false_eq_true,
    if_false]
  have e : (bsNat (codes.length - minSize)).map
      (fun n => (bytesOf enc codes ++ trailer).take (positions.getD (n + minSize) 0)) =
      (shrinkRear codes minSize).map (bytesOf enc) := by
    unfold shrinkRear
    rw [Shr.map_map]
    refine bsNat_map_congr _ fun v hv' => ?_
    exact H.take_bytes hv hp trailer (by omega)
  rw [e]
  refine concatM_map _ _ (fun shr => shrinkFront minSize shr.value) _ fun s hs => ?_
  obtain ⟨s', hs', rfl⟩ := desc_map.mp hs
  have hr := (bsNat_desc _ hs').1
  generalize hk : s'.value + minSize = k at *
  simp only [value_map, hk]
  have hkl : k ≤ codes.length := by omega
  have hvk : ∀ c ∈ codes.take k, c.isValidChar := fun c h => hv c (List.mem_of_mem_take h)
  have hlen : (codes.take k).length = k := by simp; omega
  unfold shrinkStringLikeFront
  rw [H.charsize_enc (H.enc_bytesOf hvk), hlen]
  simp only [Outcome.ok_bind]
  by_cases hkm : k = minSize
  · rw [if_pos hkm]
    unfold shrinkFront
    rw [if_pos (by omega)]
    rfl
  · rw [if_neg hkm, if_neg (by omega)]
    simp only [hne, Bool.false_eq_true, if_false, posUpTo, show k < positions.length by omega, if_true, Outcome.ok_bind]
    rw [shrinkFront_map _ _ _ (by omega), hlen]
    congr 2
    refine bsNat_map_congr _ fun v hv' => ?_
    exact H.slice_bytes hv hp (by omega) hkl

/-- The loop of the generators. -/
theorem fillChars_ok (hE : ∀ c bs, enc c = .ok bs → ∃ c', F bs c') (H : Codec F enc dec step) {σ : Type} (g : Gen σ Nat) :
    ∀ (n : Nat) (pre : List Nat) (s : σ) (chars positions : List Nat) (s' : σ),
      fillChars enc g n pre s = .ok (chars, positions, s') →
      ∃ codes, codes.length = n ∧ (∀ c ∈ codes, c.isValidChar) ∧ chars = pre ++ bytesOf enc codes ∧
        positions.length = n + 1 ∧
        ∀ i, i ≤ n → positions.getD i 0 = pre.length + (bytesOf enc (codes.take i)).length := by
  intro n
  induction n with
  | zero =>
    intro pre s chars positions s' h
    cases h
    exact ⟨[], rfl, by simp, by simp [bytesOf, encodeAll], rfl, by simp [bytesOf, encodeAll]⟩
  | succ n ih =>
    intro pre s chars positions s' h
    rw [fillChars] at h
    simp only [Outcome.bind_eq_ok] at h
    obtain ⟨⟨x, s1⟩, e1, bs, e2, ⟨chars', pos', s2⟩, e3, e4⟩ := h
    cases e4
    obtain ⟨codes, hl, hv, hc, hpl, hp⟩ := ih _ _ _ _ _ e3
    obtain ⟨c, hf⟩ := hE _ _ e2
    have hvc : ∀ x ∈ c :: codes, x.isValidChar := by
      intro x hx
      rcases List.mem_cons.1 hx with rfl | hx
      · exact H.valid hf
      · exact hv x hx
    have h1 : bytesOf enc [c] = bs := by simp [bytesOf, encodeAll, H.encode hf]
    have happ : ∀ l : List Nat, (∀ x ∈ l, x.isValidChar) → bytesOf enc (c :: l) = bs ++ bytesOf enc l := by
      intro l hl
      have := H.bytesOf_append (a := [c]) (b := l) (by simpa using H.valid hf) hl
      simpa [h1] using this
    refine ⟨c :: codes, by simp [hl], hvc, ?_, by simp [hpl], ?_⟩
    · rw [hc, happ _ hv, List.append_assoc]
    · intro i hi
      rcases i with _ | i
      · simp [bytesOf, encodeAll]
      · have := hp i (by omega)
        simp only [List.getD_cons_succ, this, List.take_succ_cons, List.length_append]
        rw [happ _ fun x hx => hv x (List.mem_of_mem_take hx), List.length_append]
        omega

/-- The loop of the generators: the code points are drawn one after the other. -/
theorem fillChars_draws (enc : Nat → Outcome (List Nat)) {σ : Type} (g : Gen σ Nat) :
    ∀ (n : Nat) (pre : List Nat) (s : σ) (chars positions : List Nat) (s' : σ),
      fillChars enc g n pre s = .ok (chars, positions, s') →
      ∃ xs bs, g.Draws s xs s' ∧ xs.length = n ∧ encodeAll enc (xs.map Shr.value) = .ok bs ∧ chars = pre ++ bs := by
  intro n
  induction n with
  | zero =>
    intro pre s chars positions s' h
    cases h
    exact ⟨[], [], .nil _, rfl, rfl, by simp⟩
  | succ n ih =>
    intro pre s chars positions s' h
    rw [fillChars] at h
    simp only [Outcome.bind_eq_ok] at h
    obtain ⟨⟨x, s1⟩, e1, bs, e2, ⟨chars', pos', s2⟩, e3, e4⟩ := h
    cases e4
    obtain ⟨xs, bs', h1, h2, h3, h4⟩ := ih _ _ _ _ _ e3
    refine ⟨x :: xs, bs ++ bs', .cons e1 h1, by simp [h2], ?_, by rw [h4, List.append_assoc]⟩
    simp [encodeAll, e2, h3]

end Unicode
end Verif
