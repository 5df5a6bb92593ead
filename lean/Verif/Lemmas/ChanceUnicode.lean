import Verif.Lemmas.ChanceSet
import Verif.Props.UnicodeText
/-
Helpers for C169: chances of strings of encoded characters.
-/
namespace Verif
open Shr Random ListLike Containers
variable {α β : Type}

/-! ### Results that can occur -/

/-- Every result of the experiment with draws in range satisfies `P`. -/
def Exp.Within (P : α → Prop) : Exp α → Prop
  | .ret x => P x
  | .draw a b next => ∀ v, a ≤ v → v ≤ b → (next v).Within P

theorem Exp.mean_within {P : α → Prop} {f g : α → ℚ} (h : ∀ a, P a → f a = g a) {e : Exp α} (he : e.Within P) :
    e.mean f = e.mean g := by
  induction e with
  | ret x => exact h x he
  | draw a b next ih =>
    simp only [Exp.mean]
    congr 1
    refine Finset.sum_congr rfl fun v hv => ?_
    rw [Finset.mem_Icc] at hv
    exact ih v (he v hv.1 hv.2)

theorem within_of_run {P : α → Prop} {e : Exp α} (r : List (Int × Int)) (h : ∀ l, P (e.run recorder (l, r)).1) :
    e.Within P := by
  induction e generalizing r with
  | ret x => exact h []
  | draw a b next ih =>
    intro v h1 h2
    refine ih v ((a, b) :: r) fun l => ?_
    have := h (v :: l)
    rwa [Exp.run, recorder_cons a b v l r h1 h2] at this

/-- A pure function of the result: only results that can occur matter. -/
theorem Chance.map {f : Src α} {E : α → Bool} {E' : β → Bool} {p : ℚ} (h : α → β) (hc : Chance f E p)
    (hE : ∀ (σ : Type) (R : Rng σ) (s s' : σ) (a : α), f σ R s = .ok (a, s') → E' (h a) = E a) :
    Chance (fun σ R s => f σ R s >>= fun q => .ok (h q.1, q.2)) E' p := by
  obtain ⟨e, he, rfl⟩ := hc
  refine ⟨_, he.bind fun a => Follows.pure (h a), ?_⟩
  rw [hit_eq, hit_eq, mean_andThen]
  have hw : e.Within fun o => ∀ a, o = .ok a → E' (h a) = E a := within_of_run [] fun l a ho => by
    refine hE _ recorder (l, []) (e.run recorder (l, [])).2 a ?_
    rw [he.2, ho]
    rfl
  refine Exp.mean_within (fun o ho => ?_) hw
  cases o with
  | ok a => simp only [val, Exp.mean, ho a rfl]
  | throws x => rfl
  | ub => rfl
  | diverges => rfl

theorem Chance.congr {f g : Src α} {E : α → Bool} {p : ℚ} (h : Chance f E p) (hfg : ∀ σ R s, g σ R s = f σ R s) :
    Chance g E p := by
  obtain ⟨e, he, hp⟩ := h
  exact ⟨e, he.congr hfg, hp⟩

/-! ### Limits of products -/

theorem prod_near (ps : List ℚ) (ε : ℚ) (hε : 0 < ε) :
    ∃ δ, 0 < δ ∧ ∀ qs, List.Forall₂ (fun q p => |q - p| < δ) qs ps → |qs.prod - ps.prod| < ε := by
  induction ps generalizing ε with
  | nil => exact ⟨1, one_pos, fun qs h => by cases h; simpa using hε⟩
  | cons p ps ih =>
    obtain ⟨δ, hδ, h⟩ := ih (min 1 (ε / (2 * (|p| + 1)))) (by positivity)
    have hc : 0 < 2 * (|ps.prod| + 1) := by positivity
    refine ⟨min (min 1 δ) (ε / (2 * (|ps.prod| + 1))), by positivity, fun qs hq => ?_⟩
    cases hq with
    | @cons q _ qs _ h1 h2 =>
      have h3 := h qs (h2.imp fun _ _ hh => lt_of_lt_of_le hh ((min_le_left _ _).trans (min_le_right _ _)))
      have h4 : |q - p| < ε / (2 * (|ps.prod| + 1)) := lt_of_lt_of_le h1 (min_le_right _ _)
      have h5 : |q - p| < 1 := lt_of_lt_of_le h1 ((min_le_left _ _).trans (min_le_left _ _))
      have h6 : |qs.prod - ps.prod| < ε / (2 * (|p| + 1)) := lt_of_lt_of_le h3 (min_le_right _ _)
      have h7 : |qs.prod - ps.prod| < 1 := lt_of_lt_of_le h3 (min_le_left _ _)
      rw [List.prod_cons, List.prod_cons]
      have e1 : q * qs.prod - p * ps.prod = q * (qs.prod - ps.prod) + (q - p) * ps.prod := by ring
      rw [e1]
      refine lt_of_le_of_lt (abs_add_le _ _) ?_
      rw [abs_mul, abs_mul]
      have hq1 : |q| < |p| + 1 := by
        have := abs_sub_abs_le_abs_sub q p
        linarith
      rw [lt_div_iff₀ hc] at h4
      rw [lt_div_iff₀ (by positivity)] at h6
      have a1 : |q| * |qs.prod - ps.prod| ≤ (|p| + 1) * |qs.prod - ps.prod| :=
        mul_le_mul_of_nonneg_right hq1.le (abs_nonneg _)
      have a2 : |q - p| * |ps.prod| ≤ |q - p| * (|ps.prod| + 1) :=
        mul_le_mul_of_nonneg_left (by linarith) (abs_nonneg _)
      linarith

/-- If the chances of what is built are products of chances of the parts, so are the limits. -/
theorem limit_prod {γ : Type} {g : Nat → Src γ} {F : Nat → Src β} {E : β → Bool} (c : ℚ) (hc : 1 ≤ c)
    (Es : List (γ → Bool)) (ps : List ℚ)
    (hF : ∃ M, ∀ n, M ≤ n → ∀ qs, List.Forall₂ (fun D q => Chance (g n) D q) Es qs → Chance (F n) E (qs.prod / c))
    (hp : List.Forall₂ (fun D p => ChanceLimit g D p) Es ps) : ChanceLimit F E (ps.prod / c) := by
  intro ε hε
  obtain ⟨M, hF⟩ := hF
  obtain ⟨δ, hδ, hd⟩ := prod_near ps ε hε
  have key : ∃ N, ∀ n, N ≤ n → ∃ qs, List.Forall₂ (fun D q => Chance (g n) D q) Es qs ∧
      List.Forall₂ (fun q p => |q - p| < δ) qs ps := by
    clear hd hF
    induction hp with
    | nil => exact ⟨0, fun n _ => ⟨[], .nil, .nil⟩⟩
    | cons h _ ih =>
      obtain ⟨N, hN⟩ := ih
      obtain ⟨M, hM⟩ := h δ hδ
      refine ⟨max N M, fun n hn => ?_⟩
      obtain ⟨qs, h1, h2⟩ := hN n ((le_max_left _ _).trans hn)
      obtain ⟨q, h3, h4⟩ := hM n ((le_max_right _ _).trans hn)
      exact ⟨q :: qs, .cons h3 h1, .cons h4 h2⟩
  obtain ⟨N, hN⟩ := key
  refine ⟨max N M, fun n hn => ?_⟩
  obtain ⟨qs, h1, h2⟩ := hN n ((le_max_left _ _).trans hn)
  refine ⟨_, hF n ((le_max_right _ _).trans hn) qs h1, ?_⟩
  have h3 := hd qs h2
  rw [← sub_div, abs_div, abs_of_pos (by linarith : (0 : ℚ) < c)]
  refine lt_of_le_of_lt ?_ h3
  exact div_le_self (abs_nonneg _) hc

namespace Unicode

section
variable {F : List Nat → Nat → Prop} {enc : Nat → Outcome (List Nat)} {dec : List Nat → Outcome Nat}
  {step : List Nat → Outcome (Option Nat)}

theorem Codec.inj (H : Codec F enc dec step) {a b cs : List Nat} (ha : Enc F a cs) (hb : Enc F b cs) : a = b := by
  induction ha generalizing b with
  | nil =>
    generalize hcs : ([] : List Nat) = cs at hb
    cases hb with
    | nil => rfl
    | cons hf h =>
      have := (H.bytes hf).1
      simp [this] at hcs
  | @cons c bs codes cs hf _ ih =>
    generalize hcs : bs ++ cs = l at hb
    cases hb with
    | nil => simp [(H.bytes hf).1] at hcs
    | @cons d bs' codes' cs' hf' h' =>
      have h1 := H.decode hf cs
      rw [hcs, H.decode hf' cs'] at h1
      cases h1
      have h2 := H.encode hf
      rw [H.encode hf'] at h2
      cases h2
      rw [List.append_cancel_left_eq] at hcs
      subst hcs
      rw [ih h']

/-- The byte positions of the characters. -/
def posOf (enc : Nat → Outcome (List Nat)) : Nat → List Nat → List Nat
  | k, [] => [k]
  | k, c :: cs => k :: posOf enc (k + (bytesOf enc [c]).length) cs

/-- The loop of the generators, for valid code points: the same draws as the loop of the string generator. -/
theorem Codec.fill_eq (H : Codec F enc dec step) {σ : Type} (g : Gen σ Nat)
    (hg : ∀ s x s', g s = .ok (x, s') → x.value.isValidChar) (n : Nat) (pre : List Nat) (s : σ) :
    fillChars enc g n pre s = (drawMany g n s) >>= fun p =>
      .ok (pre ++ (p.1.map Shr.value).flatMap (fun c => bytesOf enc [c]), posOf enc pre.length (p.1.map Shr.value), p.2) := by
  induction n generalizing pre s with
  | zero => simp [fillChars, drawMany, posOf]
  | succ n ih =>
    rw [fillChars, drawMany]
    cases e : g s with
    | ok p =>
      obtain ⟨x, s1⟩ := p
      obtain ⟨bs, hf⟩ := H.ofValid (hg _ _ _ e)
      have hb : bytesOf enc [x.value] = bs := by simp [bytesOf, encodeAll, H.encode hf]
      simp only [Outcome.ok_bind, H.encode hf, ih]
      cases drawMany g n s1 with
      | ok q => simp [posOf, hb, List.append_assoc]
      | throws y => rfl
      | ub => rfl
      | diverges => rfl
    | throws y => rfl
    | ub => rfl
    | diverges => rfl

theorem drawMany_valid {σ : Type} (g : Gen σ Nat) (hg : ∀ s x s', g s = .ok (x, s') → x.value.isValidChar) (n : Nat)
    (s s' : σ) (xs : List (Shr Nat)) (h : drawMany g n s = .ok (xs, s')) :
    xs.length = n ∧ ∀ c ∈ xs.map Shr.value, c.isValidChar := by
  induction n generalizing s xs with
  | zero => cases h; simp
  | succ n ih =>
    rw [drawMany] at h
    simp only [Outcome.bind_eq_ok] at h
    obtain ⟨⟨x, s1⟩, e1, ⟨ys, s2⟩, e2, e3⟩ := h
    cases e3
    have := ih _ _ e2
    refine ⟨by simp [this.1], fun c hc => ?_⟩
    rcases List.mem_cons.1 hc with rfl | hc
    · exact hg _ _ _ e1
    · exact this.2 c hc

theorem Codec.bytesOf_flatMap (H : Codec F enc dec step) {l : List Nat} (hl : ∀ c ∈ l, c.isValidChar) :
    bytesOf enc l = l.flatMap fun c => bytesOf enc [c] := by
  induction l with
  | nil => rfl
  | cons c l ih =>
    have := H.bytesOf_append (a := [c]) (b := l) (fun x hx => hl x (by simp at hx; simp [hx])) fun x hx => hl x (by simp [hx])
    rw [List.flatMap_cons, ← ih fun x hx => hl x (by simp [hx]), ← this]
    rfl

/-- The generators of encoded strings draw what the string generator draws and encode the result. -/
theorem Codec.string_eq (H : Codec F enc dec step) (hE : ∀ c bs, enc c = .ok bs → ∃ c', F bs c')
    {σ : Type} (R : Rng σ) (trailer : List Nat) (htr : ∃ l, (∀ c ∈ l, c.isValidChar) ∧ encodeAll enc l = .ok trailer)
    (g : Gen σ Nat) (minSize maxSize : Nat) (h : minSize ≤ maxSize)
    (hb : maxSize < 2 ^ 32) (hg : ∀ s x s', g s = .ok (x, s') → x.value.isValidChar) (s : σ) :
    arbiStringLike R enc (fun cs => validLoop step cs.length cs) trailer g minSize maxSize s =
      arbiString R g minSize maxSize s >>= fun p => .ok (p.1.map (bytesOf enc), p.2) := by
  unfold arbiStringLike arbiString
  obtain ⟨v, s1, e1, h1, h2⟩ := getRandomSize_ok R (a := minSize) (b := maxSize + 1) s (by omega) (by omega)
  simp only [e1, Outcome.ok_bind]
  cases e : drawMany g v.toNat s1 with
  | ok p =>
    obtain ⟨xs, s2⟩ := p
    have e2 := H.fill_eq g hg v.toNat [] s1
    rw [e, Outcome.ok_bind] at e2
    have hx := drawMany_valid g hg _ _ _ _ e
    obtain ⟨codes, hl, hv, hc, hpl, hp⟩ := fillChars_ok hE H g _ _ _ _ _ _ e2
    obtain ⟨l, hlv, hle⟩ := htr
    rw [List.nil_append, List.nil_append, ← H.bytesOf_flatMap hx.2] at hc
    have hcodes : xs.map Shr.value = codes := H.inj (H.enc_bytesOf hx.2) (by rw [hc]; exact H.enc_bytesOf hv)
    subst hcodes
    have hE1 := (H.enc_bytesOf hv).append ((H.enc_iff hlv).2 hle)
    have hE2 := H.encodes hE1
    have hval := (H.valid_some (H.enc_bytes hE1)).2 ⟨_, rfl, hE2.2, hE2.1⟩
    have hm : minSize ≤ (xs.map Shr.value).length := by omega
    have hpos : Positions enc (xs.map Shr.value) (posOf enc ([] : List Nat).length (xs.map Shr.value)) :=
      ⟨by rw [hpl, hl], fun i hi => by have := hp i (by omega); simpa using this⟩
    have e5 := H.shrinkStringLike_eq hv hpos trailer hm
    rw [hl] at e5
    simp only [e2, Outcome.ok_bind, List.nil_append, ← H.bytesOf_flatMap hv, hval, e5]
    rfl
  | throws y => rw [H.fill_eq g hg, e]; rfl
  | ub => rw [H.fill_eq g hg, e]; rfl
  | diverges => rw [H.fill_eq g hg, e]; rfl

/-- The chance of the characters of an encoded string. -/
theorem Codec.chance (H : Codec F enc dec step) {f : Src (Shr (List Nat))} {E : List Nat → Bool} {p : ℚ}
    (hf : Chance f (fun t => E t.value) p)
    (hv : ∀ (σ : Type) (R : Rng σ) (s s' : σ) (t : Shr (List Nat)), f σ R s = .ok (t, s') → ∀ c ∈ t.value, c.isValidChar)
    (E' : List Nat → Bool)
    (hE : ∀ codes bs, (∀ c ∈ codes, c.isValidChar) → encodeAll enc codes = .ok bs → E' bs = E codes) :
    Chance (fun σ R s => f σ R s >>= fun q => .ok (q.1.map (bytesOf enc), q.2)) (fun t => E' t.value) p := by
  refine hf.map _ fun σ R s s' t h => ?_
  have := hv _ _ _ _ _ h
  rw [value_map]
  exact hE _ _ this (H.encodes (H.enc_bytesOf this)).1
end
end Unicode
end Verif
