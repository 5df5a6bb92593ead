import Mathlib.Tactic.Basic
import Mathlib.Tactic.Cases
import Verif.Spec.Printing
import Verif.Props.UnicodeText
/-
Decoding printed values from right to left.
-/
namespace Verif
namespace Printing
open Unicode
variable {α β κ : Type}

theorem ok_inj {s t : Text} (h : (Outcome.ok s : Outcome Text) = .ok t) : s = t := by injection h

/-- What is needed of a printer to find where the text of a value that ends a given text begins. -/
structure Aligned (p : Printer α) : Prop where
  sep : ∀ {a b s t}, p a = .ok s → p b = .ok t → ∀ u v, u ++ 32 :: s = v ++ 32 :: t → u = v ∧ s = t
  inj : ∀ {a b s}, p a = .ok s → p b = .ok s → a = b
  last : ∀ {a s}, p a = .ok s → ∃ r c, s = r ++ [c] ∧ c ≠ 32

/-- The same, and the text is not taken for that of a null pointer. -/
structure Exact (p : Printer α) : Prop extends Aligned p where
  null : ∀ {a s}, p a = .ok s → ∀ r, s = r ++ [108, 41] → s = [40, 110, 117, 108, 108, 41]

/-- Texts without spaces. -/
theorem sep_noSpace {s t u v : Text} (hs : 32 ∉ s) (ht : 32 ∉ t) (h : u ++ 32 :: s = v ++ 32 :: t) : u = v ∧ s = t := by
  induction u generalizing v with
  | nil =>
    cases v with
    | nil => simpa using h
    | cons c v =>
      exfalso
      simp only [List.nil_append, List.cons_append, List.cons.injEq] at h
      rw [h.2] at hs
      simp at hs
  | cons c u ih =>
    cases v with
    | nil =>
      exfalso
      simp only [List.nil_append, List.cons_append, List.cons.injEq] at h
      rw [← h.2] at ht
      simp at ht
    | cons d v =>
      simp only [List.cons_append, List.cons.injEq] at h
      obtain ⟨h1, h2⟩ := ih h.2
      exact ⟨by rw [h.1, h1], h2⟩

/-! Numbers. -/

theorem dec_digit (n : Nat) : ∀ c ∈ dec n, 48 ≤ c ∧ c ≤ 57 := by
  induction n using Nat.strongRecOn with
  | ind n ih =>
    intro c hc
    rw [dec] at hc
    split at hc
    · simp only [List.mem_singleton] at hc; omega
    · simp only [List.mem_append, List.mem_singleton] at hc
      rcases hc with hc | hc
      · exact ih _ (by omega) c hc
      · omega

theorem dec_ne_nil (n : Nat) : dec n ≠ [] := by
  rw [dec]; split <;> simp

theorem dec_concat (n : Nat) : ∃ r, dec n = r ++ [48 + n % 10] := by
  rw [dec]; split
  · exact ⟨[], by simp; omega⟩
  · exact ⟨_, rfl⟩

theorem natOf_concat (t : Text) (c : Nat) : natOf (t ++ [c]) = 10 * natOf t + (c - 48) := by
  simp [natOf]

theorem natOf_dec (n : Nat) : natOf (dec n) = n := by
  induction n using Nat.strongRecOn with
  | ind n ih =>
    rw [dec]
    split
    · simp [natOf]
    · rw [natOf_concat, ih _ (by omega)]; omega

theorem dec_inj {m n : Nat} (h : dec m = dec n) : m = n := by
  rw [← natOf_dec m, h, natOf_dec]

theorem showInt_inj {a b : Int} {s : Text} (ha : showInt a = .ok s) (hb : showInt b = .ok s) : a = b := by
  have h : (if a < 0 then 45 :: dec a.natAbs else dec a.natAbs) = (if b < 0 then 45 :: dec b.natAbs else dec b.natAbs) :=
    (ok_inj ha).trans (ok_inj hb).symm
  have no : ∀ m n, dec m ≠ 45 :: dec n := fun m n e => by
    have := dec_digit m 45 (by rw [e]; simp)
    omega
  split at h <;> split at h
  · simp only [List.cons.injEq, true_and] at h
    have := dec_inj h
    omega
  · exact absurd h.symm (no _ _)
  · exact absurd h (no _ _)
  · have := dec_inj h
    omega

theorem showInt_chars {a : Int} {s : Text} (h : showInt a = .ok s) : ∀ c ∈ s, c = 45 ∨ (48 ≤ c ∧ c ≤ 57) := by
  have := ok_inj h
  subst this
  intro c hc
  split at hc
  · simp only [List.mem_cons] at hc
    rcases hc with hc | hc
    · exact .inl hc
    · exact .inr (dec_digit _ c hc)
  · exact .inr (dec_digit _ c hc)

theorem showInt_last {a : Int} {s : Text} (h : showInt a = .ok s) : ∃ r c, s = r ++ [c] ∧ 48 ≤ c ∧ c ≤ 57 := by
  have := ok_inj h
  obtain ⟨r, hr⟩ := dec_concat a.natAbs
  subst this
  rw [hr]
  split
  · exact ⟨45 :: r, _, rfl, by omega, by omega⟩
  · exact ⟨r, _, rfl, by omega, by omega⟩

theorem exact_int : Exact showInt where
  sep ha hb _ _ h := sep_noSpace (fun m => by have := showInt_chars ha _ m; omega)
    (fun m => by have := showInt_chars hb _ m; omega) h
  inj := showInt_inj
  last h := by
    obtain ⟨r, c, e, h1, h2⟩ := showInt_last h
    exact ⟨r, c, e, by omega⟩
  null h r e := by
    have := showInt_chars h 41 (by rw [e]; simp)
    omega

theorem exact_bool : Exact showBool where
  sep {a b} _ _ ha hb u v h := by
    have h1 := ok_inj ha
    have h2 := ok_inj hb
    refine sep_noSpace ?_ ?_ h
    · rw [← h1]; cases a <;> simp
    · rw [← h2]; cases b <;> simp
  inj {a b} _ ha hb := by
    have := (ok_inj ha).trans (ok_inj hb).symm
    cases a <;> cases b <;> simp_all
  last {a} _ h := by
    rw [← ok_inj h]
    cases a
    · exact ⟨[102, 97, 108, 115], 101, rfl, by omega⟩
    · exact ⟨[116, 114, 117], 101, rfl, by omega⟩
  null {a} _ h r e := by
    rw [← ok_inj h] at e
    have : 41 ∈ (if a then [116, 114, 117, 101] else [102, 97, 108, 115, 101] : Text) := by rw [e]; simp
    cases a <;> simp at this

/-! Strings. -/

theorem hexDigit_ne {d : Nat} (h : d < 16) : hexDigit d ≠ 40 ∧ hexDigit d ≠ 32 ∧ hexDigit d ≠ 108 := by
  unfold hexDigit; split <;> omega

theorem asHex_chars : ∀ cs : List Nat, Bytes cs → 40 ∉ asHex cs ∧ 108 ∉ asHex cs
  | [], _ => by simp [asHex]
  | [b], hb => by
    have := hb b (by simp)
    have h1 := @hexDigit_ne (b / 16) (by omega)
    have h2 := @hexDigit_ne (b % 16) (by omega)
    simp only [asHex, hex2, List.mem_cons, List.not_mem_nil, or_false, not_or]
    exact ⟨⟨h1.1.symm, h2.1.symm⟩, ⟨h1.2.2.symm, h2.2.2.symm⟩⟩
  | b :: c :: bs, hb => by
    have := hb b (by simp)
    have h1 := @hexDigit_ne (b / 16) (by omega)
    have h2 := @hexDigit_ne (b % 16) (by omega)
    have ih := asHex_chars (c :: bs) (fun x hx => hb x (List.mem_cons_of_mem _ hx))
    simp only [asHex, hex2, List.mem_append, List.mem_cons, List.not_mem_nil, or_false, not_or]
    exact ⟨⟨⟨h1.1.symm, h2.1.symm⟩, by omega, ih.1⟩, ⟨⟨h1.2.2.symm, h2.2.2.symm⟩, by omega, ih.2⟩⟩

theorem asHex_inj : ∀ cs ds : List Nat, Bytes cs → Bytes ds → asHex cs = asHex ds → cs = ds
  | [], [], _, _, _ => rfl
  | [], [_], _, _, h => by simp [asHex, hex2] at h
  | [], _ :: _ :: _, _, _, h => by simp [asHex, hex2] at h
  | [_], [], _, _, h => by simp [asHex, hex2] at h
  | _ :: _ :: _, [], _, _, h => by simp [asHex, hex2] at h
  | [a], [b], ha, hb, h => by
    have h : hex2 a ++ [] = hex2 b ++ [] := by simpa [asHex] using h
    rw [(hex2_append (ha a (by simp)) (hb b (by simp)) h).1]
  | [a], b :: c :: bs, ha, hb, h => by
    have h : hex2 a ++ [] = hex2 b ++ 32 :: asHex (c :: bs) := by simpa [asHex] using h
    exact absurd (hex2_append (ha a (by simp)) (hb b (by simp)) h).2 (by simp)
  | b :: c :: bs, [a], hb, ha, h => by
    have h : hex2 b ++ 32 :: asHex (c :: bs) = hex2 a ++ [] := by simpa [asHex] using h
    exact absurd (hex2_append (hb b (by simp)) (ha a (by simp)) h).2 (by simp)
  | a :: c :: cs, b :: d :: ds, ha, hb, h => by
    have h : hex2 a ++ 32 :: asHex (c :: cs) = hex2 b ++ 32 :: asHex (d :: ds) := by simpa [asHex] using h
    obtain ⟨h1, h2⟩ := hex2_append (ha a (by simp)) (hb b (by simp)) h
    simp only [List.cons.injEq, true_and] at h2
    rw [h1, asHex_inj (c :: cs) (d :: ds) (fun x hx => ha x (List.mem_cons_of_mem _ hx))
      (fun x hx => hb x (List.mem_cons_of_mem _ hx)) h2]

/-- The text after the last opening parenthesis. -/
theorem sep_paren {s t u v : Text} (hs : 40 ∉ s) (ht : 40 ∉ t) (h : u ++ 40 :: s = v ++ 40 :: t) : u = v ∧ s = t := by
  induction u generalizing v with
  | nil =>
    cases v with
    | nil => simpa using h
    | cons c v =>
      exfalso
      simp only [List.nil_append, List.cons_append, List.cons.injEq] at h
      rw [h.2] at hs
      simp at hs
  | cons c u ih =>
    cases v with
    | nil =>
      exfalso
      simp only [List.nil_append, List.cons_append, List.cons.injEq] at h
      rw [← h.2] at ht
      simp at ht
    | cons d v =>
      simp only [List.cons_append, List.cons.injEq] at h
      obtain ⟨h1, h2⟩ := ih h.2
      exact ⟨by rw [h.1, h1], h2⟩

theorem showStr_ok {print : List Nat → Outcome (List Tok)} {cs : List Nat} {s : Text} (h : showStr print cs = .ok s) :
    ∃ ts, print cs = .ok ts ∧ s = ([34] ++ ts.flatMap Tok.text ++ [34, 32]) ++ 40 :: (asHex cs ++ [41]) := by
  unfold showStr at h
  obtain ⟨ts, h1, h2⟩ := Outcome.bind_eq_ok.mp h
  exact ⟨ts, h1, by rw [← ok_inj h2]; simp⟩

theorem str_align {print : List Nat → Outcome (List Tok)} {cs ds : List Nat} {s t : Text} (hc : Bytes cs) (hd : Bytes ds)
    (hs : showStr print cs = .ok s) (ht : showStr print ds = .ok t) {u v : Text} (h : u ++ s = v ++ t) :
    u = v ∧ cs = ds ∧ s = t := by
  obtain ⟨ts, h1, rfl⟩ := showStr_ok hs
  obtain ⟨us, h2, rfl⟩ := showStr_ok ht
  have n1 : 40 ∉ asHex cs ++ [41] := by simp [(asHex_chars cs hc).1]
  have n2 : 40 ∉ asHex ds ++ [41] := by simp [(asHex_chars ds hd).1]
  rw [← List.append_assoc, ← List.append_assoc v] at h
  obtain ⟨h3, h4⟩ := sep_paren n1 n2 h
  have h5 := asHex_inj cs ds hc hd (List.append_cancel_right h4)
  subst h5
  rw [h1] at h2
  injection h2 with h2
  subst h2
  exact ⟨List.append_cancel_right h3, rfl, rfl⟩

theorem exact_str (print : List Nat → Outcome (List Tok)) :
    Exact (fun s : {cs : List Nat // Bytes cs} => showStr print s.1) where
  sep {a b} s t ha hb u v h := by
    have := str_align a.2 b.2 ha hb (u := u ++ [32]) (v := v ++ [32]) (by simpa using h)
    exact ⟨List.append_cancel_right this.1, this.2.2⟩
  inj {a b} s ha hb := Subtype.ext (str_align a.2 b.2 ha hb (u := []) (v := []) rfl).2.1
  last {a} s h := by
    obtain ⟨ts, _, e⟩ := showStr_ok h
    exact ⟨[34] ++ ts.flatMap Tok.text ++ [34, 32] ++ 40 :: asHex a.1, 41, by rw [e]; simp, by omega⟩
  null {a} s h r e := by
    exfalso
    obtain ⟨ts, _, e'⟩ := showStr_ok h
    rw [e'] at e
    have e : (([34] ++ ts.flatMap Tok.text ++ [34, 32]) ++ 40 :: asHex a.1) ++ [41] = (r ++ [108]) ++ [41] := by
      simpa using e
    have e := List.append_cancel_right e
    rcases List.eq_nil_or_concat (asHex a.1) with hx | ⟨w, c, hx⟩
    · rw [hx] at e
      simpa using (List.append_inj' e rfl).2
    · rw [hx] at e
      have e : ([34] ++ ts.flatMap Tok.text ++ [34, 32] ++ 40 :: w) ++ [c] = r ++ [108] := by simpa using e
      have := (List.append_inj' e rfl).2
      simp only [List.cons.injEq, and_true] at this
      exact (asHex_chars a.1 a.2).2 (by rw [hx, this]; simp)

/-! Sequences. -/

/-- What precedes the space before an item: the items before it, last one first. -/
def pre (o : Nat) (u : Text) : List Text → Text
  | [] => u ++ [32, o]
  | t :: r => pre o u r ++ 32 :: t ++ [44]

theorem pre_start (o : Nat) : ∀ ts, ∃ w, pre o [] ts = 32 :: w
  | [] => ⟨[o], rfl⟩
  | t :: ts => by
    obtain ⟨w, hw⟩ := pre_start o ts
    exact ⟨w ++ 32 :: t ++ [44], by simp [pre, hw]⟩

theorem pre_align {o : Nat} (ho : o ≠ 44) (p : Printer α) (hp : Aligned p) {u v : Text} :
    ∀ (rs rt : List Text) (as bs : List α) (s t : Text) (a b : α), p a = .ok s → p b = .ok t →
      List.Forall₂ (fun a s => p a = .ok s) as rs → List.Forall₂ (fun a s => p a = .ok s) bs rt →
      pre o u rs ++ 32 :: s = pre o v rt ++ 32 :: t → u = v ∧ a = b ∧ as = bs := by
  intro rs
  induction rs with
  | nil =>
    intro rt as bs s t a b ha hb has hbs h
    obtain ⟨h1, h2⟩ := hp.sep ha hb _ _ h
    cases has
    cases hbs with
    | nil =>
      refine ⟨List.append_cancel_right h1, hp.inj ha (h2 ▸ hb), rfl⟩
    | @cons x y xs ys hx hxs =>
      have h1 : (u ++ [32]) ++ [o] = pre o v ys ++ 32 :: y ++ [44] := by simpa [pre] using h1
      have := (List.append_inj' h1 rfl).2
      simp only [List.cons.injEq, and_true] at this
      exact absurd this ho
  | cons r rs ih =>
    intro rt as bs s t a b ha hb has hbs h
    obtain ⟨h1, h2⟩ := hp.sep ha hb _ _ h
    cases has with
    | cons hx hxs =>
      cases hbs with
      | nil =>
        have h1 : pre o u rs ++ 32 :: r ++ [44] = (v ++ [32]) ++ [o] := by simpa [pre] using h1
        have := (List.append_inj' h1 rfl).2
        simp only [List.cons.injEq, and_true] at this
        exact absurd this.symm ho
      | cons hy hys =>
        have h3 := List.append_cancel_right h1
        obtain ⟨e1, e2, e3⟩ := ih _ _ _ _ _ _ _ hx hy hxs hys h3
        exact ⟨e1, hp.inj ha (h2 ▸ hb), by rw [e2, e3]⟩

theorem showRest_ok (o : Nat) (p : Printer α) (u : Text) : ∀ (xs : List α) (r : Text), showRest p xs = .ok r →
    ∀ (x : α) (t : Text) (as : List α) (ts : List Text), p x = .ok t → List.Forall₂ (fun a s => p a = .ok s) as ts →
    ∃ (a : α) (s : Text) (as' : List α) (ts' : List Text), p a = .ok s ∧ List.Forall₂ (fun a s => p a = .ok s) as' ts' ∧
      pre o u ts ++ 32 :: t ++ r = pre o u ts' ++ 32 :: s ∧ a :: as' = xs.reverse ++ x :: as
  | [], r, h, x, t, as, ts, hx, has => by
    have := ok_inj h
    subst this
    exact ⟨x, t, as, ts, hx, has, by simp, rfl⟩
  | y :: ys, r, h, x, t, as, ts, hx, has => by
    obtain ⟨ty, h1, h⟩ := Outcome.bind_eq_ok.mp h
    obtain ⟨r', h2, h⟩ := Outcome.bind_eq_ok.mp h
    have := ok_inj h
    subst this
    obtain ⟨a, s, as', ts', e1, e2, e3, e4⟩ := showRest_ok o p u ys r' h2 y ty (x :: as) (t :: ts) h1 (.cons hx has)
    refine ⟨a, s, as', ts', e1, e2, ?_, by rw [e4]; simp⟩
    rw [← e3]
    simp [pre]

theorem showSeq_ok {o c : Nat} {p : Printer α} {xs : List α} {s : Text} (h : showSeq o c p xs = .ok s) :
    (xs = [] ∧ s = [o, 32, 32, c]) ∨
    (∀ u, ∃ a t as ts, p a = .ok t ∧ List.Forall₂ (fun a s => p a = .ok s) as ts ∧ a :: as = xs.reverse ∧
      u ++ 32 :: s = pre o u ts ++ 32 :: t ++ [32, c]) := by
  cases xs with
  | nil =>
    left
    exact ⟨rfl, (ok_inj h).symm⟩
  | cons x xs =>
    right
    intro u
    obtain ⟨t, r, h2, h3, rfl⟩ : ∃ t r, p x = .ok t ∧ showRest p xs = .ok r ∧ s = [o, 32] ++ (t ++ r) ++ [32, c] := by
      cases h2 : p x with
      | ok t =>
        cases h3 : showRest p xs with
        | ok r =>
          simp only [showSeq, h2, h3, Outcome.ok_bind] at h
          exact ⟨t, r, rfl, rfl, (ok_inj h).symm⟩
        | _ => simp [showSeq, h2, h3] at h
      | _ => simp [showSeq, h2] at h
    obtain ⟨a, s, as, ts, e1, e2, e3, e4⟩ := showRest_ok o p u xs r h3 x t [] [] h2 .nil
    refine ⟨a, s, as, ts, e1, e2, by rw [e4]; simp, ?_⟩
    rw [← e3]
    simp [pre]

theorem seq_align {o c : Nat} (ho : o ≠ 44) {p : Printer α} (hp : Aligned p) {xs ys : List α} {s t : Text}
    (hs : showSeq o c p xs = .ok s) (ht : showSeq o c p ys = .ok t) {u v : Text} (h : u ++ 32 :: s = v ++ 32 :: t) :
    u = v ∧ xs = ys := by
  have mixed : ∀ {u v : Text} {a : α} {t : Text} {ts : List Text}, p a = .ok t →
      u ++ 32 :: [o, 32, 32, c] ≠ pre o v ts ++ 32 :: t ++ [32, c] := by
    intro u v a t ts ha h
    obtain ⟨r, d, rfl, hd⟩ := hp.last ha
    have h : (u ++ 32 :: [o, 32]) ++ [32, c] = (pre o v ts ++ 32 :: (r ++ [d])) ++ [32, c] := by simpa using h
    have h : (u ++ 32 :: [o]) ++ [32] = (pre o v ts ++ 32 :: r) ++ [d] := by simpa using List.append_cancel_right h
    have := (List.append_inj' h rfl).2
    simp only [List.cons.injEq, and_true] at this
    exact hd this.symm
  rcases showSeq_ok hs with ⟨rfl, rfl⟩ | h1 <;> rcases showSeq_ok ht with ⟨rfl, rfl⟩ | h2
  · exact ⟨List.append_cancel_right h, rfl⟩
  · obtain ⟨a, w, as, ts, e1, e2, e3, e4⟩ := h2 v
    rw [e4] at h
    exact absurd h (mixed e1)
  · obtain ⟨a, w, as, ts, e1, e2, e3, e4⟩ := h1 u
    rw [e4] at h
    exact absurd h.symm (mixed e1)
  · obtain ⟨a, w, as, ts, e1, e2, e3, e4⟩ := h1 u
    obtain ⟨b, w', bs, ts', f1, f2, f3, f4⟩ := h2 v
    rw [e4, f4] at h
    obtain ⟨g1, g2, g3⟩ := pre_align ho p hp _ _ _ _ _ _ _ _ e1 f1 e2 f2 (List.append_cancel_right h)
    refine ⟨g1, ?_⟩
    rw [← List.reverse_inj, ← e3, ← f3, g2, g3]

theorem showSeq_end {o c : Nat} {p : Printer α} {xs : List α} {s : Text} (h : showSeq o c p xs = .ok s) :
    ∃ r, s = r ++ [32, c] := by
  rcases showSeq_ok h with ⟨_, rfl⟩ | h
  · exact ⟨[o, 32], rfl⟩
  · obtain ⟨a, t, as, ts, _, _, _, e⟩ := h []
    cases ts with
    | nil => exact ⟨[o, 32] ++ t, by simpa [pre] using e⟩
    | cons t' ts =>
      obtain ⟨w, hw⟩ := pre_start o (t' :: ts)
      exact ⟨w ++ 32 :: t, by rw [hw] at e; simpa using e⟩

theorem exact_of_align {p : Printer α} (hp : ∀ {a b s t}, p a = .ok s → p b = .ok t → ∀ {u v}, u ++ 32 :: s = v ++ 32 :: t →
    u = v ∧ a = b) (c : Nat) (hc : c ≠ 32) (hl : ∀ {a s}, p a = .ok s → ∃ r, s = r ++ [32, c]) : Exact p where
  sep {a b} s t ha hb u v h := by
    obtain ⟨h1, h2⟩ := hp ha hb h
    subst h2
    rw [ha] at hb
    exact ⟨h1, ok_inj hb⟩
  inj ha hb := (hp ha hb (u := []) (v := []) rfl).2
  last h := by
    obtain ⟨r, e⟩ := hl h
    exact ⟨r ++ [32], c, by rw [e]; simp, hc⟩
  null h r e := by
    exfalso
    obtain ⟨r', e'⟩ := hl h
    rw [e'] at e
    have e : (r' ++ [32]) ++ [c] = (r ++ [108]) ++ [41] := by simpa using e
    have := List.append_inj' e rfl
    have := List.append_inj' this.1 rfl
    simp at this

theorem exact_seq {o c : Nat} (ho : o ≠ 44) (hc : c ≠ 32) {p : Printer α} (hp : Aligned p) : Exact (showSeq o c p) :=
  exact_of_align (fun {_ _ _ _} ha hb {_ _} h => seq_align ho hp ha hb h) c hc (fun {_ _} h => showSeq_end h)

/-! Pairs and tuples. -/

theorem showPair_ok {p : Printer α} {q : Printer β} {x : α × β} {s : Text} (h : showPair p q x = .ok s) :
    ∃ t u, p x.1 = .ok t ∧ q x.2 = .ok u ∧ s = [40, 32] ++ t ++ [44, 32] ++ u ++ [32, 41] := by
  obtain ⟨t, h1, h⟩ := Outcome.bind_eq_ok.mp h
  obtain ⟨u, h2, h⟩ := Outcome.bind_eq_ok.mp h
  exact ⟨t, u, h1, h2, (ok_inj h).symm⟩

theorem exact_pair {p : Printer α} {q : Printer β} (hp : Exact p) (hq : Exact q) : Exact (showPair p q) := by
  refine exact_of_align ?_ 41 (by omega) ?_
  · intro a b s t ha hb u v h
    obtain ⟨s1, s2, e1, e2, rfl⟩ := showPair_ok ha
    obtain ⟨t1, t2, f1, f2, rfl⟩ := showPair_ok hb
    have h : ((u ++ 32 :: [40] ++ 32 :: s1 ++ [44]) ++ 32 :: s2) ++ [32, 41] =
        ((v ++ 32 :: [40] ++ 32 :: t1 ++ [44]) ++ 32 :: t2) ++ [32, 41] := by simpa using h
    obtain ⟨h1, h2⟩ := hq.sep e2 f2 _ _ (List.append_cancel_right h)
    obtain ⟨h3, h4⟩ := hp.sep e1 f1 _ _ (List.append_cancel_right h1)
    exact ⟨List.append_cancel_right h3, Prod.ext (hp.inj e1 (h4 ▸ f1)) (hq.inj e2 (h2 ▸ f2))⟩
  · intro a s h
    obtain ⟨s1, s2, e1, e2, rfl⟩ := showPair_ok h
    exact ⟨_, rfl⟩

theorem front_end {n : Nat} {A : Fin n → Type} {p : (i : Fin n) → Printer (A i)} {x : (i : Fin n) → A i} {k : Nat}
    {r : Text} (h : showFront p x k = .ok r) : ∃ w, [123, 32] ++ r = w ++ [32] := by
  induction k generalizing r with
  | zero => rw [← ok_inj h]; exact ⟨[123], rfl⟩
  | succ k ih =>
    obtain ⟨r0, h1, h⟩ := Outcome.bind_eq_ok.mp h
    split at h
    · obtain ⟨t, h2, h⟩ := Outcome.bind_eq_ok.mp h
      rw [← ok_inj h]
      exact ⟨[123, 32] ++ r0 ++ t ++ [44], by simp⟩
    · rw [← ok_inj h]; exact ih h1

theorem front_align {n : Nat} {A : Fin n → Type} {p : (i : Fin n) → Printer (A i)} (hp : ∀ i, Exact (p i))
    {x y : (i : Fin n) → A i} {k : Nat} (hk : k ≤ n) {r r' : Text} (h : showFront p x k = .ok r)
    (h' : showFront p y k = .ok r') {u v : Text} (e : u ++ [123, 32] ++ r = v ++ [123, 32] ++ r') :
    u = v ∧ ∀ i : Fin n, i.1 < k → x i = y i := by
  induction k generalizing r r' with
  | zero =>
    rw [← ok_inj h, ← ok_inj h'] at e
    exact ⟨List.append_cancel_right (List.append_cancel_right e), fun i hi => by omega⟩
  | succ k ih =>
    obtain ⟨r0, h1, h⟩ := Outcome.bind_eq_ok.mp h
    obtain ⟨r1, h2, h'⟩ := Outcome.bind_eq_ok.mp h'
    have hk' : k < n := by omega
    rw [dif_pos hk'] at h h'
    obtain ⟨t0, h3, h⟩ := Outcome.bind_eq_ok.mp h
    obtain ⟨t1, h4, h'⟩ := Outcome.bind_eq_ok.mp h'
    rw [← ok_inj h, ← ok_inj h'] at e
    obtain ⟨w0, hw0⟩ := front_end h1
    obtain ⟨w1, hw1⟩ := front_end h2
    have e : (u ++ ([123, 32] ++ r0)) ++ t0 ++ [44, 32] = (v ++ ([123, 32] ++ r1)) ++ t1 ++ [44, 32] := by simpa using e
    have e := List.append_cancel_right e
    rw [hw0, hw1] at e
    obtain ⟨e1, e2⟩ := (hp _).sep h3 h4 (u ++ w0) (v ++ w1) (by simpa using e)
    have e3 : u ++ [123, 32] ++ r0 = v ++ [123, 32] ++ r1 := by
      rw [List.append_assoc, List.append_assoc, hw0, hw1, ← List.append_assoc, ← List.append_assoc, e1]
    obtain ⟨g1, g2⟩ := ih (by omega) h1 h2 e3
    refine ⟨g1, fun i hi => ?_⟩
    rcases Nat.lt_succ_iff_lt_or_eq.mp hi with hi | hi
    · exact g2 i hi
    · have : i = ⟨k, hk'⟩ := Fin.ext hi
      subst this
      exact (hp _).inj h3 (e2 ▸ h4)

theorem showTuple_ok {n : Nat} {A : Fin (n + 1) → Type} {p : (i : Fin (n + 1)) → Printer (A i)}
    {x : (i : Fin (n + 1)) → A i} {s : Text} (h : showTuple p x = .ok s) :
    ∃ r t, showFront p x n = .ok r ∧ p (Fin.last n) (x (Fin.last n)) = .ok t ∧ s = [123, 32] ++ r ++ t ++ [32, 125] := by
  obtain ⟨r, h1, h⟩ := Outcome.bind_eq_ok.mp h
  obtain ⟨t, h2, h⟩ := Outcome.bind_eq_ok.mp h
  exact ⟨r, t, h1, h2, (ok_inj h).symm⟩

theorem exact_tuple {n : Nat} {A : Fin (n + 1) → Type} {p : (i : Fin (n + 1)) → Printer (A i)} (hp : ∀ i, Exact (p i)) :
    Exact (showTuple p) := by
  refine exact_of_align ?_ 125 (by omega) ?_
  · intro a b s t ha hb u v h
    obtain ⟨r, s, e1, e2, rfl⟩ := showTuple_ok ha
    obtain ⟨r', s', f1, f2, rfl⟩ := showTuple_ok hb
    obtain ⟨w0, hw0⟩ := front_end e1
    obtain ⟨w1, hw1⟩ := front_end f1
    have h : (u ++ [32] ++ ([123, 32] ++ r)) ++ s ++ [32, 125] = (v ++ [32] ++ ([123, 32] ++ r')) ++ s' ++ [32, 125] := by
      simpa using h
    have h := List.append_cancel_right h
    rw [hw0, hw1] at h
    obtain ⟨h1, h2⟩ := (hp _).sep e2 f2 (u ++ [32] ++ w0) (v ++ [32] ++ w1) (by simpa using h)
    have h3 : (u ++ [32]) ++ [123, 32] ++ r = (v ++ [32]) ++ [123, 32] ++ r' := by
      rw [List.append_assoc _ [123, 32], List.append_assoc _ [123, 32], hw0, hw1, ← List.append_assoc,
        ← List.append_assoc, h1]
    obtain ⟨g1, g2⟩ := front_align hp (by omega) e1 f1 h3
    refine ⟨List.append_cancel_right g1, funext fun i => ?_⟩
    by_cases hi : i.1 < n
    · exact g2 i hi
    · have : i = Fin.last n := Fin.ext (by simp; omega)
      subst this
      exact (hp _).inj e2 (h2 ▸ f2)
  · intro a s h
    obtain ⟨r, t, e1, e2, rfl⟩ := showTuple_ok h
    exact ⟨_, rfl⟩

/-! Pointers. -/

theorem exact_nullable {p : Printer α} (hp : Exact p) (hn : ∀ a, p a ≠ .ok [40, 110, 117, 108, 108, 41]) :
    Exact (showNullable p) where
  sep {a b} s t ha hb u v h := by
    have mixed : ∀ {a : α} {s u v : Text}, p a = .ok s → u ++ 32 :: s ≠ v ++ 32 :: [40, 110, 117, 108, 108, 41] := by
      intro a s u v ha h
      obtain ⟨r, c, rfl, hc⟩ := hp.last ha
      have h1 : (u ++ 32 :: r) ++ [c] = (v ++ 32 :: [40, 110, 117, 108, 108]) ++ [41] := by simpa using h
      obtain ⟨g1, h2⟩ := List.append_inj' h1 rfl
      simp only [List.cons.injEq, and_true] at h2
      subst h2
      cases hr : r.reverse with
      | nil =>
        have : r = [] := List.reverse_eq_nil_iff.mp hr
        subst this
        have h1 : u ++ [32] = (v ++ 32 :: [40, 110, 117, 108]) ++ [108] := by simpa using g1
        simpa using (List.append_inj' h1 rfl).2
      | cons d r' =>
        have : r = r'.reverse ++ [d] := by rw [← List.reverse_reverse r, hr]; simp
        subst this
        have h1 : (u ++ 32 :: r'.reverse) ++ [d] = (v ++ 32 :: [40, 110, 117, 108]) ++ [108] := by
          simpa only [List.append_assoc, List.cons_append, List.nil_append] using g1
        have h3 := (List.append_inj' h1 rfl).2
        simp only [List.cons.injEq, and_true] at h3
        subst h3
        have h4 := hp.null ha r'.reverse (by simp)
        rw [h4] at ha
        exact hn a ha
    cases a with
    | none =>
      cases b with
      | none =>
        have e := ok_inj ha
        have f := ok_inj hb
        subst e
        subst f
        exact ⟨List.append_cancel_right h, rfl⟩
      | some b =>
        have e := ok_inj ha
        subst e
        exact absurd h.symm (mixed hb)
    | some a =>
      cases b with
      | none =>
        have e := ok_inj hb
        subst e
        exact absurd h (mixed ha)
      | some b => exact hp.sep ha hb u v h
  inj {a b} s ha hb := by
    cases a with
    | none =>
      cases b with
      | none => rfl
      | some b =>
        have e := ok_inj ha
        subst e
        exact absurd hb (hn b)
    | some a =>
      cases b with
      | none =>
        have e := ok_inj hb
        subst e
        exact absurd ha (hn a)
      | some b => rw [hp.inj ha hb]
  last {a} s h := by
    cases a with
    | none =>
      have e := ok_inj h
      subst e
      exact ⟨[40, 110, 117, 108, 108], 41, rfl, by omega⟩
    | some a => exact hp.last h
  null {a} s h r e := by
    cases a with
    | none => exact (ok_inj h).symm
    | some a => exact hp.null h r e

/-- Only a null pointer is shown as one. -/
theorem ne_null : ∀ {t : Ty}, (∀ t', t ≠ .nullable t') → ∀ a, t.show a ≠ .ok [40, 110, 117, 108, 108, 41] := by
  have seq : ∀ {α : Type} {o c : Nat} {p : Printer α} {xs : List α}, showSeq o c p xs ≠ .ok [40, 110, 117, 108, 108, 41] := by
    intro α o c p xs h
    obtain ⟨r, e⟩ := showSeq_end h
    have e : [40, 110, 117, 108] ++ [108, 41] = r ++ [32, c] := e
    simpa using (List.append_inj' e rfl).2
  intro t ht a h
  cases t with
  | bool => have := ok_inj h; cases a <;> simp at this
  | int =>
    have := showInt_chars h 40 (by simp)
    omega
  | str e =>
    obtain ⟨ts, _, e⟩ := showStr_ok h
    simp at e
  | vec t => exact seq h
  | pair t u =>
    obtain ⟨x, y, _, _, e⟩ := showPair_ok h
    simp at e
  | tuple n ts =>
    obtain ⟨x, y, _, _, e⟩ := showTuple_ok h
    simp at e
  | set => exact seq h
  | map k v => exact seq h
  | nullable t => exact ht t rfl

theorem exact_ty : ∀ t : Ty, t.NoNestedNull → Exact t.show
  | .bool, _ => exact_bool
  | .int, _ => exact_int
  | .str e, _ => exact_str e.print
  | .vec t, h => exact_seq (by omega) (by omega) (exact_ty t h).toAligned
  | .pair t u, h => exact_pair (exact_ty t h.1) (exact_ty u h.2)
  | .tuple _ ts, h => exact_tuple fun i => exact_ty (ts i) (h i)
  | .set, _ => exact_seq (by omega) (by omega) exact_int.toAligned
  | .map k v, h => exact_seq (by omega) (by omega) (exact_pair (exact_ty k h.1) (exact_ty v h.2)).toAligned
  | .nullable .bool, h => exact_nullable exact_bool (ne_null (t := .bool) (by simp))
  | .nullable .int, h => exact_nullable exact_int (ne_null (t := .int) (by simp))
  | .nullable (.str e), h => exact_nullable (exact_str e.print) (ne_null (t := .str e) (by simp))
  | .nullable (.vec t), h => exact_nullable (exact_ty (.vec t) h) (ne_null (t := .vec t) (by simp))
  | .nullable (.pair t u), h => exact_nullable (exact_ty (.pair t u) h) (ne_null (t := .pair t u) (by simp))
  | .nullable (.tuple n ts), h => exact_nullable (exact_ty (.tuple n ts) h) (ne_null (t := .tuple n ts) (by simp))
  | .nullable .set, h => exact_nullable (exact_ty .set h) (ne_null (t := .set) (by simp))
  | .nullable (.map k v), h => exact_nullable (exact_ty (.map k v) h) (ne_null (t := .map k v) (by simp))

end Printing
end Verif
