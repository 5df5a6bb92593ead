import Mathlib.Tactic.SplitIfs
import Verif.Spec.Format
import Verif.Lemmas.Printing
/-
Lemmas on the format settings of streams.
-/
namespace Verif
namespace Printing
open Unicode Floating Sink
variable {α β κ : Type}

/-! ### Steps -/

/-- From `o` to `o'` the text `t` is written; `h` tells whether the fill character is set. -/
structure Step (o : Sink) (t : Text) (h : Prop) (o' : Sink) : Prop where
  hex : o'.hex = o.hex
  width : o'.width = 0
  filled : h → o'.fill = 48
  kept : ¬h → o'.fill = o.fill
  out : o.hex = false → o.width = 0 → o'.out = o.out ++ t

theorem Step.trans {o o1 o2 : Sink} {t u : Text} {h k : Prop} (a : Step o t h o1) (b : Step o1 u k o2) :
    Step o (t ++ u) (h ∨ k) o2 where
  hex := b.hex.trans a.hex
  width := b.width
  filled hk := by
    by_cases k' : k
    · exact b.filled k'
    · rw [b.kept k', a.filled (hk.resolve_right k')]
  kept hk := by
    rw [not_or] at hk
    rw [b.kept hk.2, a.kept hk.1]
  out h1 h2 := by rw [b.out (a.hex.trans h1) a.width, a.out h1 h2, List.append_assoc]

theorem Step.congr {o o' : Sink} {t u : Text} {h k : Prop} (a : Step o t h o') (e : t = u) (hk : h ↔ k) : Step o u k o' := by
  subst e
  exact ⟨a.hex, a.width, fun x => a.filled (hk.2 x), fun x => a.kept fun y => x (hk.1 y), a.out⟩

theorem step_put (t : Text) (o : Sink) : Step o t False (o.put t) where
  hex := rfl
  width := rfl
  filled := False.elim
  kept _ := rfl
  out _ h := by simp [put, h]

/-! ### Hexadecimal numbers -/

theorem hexDigits_two {n : Nat} (h : n < 256) (w : Nat) :
    List.replicate (w + 2 - (hexDigits n).length) 48 ++ hexDigits n = List.replicate w 48 ++ hex2 n := by
  unfold hexDigits
  split_ifs with h1
  · have e1 : n / 16 = 0 := by omega
    have e2 : n % 16 = n := by omega
    have : w + 2 - [hexDigit n].length = w + 1 := rfl
    rw [this, List.replicate_succ', hex2, e1, e2]
    simp [hexDigit]
  · have h2 : n / 16 < 16 := by omega
    unfold hexDigits
    rw [if_pos h2]
    simp [hex2]

/-- Both settings at once: what `putHex` writes does not depend on the settings before. -/
theorem putHex_eq {n : Nat} (h : n < 256) (w : Nat) (o : Sink) :
    o.putHex (w + 2) n = ⟨o.out ++ (List.replicate w 48 ++ hex2 n), true, 48, 0⟩ := by
  have e : ((n : Int) % 2^64).toNat = n := by omega
  simp only [putHex, Sink.putInt, put, if_true, e, List.append_assoc, hexDigits_two h]

theorem step_hex {n : Nat} (h : n < 256) (w : Nat) (o : Sink) (t : Text) :
    Step o (t ++ (List.replicate w 48 ++ hex2 n)) True (saved (fun o => (o.put t).putHex (w + 2) n) o) where
  hex := rfl
  width := by simp [saved, putHex_eq h]
  filled _ := by simp [saved, putHex_eq h]
  kept h := absurd trivial h
  out h1 h2 := by simp [saved, putHex_eq h, put, h2]

theorem step_char {x w c : Nat} (o : Sink) :
    Step o (if c = 92 then [92, 92] else if c < 0x20 ∨ c = 0x7f then [92, x] ++ (List.replicate w 48 ++ hex2 c) else [c])
      (c ≠ 92 ∧ (c < 0x20 ∨ c = 0x7f)) (putChar x (w + 2) c o) := by
  unfold putChar
  split_ifs with h1 h2
  · exact (step_put _ o).congr rfl (by simp [h1])
  · exact (step_hex (by omega) w o _).congr rfl (by simp [h1, h2])
  · exact (step_put _ o).congr rfl (by simp [h2])

theorem step_codepage (c : Nat) (o : Sink) : Step o (Tok.code c).text True (codepage c o) := by
  have e : ∀ n (o : Sink), o.putHex 2 (n % 256) = ⟨o.out ++ hex2 (n % 256), true, 48, 0⟩ := fun n o => by
    have := putHex_eq (Nat.mod_lt n (by decide : 256 > 0)) 0 o
    simpa using this
  unfold codepage
  simp only [Nat.reducePow]
  by_cases h : c < 0x10000
  · simp only [h, if_true]
    exact ⟨rfl, by simp [saved, e], fun _ => by simp [saved, e], fun h => absurd trivial h,
      fun _ h2 => by simp [saved, e, put, h2, Tok.text, h]⟩
  · simp only [h, if_false]
    exact ⟨rfl, by simp [saved, e], fun _ => by simp [saved, e], fun h => absurd trivial h,
      fun _ h2 => by simp [saved, e, put, h2, Tok.text, h]⟩

/-- The bytes that are written in hexadecimal notation are bytes. -/
def Small : Tok → Prop
  | .hex b => b < 256
  | _ => True

theorem step_tok (t : Tok) (ht : Small t) (o : Sink) : ∃ h, Step o t.text h (o.tok t) := by
  cases t with
  | ascii c =>
    refine ⟨_, (step_char (x := 120) (w := 0) (c := c) o).congr ?_ Iff.rfl⟩
    simp [Tok.text]
  | wide c =>
    refine ⟨_, (step_char (x := 117) (w := 2) (c := c) o).congr ?_ Iff.rfl⟩
    simp [Tok.text, List.replicate]
  | hex c => exact ⟨_, (step_hex ht 0 o [92, 120]).congr (by simp [Tok.text]) Iff.rfl⟩
  | code c => exact ⟨_, step_codepage c o⟩

theorem step_toks (ts : List Tok) (hts : ∀ t ∈ ts, Small t) :
    ∀ (o : Sink), o.width = 0 → ∃ h, Step o (ts.flatMap Tok.text) h (ts.foldl (fun o t => o.tok t) o) := by
  induction ts with
  | nil => exact fun o h => ⟨False, rfl, h, False.elim, fun _ => rfl, fun _ _ => by simp⟩
  | cons t ts ih =>
    intro o h
    obtain ⟨k, hk⟩ := step_tok t (hts t (by simp)) o
    obtain ⟨l, hl⟩ := ih (fun t ht => hts t (List.mem_cons_of_mem _ ht)) (o.tok t) hk.width
    exact ⟨_, hk.trans hl⟩

theorem restAsHex_eq (cs : List Nat) (hc : Bytes cs) : ∀ o : Sink, o.hex = true → o.fill = 48 → o.width = 0 →
    restAsHex cs o = { o with out := o.out ++ cs.flatMap fun c => 32 :: hex2 c } := by
  induction cs with
  | nil => intro o _ _ _; simp [restAsHex]
  | cons c cs ih =>
    intro o h1 h2 h3
    have e := putHex_eq (hc c (by simp)) 0 (o.put [32])
    simp only [Nat.zero_add] at e
    unfold restAsHex
    rw [e, ih (fun x hx => hc x (List.mem_cons_of_mem _ hx)) _ rfl rfl rfl]
    simp [put, h1, h2, h3]

theorem asHex_flatMap : ∀ (c : Nat) (cs : List Nat),
    Printing.asHex (c :: cs) = hex2 c ++ cs.flatMap fun c => 32 :: hex2 c
  | c, [] => by simp [Printing.asHex]
  | c, d :: cs => by
    rw [Printing.asHex, asHex_flatMap d cs]
    · simp
    · simp

theorem step_asHex (cs : List Nat) (hc : Bytes cs) (o : Sink) (ho : o.width = 0) :
    Step o (Printing.asHex cs) (cs ≠ []) (o.asHex cs) := by
  cases cs with
  | nil => exact ⟨rfl, ho, fun h => absurd rfl h, fun _ => rfl, fun _ _ => by simp [Sink.asHex, saved, Printing.asHex]⟩
  | cons c cs =>
    have e := putHex_eq (hc c (by simp)) 0 o
    simp only [Nat.zero_add] at e
    have e' : o.asHex (c :: cs) = ⟨o.out ++ hex2 c ++ cs.flatMap fun c => 32 :: hex2 c, o.hex, 48, 0⟩ := by
      simp only [Sink.asHex, saved]
      rw [e, restAsHex_eq cs (fun x hx => hc x (List.mem_cons_of_mem _ hx)) _ rfl rfl rfl]
      simp
    rw [e', asHex_flatMap]
    exact ⟨rfl, rfl, fun _ => rfl, fun h => absurd (by simp) h, fun _ _ => by simp⟩

/-! ### Which bytes are printed -/

/-- What holds of the result if there is one. -/
def Holds (P : α → Prop) (x : Outcome α) : Prop := ∀ a, x = .ok a → P a

theorem holds_ok {P : α → Prop} {a : α} (h : P a) : Holds P (.ok a) := fun b e => by cases e; exact h
theorem holds_bind {P : β → Prop} {x : Outcome α} {f : α → Outcome β} (h : ∀ a, x = .ok a → Holds P (f a)) :
    Holds P (x >>= f) := by
  cases x with
  | ok a => exact h a rfl
  | throws e => intro b h; cases h
  | ub => intro b h; cases h
  | diverges => intro b h; cases h
theorem holds_ite {P : α → Prop} {c : Prop} [Decidable c] {x y : Outcome α} (h1 : Holds P x) (h2 : Holds P y) :
    Holds P (if c then x else y) := by
  split_ifs
  · exact h1
  · exact h2

theorem rd_byte {cs : List Nat} (hc : Bytes cs) {i b : Nat} (h : rd cs i = .ok b) : b < 256 := by
  unfold rd at h
  cases hi : cs[i]? with
  | none => rw [hi] at h; cases h
  | some c =>
    rw [hi] at h
    cases h
    exact hc _ (List.mem_of_getElem? hi)

theorem utf8Step_small (cs : List Nat) (hc : Bytes cs) : Holds (fun r => Small r.1) (printUTF8Step cs) := by
  unfold printUTF8Step
  refine holds_bind fun c0 h0 => ?_
  have := rd_byte hc h0
  repeat' first
    | exact holds_ok this
    | exact holds_ok trivial
    | apply holds_ite
    | refine holds_bind fun _ _ => ?_

theorem cesu8Step_small (cs : List Nat) (hc : Bytes cs) : Holds (fun r => Small r.1) (printCESU8Step cs) := by
  unfold printCESU8Step
  refine holds_bind fun c0 h0 => ?_
  have := rd_byte hc h0
  repeat' first
    | exact holds_ok this
    | exact holds_ok trivial
    | apply holds_ite
    | refine holds_bind fun _ _ => ?_

theorem utf16BEStep_small (cs : List Nat) (hc : Bytes cs) :
    Holds (fun r => ∀ t ∈ r.1, Small t) (printUTF16BEStep cs) := by
  unfold printUTF16BEStep
  refine holds_bind fun c0 h0 => ?_
  have b0 := rd_byte hc h0
  have hpre : ∀ t ∈ (if 2 > cs.length then [Tok.hex c0] else []), Small t := by
    split_ifs <;> simp [Small, b0]
  have app : ∀ ts : List Tok, (∀ t ∈ ts, Small t) →
      ∀ t ∈ (if 2 > cs.length then [Tok.hex c0] else []) ++ ts, Small t := fun ts h t ht =>
    (List.mem_append.1 ht).elim (hpre t) (h t)
  have jp : ∀ isAscii : Bool, Holds (fun r : List Tok × Option Nat => ∀ t ∈ r.1, Small t)
      (if isAscii = true then do
        let c1 ← rd cs 1
        Outcome.ok ((if 2 > cs.length then [Tok.hex c0] else []) ++ [Tok.wide c1], some 1)
      else
        if (decide (c0 ≤ 215) || decide (224 ≤ c0)) = true then do
          let c1 ← rd cs 1
          Outcome.ok ((if 2 > cs.length then [Tok.hex c0] else []) ++ [Tok.code (c0 * 2 ^ 8 + c1)], some 1)
        else
          if 4 > cs.length then do
            let c1 ← rd cs 1
            let c2 ← rd cs 2
            let c3 ← rd cs 3
            Outcome.ok ((if 2 > cs.length then [Tok.hex c0] else []) ++ [Tok.hex c0, Tok.hex c1, Tok.hex c2, Tok.hex c3], none)
          else do
            let c1 ← rd cs 1
            let c2 ← rd cs 2
            let c3 ← rd cs 3
            Outcome.ok ((if 2 > cs.length then [Tok.hex c0] else []) ++
              [Tok.code (combine (c0 * 2 ^ 8 + c1) (c2 * 2 ^ 8 + c3))], some 3)) := fun isAscii => by
    refine holds_ite (holds_bind fun c1 _ => holds_ok (app _ (by simp [Small])))
      (holds_ite (holds_bind fun c1 _ => holds_ok (app _ (by simp [Small]))) (holds_ite ?_ ?_))
    · refine holds_bind fun c1 h1 => holds_bind fun c2 h2 => holds_bind fun c3 h3 => holds_ok (app _ ?_)
      simp [Small, b0, rd_byte hc h1, rd_byte hc h2, rd_byte hc h3]
    · exact holds_bind fun c1 h1 => holds_bind fun c2 h2 => holds_bind fun c3 h3 => holds_ok (app _ (by simp [Small]))
  exact holds_ite (holds_bind fun c1 _ => jp _) (jp false)

theorem utf16LEStep_small (cs : List Nat) (hc : Bytes cs) :
    Holds (fun r => ∀ t ∈ r.1, Small t) (printUTF16LEStep cs) := by
  unfold printUTF16LEStep
  refine holds_bind fun c0 h0 => ?_
  have b0 := rd_byte hc h0
  have hpre : ∀ t ∈ (if 2 > cs.length then [Tok.hex c0] else []), Small t := by
    split_ifs <;> simp [Small, b0]
  have app : ∀ ts : List Tok, (∀ t ∈ ts, Small t) →
      ∀ t ∈ (if 2 > cs.length then [Tok.hex c0] else []) ++ ts, Small t := fun ts h t ht =>
    (List.mem_append.1 ht).elim (hpre t) (h t)
  refine holds_bind fun c1 h1 => ?_
  refine holds_ite (holds_ok (app _ (by simp [Small]))) (holds_ite (holds_ok (app _ (by simp [Small]))) (holds_ite ?_ ?_))
  · refine holds_bind fun c2 h2 => holds_bind fun c3 h3 => holds_ok (app _ ?_)
    simp [Small, b0, rd_byte hc h1, rd_byte hc h2, rd_byte hc h3]
  · exact holds_bind fun c2 h2 => holds_bind fun c3 h3 => holds_ok (app _ (by simp [Small]))

theorem loop_small {step : List Nat → Outcome (Tok × Nat)} (hs : ∀ cs, Bytes cs → Holds (fun r => Small r.1) (step cs)) :
    ∀ fuel cs, Bytes cs → Holds (fun ts => ∀ t ∈ ts, Small t) (printLoop step fuel cs) := by
  intro fuel
  induction fuel with
  | zero =>
    intro cs _
    cases cs with
    | nil => exact holds_ok (by simp)
    | cons c cs => intro a h; cases h
  | succ n ih =>
    intro cs hc
    cases cs with
    | nil => exact holds_ok (by simp)
    | cons c cs =>
      refine holds_bind fun r hr => holds_bind fun ts hts => holds_ok fun t ht => ?_
      rcases List.mem_cons.1 ht with rfl | ht
      · exact hs _ hc r hr
      · exact ih _ (fun x hx => hc x (List.mem_cons_of_mem _ (List.mem_of_mem_drop hx))) ts hts t ht

theorem loop16_small {step : List Nat → Outcome (List Tok × Option Nat)}
    (hs : ∀ cs, Bytes cs → Holds (fun r => ∀ t ∈ r.1, Small t) (step cs)) :
    ∀ fuel cs, Bytes cs → Holds (fun ts => ∀ t ∈ ts, Small t) (printLoop16 step fuel cs) := by
  intro fuel
  induction fuel with
  | zero =>
    intro cs _
    cases cs with
    | nil => exact holds_ok (by simp)
    | cons c cs => intro a h; cases h
  | succ n ih =>
    intro cs hc
    cases cs with
    | nil => exact holds_ok (by simp)
    | cons c cs =>
      refine holds_bind fun r hr => ?_
      have hr := hs _ hc r hr
      rcases r with ⟨ts, _ | k⟩
      · exact holds_ok hr
      · refine holds_bind fun us hus => holds_ok fun t ht => ?_
        rcases List.mem_append.1 ht with ht | ht
        · exact hr t ht
        · exact ih _ (fun x hx => hc x (List.mem_cons_of_mem _ (List.mem_of_mem_drop hx))) us hus t ht

theorem print_small (e : Enc) (cs : List Nat) (hc : Bytes cs) : Holds (fun ts => ∀ t ∈ ts, Small t) (e.print cs) := by
  cases e
  · exact loop_small utf8Step_small _ _ hc
  · exact loop_small cesu8Step_small _ _ hc
  · exact loop16_small utf16BEStep_small _ _ hc
  · exact loop16_small utf16LEStep_small _ _ hc

/-! ### Printers with and without settings -/

/-- Printing `a` with the settings of the stream is what printing without settings says. -/
def AgreesAt (w : Sink → Outcome Sink) (p : Outcome Text) (h : Prop) (o : Sink) : Prop :=
  (∃ t o', p = .ok t ∧ w o = .ok o' ∧ Step o t h o') ∨ ((∀ t, p ≠ .ok t) ∧ ∀ o', w o ≠ .ok o')

theorem agreesAt_put (t : Text) (o : Sink) : AgreesAt (fun o => .ok (o.put t)) (.ok t) False o :=
  .inl ⟨t, _, rfl, rfl, step_put t o⟩

theorem bind_ne_ok {x : Outcome α} {f : α → Outcome β} (h : ∀ a, x ≠ .ok a) (b : β) : (x >>= f) ≠ .ok b := by
  cases x with
  | ok a => exact absurd rfl (h a)
  | throws e => intro h; cases h
  | ub => intro h; cases h
  | diverges => intro h; cases h

theorem agreesAt_bool (b : Bool) (o : Sink) : AgreesAt (writeBool b) (showBool b) False o := agreesAt_put _ o

theorem agreesAt_int (i : Int) (o : Sink) : AgreesAt (writeInt i) (showInt i) False o := by
  refine .inl ⟨_, _, rfl, rfl, ⟨rfl, rfl, False.elim, fun _ => rfl, fun h1 h2 => ?_⟩⟩
  simp only [Sink.putInt, h1, put, h2]
  simp

theorem agreesAt_str (e : Enc) {cs : List Nat} (hc : Bytes cs) (o : Sink) :
    AgreesAt (writeStr e.print cs) (showStr e.print cs) (cs ≠ []) o := by
  unfold writeStr showStr
  cases h : e.print cs with
  | ok ts =>
    by_cases hcs : cs = []
    · subst hcs
      have h' : e.print [] = .ok [] := by cases e <;> rfl
      rw [h'] at h
      cases h
      have s2 := (step_put [34] o).trans (step_put [34, 32, 40] _)
      have s3 := (s2.trans (step_asHex [] hc _ s2.width)).trans (step_put [41] _)
      exact .inl ⟨_, _, rfl, rfl, s3.congr (by simp) (by simp)⟩
    · obtain ⟨k, s1⟩ := step_toks ts (print_small e cs hc ts h) (o.put [34]) rfl
      have s2 := ((step_put [34] o).trans s1).trans (step_put [34, 32, 40] _)
      have s3 := (s2.trans (step_asHex cs hc _ s2.width)).trans (step_put [41] _)
      exact .inl ⟨_, _, rfl, rfl, s3.congr rfl (by simp [hcs])⟩
  | throws e => exact .inr ⟨bind_ne_ok (by simp), bind_ne_ok (by simp)⟩
  | ub => exact .inr ⟨bind_ne_ok (by simp), bind_ne_ok (by simp)⟩
  | diverges => exact .inr ⟨bind_ne_ok (by simp), bind_ne_ok (by simp)⟩

theorem agreesAt_rest {w : Writer α} {p : Printer α} {H : α → Prop} (h : ∀ a o, AgreesAt (w a) (p a) (H a) o) :
    ∀ xs (o : Sink), o.width = 0 → AgreesAt (writeRest w xs) (showRest p xs) (∃ x ∈ xs, H x) o := by
  intro xs
  induction xs with
  | nil =>
    intro o ho
    exact .inl ⟨[], o, rfl, rfl, ⟨rfl, ho, by simp, fun _ => rfl, by simp⟩⟩
  | cons x xs ih =>
    intro o ho
    rcases h x (o.put [44, 32]) with ⟨t, o1, h1, h2, h3⟩ | ⟨h1, h2⟩
    · rcases ih o1 h3.width with ⟨u, o2, h4, h5, h6⟩ | ⟨h4, h5⟩
      · refine .inl ⟨[44, 32] ++ t ++ u, o2, by simp [showRest, h1, h4], by simp [writeRest, h2, h5],
          (((step_put [44, 32] o).trans h3).trans h6).congr rfl (by simp)⟩
      · refine .inr ⟨fun x => ?_, fun x => ?_⟩
        · simp only [showRest, h1, Outcome.ok_bind]
          exact bind_ne_ok h4 x
        · simp only [writeRest, h2, Outcome.ok_bind]
          exact h5 x
    · exact .inr ⟨fun x => bind_ne_ok h1 x, fun x => bind_ne_ok h2 x⟩

theorem agreesAt_seq {w : Writer α} {p : Printer α} {H : α → Prop} (l r : Nat) (h : ∀ a o, AgreesAt (w a) (p a) (H a) o)
    (xs : List α) (o : Sink) : AgreesAt (writeSeq l r w xs) (showSeq l r p xs) (∃ x ∈ xs, H x) o := by
  cases xs with
  | nil =>
    exact .inl ⟨_, _, rfl, rfl, ((step_put [l, 32] o).trans (step_put [32, r] _)).congr (by simp) (by simp)⟩
  | cons x xs =>
    rcases h x (o.put [l, 32]) with ⟨t, o1, h1, h2, h3⟩ | ⟨h1, h2⟩
    · rcases agreesAt_rest h xs o1 h3.width with ⟨u, o2, h4, h5, h6⟩ | ⟨h4, h5⟩
      · refine .inl ⟨[l, 32] ++ (t ++ u) ++ [32, r], _, by simp [showSeq, h1, h4], by simp [writeSeq, h2, h5],
          ((((step_put [l, 32] o).trans h3).trans h6).trans (step_put [32, r] _)).congr (by simp) (by simp)⟩
      · refine .inr ⟨fun x => ?_, fun x => ?_⟩
        · simp only [showSeq, h1, Outcome.ok_bind]
          exact bind_ne_ok h4 x
        · simp only [writeSeq, h2, Outcome.ok_bind]
          exact bind_ne_ok h5 x
    · refine .inr ⟨fun y => ?_, fun y => ?_⟩
      · simp only [showSeq]
        cases hw : p x with
        | ok a => exact absurd hw (h1 a)
        | throws e => intro h; cases h
        | ub => intro h; cases h
        | diverges => intro h; cases h
      simp only [writeSeq]
      cases hw : w x (o.put [l, 32]) with
      | ok a => exact absurd hw (h2 a)
      | throws e => intro h; cases h
      | ub => intro h; cases h
      | diverges => intro h; cases h

theorem agreesAt_pair {w : Writer α} {p : Printer α} {H : α → Prop} (h : ∀ a o, AgreesAt (w a) (p a) (H a) o)
    {v : Writer β} {q : Printer β} {K : β → Prop} (k : ∀ a o, AgreesAt (v a) (q a) (K a) o) (x : α × β) (o : Sink) :
    AgreesAt (writePair w v x) (showPair p q x) (H x.1 ∨ K x.2) o := by
  rcases h x.1 (o.put [40, 32]) with ⟨t, o1, h1, h2, h3⟩ | ⟨h1, h2⟩
  · rcases k x.2 (o1.put [44, 32]) with ⟨u, o2, h4, h5, h6⟩ | ⟨h4, h5⟩
    · refine .inl ⟨_, _, by simp only [showPair, h1, h4, Outcome.ok_bind]; rfl, by simp only [writePair, h2, h5, Outcome.ok_bind],
        (((((step_put [40, 32] o).trans h3).trans (step_put [44, 32] _)).trans h6).trans (step_put [32, 41] _)).congr
          (by simp) (by simp)⟩
    · refine .inr ⟨fun x => ?_, fun x => ?_⟩
      · simp only [showPair, h1, Outcome.ok_bind]
        exact bind_ne_ok h4 x
      · simp only [writePair, h2, Outcome.ok_bind]
        exact bind_ne_ok h5 x
  · exact .inr ⟨fun x => bind_ne_ok h1 x, fun x => bind_ne_ok h2 x⟩

theorem agreesAt_front {n : Nat} {A : Fin n → Type} {w : (i : Fin n) → Writer (A i)} {p : (i : Fin n) → Printer (A i)}
    {H : (i : Fin n) → A i → Prop} (h : ∀ i a o, AgreesAt (w i a) (p i a) (H i a) o) (x : (i : Fin n) → A i) :
    ∀ k (o : Sink), o.width = 0 → AgreesAt (writeFront w x k) (showFront p x k) (∃ i : Fin n, i.1 < k ∧ H i (x i)) o := by
  intro k
  induction k with
  | zero =>
    intro o ho
    exact .inl ⟨[], o, rfl, rfl, ⟨rfl, ho, by simp, fun _ => rfl, by simp⟩⟩
  | succ k ih =>
    intro o ho
    rcases ih o ho with ⟨t, o1, h1, h2, h3⟩ | ⟨h1, h2⟩
    · by_cases hk : k < n
      · have hiff : (∃ i : Fin n, i.1 < k ∧ H i (x i)) ∨ H ⟨k, hk⟩ (x ⟨k, hk⟩) ↔ ∃ i : Fin n, i.1 < k + 1 ∧ H i (x i) := by
          constructor
          · rintro (⟨i, hi, hh⟩ | hh)
            · exact ⟨i, by omega, hh⟩
            · exact ⟨⟨k, hk⟩, by simp, hh⟩
          · rintro ⟨i, hi, hh⟩
            by_cases e : i.1 = k
            · have : i = ⟨k, hk⟩ := Fin.ext e
              subst this
              exact .inr hh
            · exact .inl ⟨i, by omega, hh⟩
        rcases h ⟨k, hk⟩ (x ⟨k, hk⟩) o1 with ⟨u, o2, h4, h5, h6⟩ | ⟨h4, h5⟩
        · refine .inl ⟨t ++ u ++ [44, 32], _, by simp [showFront, h1, h4, hk], by simp [writeFront, h2, h5, hk],
            ((h3.trans h6).trans (step_put [44, 32] _)).congr rfl (by rw [or_false]; exact hiff)⟩
        · refine .inr ⟨fun x => ?_, fun x => ?_⟩
          · simp only [showFront, h1, Outcome.ok_bind, hk, dite_true]
            exact bind_ne_ok h4 x
          · simp only [writeFront, h2, Outcome.ok_bind, hk, dite_true]
            exact bind_ne_ok h5 x
      · refine .inl ⟨t, o1, by simp [showFront, h1, hk], by simp [writeFront, h2, hk], h3.congr rfl ?_⟩
        exact ⟨fun ⟨i, hi, hh⟩ => ⟨i, by omega, hh⟩, fun ⟨i, hi, hh⟩ => ⟨i, by omega, hh⟩⟩
    · exact .inr ⟨fun x => bind_ne_ok h1 x, fun x => bind_ne_ok h2 x⟩

theorem agreesAt_tuple {n : Nat} {A : Fin (n + 1) → Type} {w : (i : Fin (n + 1)) → Writer (A i)}
    {p : (i : Fin (n + 1)) → Printer (A i)} {H : (i : Fin (n + 1)) → A i → Prop}
    (h : ∀ i a o, AgreesAt (w i a) (p i a) (H i a) o) (x : (i : Fin (n + 1)) → A i) (o : Sink) :
    AgreesAt (writeTuple w x) (showTuple p x) (∃ i, H i (x i)) o := by
  have hiff : (∃ i : Fin (n + 1), i.1 < n ∧ H i (x i)) ∨ H (Fin.last n) (x (Fin.last n)) ↔ ∃ i, H i (x i) := by
    constructor
    · rintro (⟨i, hi, hh⟩ | hh)
      · exact ⟨i, hh⟩
      · exact ⟨_, hh⟩
    · rintro ⟨i, hh⟩
      by_cases e : i.1 < n
      · exact .inl ⟨i, e, hh⟩
      · have : i = Fin.last n := Fin.ext (by simp; omega)
        subst this
        exact .inr hh
  rcases agreesAt_front h x n (o.put [123, 32]) rfl with ⟨t, o1, h1, h2, h3⟩ | ⟨h1, h2⟩
  · rcases h (Fin.last n) (x (Fin.last n)) o1 with ⟨u, o2, h4, h5, h6⟩ | ⟨h4, h5⟩
    · refine .inl ⟨[123, 32] ++ t ++ u ++ [32, 125], _, by simp [showTuple, h1, h4], by simp [writeTuple, h2, h5],
        ((((step_put [123, 32] o).trans h3).trans h6).trans (step_put [32, 125] _)).congr rfl
          (by rw [or_false, false_or]; exact hiff)⟩
    · refine .inr ⟨fun x => ?_, fun x => ?_⟩
      · simp only [showTuple, h1, Outcome.ok_bind]
        exact bind_ne_ok h4 x
      · simp only [writeTuple, h2, Outcome.ok_bind]
        exact bind_ne_ok h5 x
  · exact .inr ⟨fun x => bind_ne_ok h1 x, fun x => bind_ne_ok h2 x⟩

theorem agreesAt_nullable {w : Writer α} {p : Printer α} {H : α → Prop} (h : ∀ a o, AgreesAt (w a) (p a) (H a) o)
    (x : Option α) (o : Sink) : AgreesAt (writeNullable w x) (showNullable p x) (∃ a ∈ x, H a) o := by
  cases x with
  | none => exact .inl ⟨_, _, rfl, rfl, (step_put _ o).congr rfl (by simp)⟩
  | some a =>
    have := h a o
    simp only [showNullable, Option.mem_def, Option.some.injEq, exists_eq_left']
    exact this

theorem agreesAt_ty : ∀ (t : Ty) (v : t.Val) (o : Sink), AgreesAt (t.write v) (t.show v) (t.HasString v) o
  | .bool, b, o => agreesAt_bool b o
  | .int, i, o => agreesAt_int i o
  | .str e, s, o => agreesAt_str e s.2 o
  | .vec t, xs, o => agreesAt_seq 91 93 (agreesAt_ty t) xs o
  | .pair t u, x, o => agreesAt_pair (agreesAt_ty t) (agreesAt_ty u) x o
  | .tuple _ ts, x, o => agreesAt_tuple (fun i => agreesAt_ty (ts i)) x o
  | .set, xs, o => by
    have := agreesAt_seq (H := fun _ => False) 123 125 agreesAt_int xs o
    simp only [and_false, exists_false] at this
    exact this
  | .map k v, xs, o => agreesAt_seq 123 125 (agreesAt_pair (agreesAt_ty k) (agreesAt_ty v)) xs o
  | .nullable t, x, o => agreesAt_nullable (agreesAt_ty t) x o

end Printing
end Verif
