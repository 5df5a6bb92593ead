import Verif.Lemmas.Macro
/-
C133: the arguments of expectation macros may be any expressions. C134: they are evaluated once.
Also C90 for all conditions.
-/
namespace Verif
namespace Macros
open Context

/-! ### C133 -/

private theorem taken_iff {ts : List Tok} {e : Expr} (ht : ts = e.text) (hw : e.Written) : Taken ts ↔ e.value ≠ 0 :=
  ht ▸ ⟨fun ⟨_, h, hv⟩ => compiled_unique h (compiled_text e hw) ▸ hv, fun h => ⟨e, compiled_text e hw, h⟩⟩

private theorem ofBool_ne (b : Bool) : ofBool b ≠ 0 ↔ b = true := by cases b <;> simp [ofBool]

private theorem not_value (e : Expr) : (Expr.not e).value ≠ 0 ↔ e.value = 0 := by
  rw [Expr.value, ofBool_ne]
  exact decide_eq_true_iff

private theorem expectText_op (m : Macro) (o : BinOp) (ho : operator m = some o) (a b : Expr) :
    expectText m a.text b.text = .lpar :: a.text ++ .op o :: b.text ++ [.rpar] := by
  cases m <;> simp [operator] at ho <;> subst ho <;> rfl

private theorem meaning_op (m : Macro) (o : BinOp) (ho : operator m = some o) (x y : Int) :
    o.eval x y ≠ 0 ↔ m.meaning x y := by
  cases m <;> simp [operator] at ho <;> subst ho <;> simp [BinOp.eval, ofBool, Macro.meaning]

/-- **C133** An expectation macro takes the branch that records a failure exactly if what its name says does not hold for
the values of its arguments as the user wrote them, if the outermost operators of the arguments bind stronger than the
comparison (for the first argument: at least as strong).

Partial: false for other arguments, see the theorems below; false for `PROP_EXPECT_FALSE`, see
`C89_expect_false_violated`. -/
theorem C133_compares_partial (m : Macro) (hm : m ≠ .FALSE) (a b : Expr) (ha : a.Written) (hb : b.Written)
    (hl : ∀ o, operator m = some o → o.level ≤ a.level ∧ o.level < b.level) :
    Taken (expectTest m a.text b.text) ↔ ¬ m.meaning a.value b.value := by
  cases ho : operator m with
  | some o =>
    have ht : expectTest m a.text b.text = (Expr.not (.paren (.paren (.bin o a b)))).text := by
      rw [expectTest, expectText_op m o ho]
      simp [Expr.text]
    rw [taken_iff ht ⟨⟨ha, hb, hl o ho⟩, rfl⟩, ← meaning_op m o ho, not_value]
    simp [Expr.value]
  | none =>
    have ht : expectTest m a.text b.text = (Expr.not (.paren a)).text := by
      cases m <;> simp [operator] at ho <;> simp [expectTest, expectText, Expr.text]
    rw [taken_iff ht ⟨ha, rfl⟩, not_value]
    cases m <;> simp [operator] at ho hm <;> simp [Expr.value, Macro.meaning]

/-- **C133** Arguments in parentheses, whatever is in them. -/
theorem C133_parentheses_partial (m : Macro) (hm : m ≠ .FALSE) (a b : Expr) (ha : a.Written) (hb : b.Written) :
    Taken (expectTest m (Expr.paren a).text (Expr.paren b).text) ↔ ¬ m.meaning a.value b.value :=
  C133_compares_partial m hm (.paren a) (.paren b) ha hb fun o _ => ⟨Nat.le_of_lt (level_lt o), level_lt o⟩

/-- `PROP_EXPECT_LT(2 + 3 * 4, 1 << 4)` passes, `PROP_EXPECT_EQ(1 < 2, 1)` passes, `PROP_EXPECT_EQ((1 ? 2 : 3), 4)` fails. -/
example :
    let a : Expr := .bin .add (.num 2) (.bin .mul (.num 3) (.num 4))
    let b : Expr := .bin .shl (.num 1) (.num 4)
    let c : Expr := .bin .lt (.num 1) (.num 2)
    let d : Expr := .cond (.num 1) (.num 2) (.num 3)
    a.Written ∧ b.Written ∧ c.Written ∧ d.Written ∧ Macro.LT.meaning a.value b.value ∧ Macro.EQ.meaning c.value 1 ∧
      ¬ Macro.EQ.meaning d.value 4 ∧
      (readExpr 20 0 (expectText .LT a.text b.text)).map (fun x => (x.1.value, x.2)) = some (1, []) ∧
      (readExpr 20 0 (expectText .EQ c.text [.num 1])).map (fun x => (x.1.value, x.2)) = some (1, []) ∧
      (readExpr 20 0 (expectText .EQ (Expr.paren d).text [.num 4])).map (fun x => (x.1.value, x.2)) = some (0, []) := by
  refine ⟨by decide, by decide, by decide, by decide, ?_, ?_, ?_, by decide +kernel, by decide +kernel, by decide +kernel⟩ <;>
    unfold Macro.meaning <;> decide

/-- **C133**, exactly when: the compiler reads the condition as a comparison of the two arguments if and only if their
outermost operators bind as strongly as required. -/
theorem C133_exact_partial (m : Macro) (o : BinOp) (ho : operator m = some o) (a b : Expr) (ha : a.Written)
    (hb : b.Written) :
    Compiled (expectText m a.text b.text) (.paren (.bin o a b)) ↔ o.level ≤ a.level ∧ o.level < b.level := by
  constructor
  · intro h
    exact (compiled_written h).2.2.2
  · intro h
    have ht : expectText m a.text b.text = (Expr.paren (.bin o a b)).text := by
      rw [expectText_op m o ho]
      simp [Expr.text]
    rw [ht]
    exact compiled_text _ ⟨ha, hb, h⟩

/-- A comparison as the second argument of `PROP_EXPECT_EQ` does not fit, as the first it does. -/
example : BinOp.eq.level ≤ (Expr.bin .eq (.num 1) (.num 2)).level ∧ ¬ BinOp.eq.level < (Expr.bin .eq (.num 1) (.num 2)).level :=
  by decide

/-- **C133**, which operators: `x o y` without parentheses of its own is compared as a whole, as the first argument of
`PROP_EXPECT_EQ` and `PROP_EXPECT_NE`, if and only if `o` is none of `&`, `^`, `|`, `&&`, `||`. -/
theorem C133_which_first_partial (m : Macro) (hm : m = .EQ ∨ m = .NE) (o : BinOp) (ho : operator m = some o) (o' : BinOp)
    (x y b : Expr) (ha : (Expr.bin o' x y).Written) (hb : b.Written) (hl : o.level < b.level) :
    Compiled (expectText m (Expr.bin o' x y).text b.text) (.paren (.bin o (.bin o' x y) b)) ↔
      o' ∉ [BinOp.band, .bxor, .bor, .and, .or] := by
  rw [C133_exact_partial m o ho _ _ ha hb, and_iff_left hl]
  rcases hm with rfl | rfl <;> simp only [operator, Option.some.injEq] at ho <;> subst ho <;>
    cases o' <;> simp [Expr.level, BinOp.level]

/-- **C133**, which operators: as the second argument of `PROP_EXPECT_EQ` and `PROP_EXPECT_NE`, if and only if `o` is none
of those nor `==` nor `!=`. -/
theorem C133_which_second_partial (m : Macro) (hm : m = .EQ ∨ m = .NE) (o : BinOp) (ho : operator m = some o) (o' : BinOp)
    (x y a : Expr) (ha : a.Written) (hb : (Expr.bin o' x y).Written) (hl : o.level ≤ a.level) :
    Compiled (expectText m a.text (Expr.bin o' x y).text) (.paren (.bin o a (.bin o' x y))) ↔
      o' ∉ [BinOp.eq, .ne, .band, .bxor, .bor, .and, .or] := by
  rw [C133_exact_partial m o ho _ _ ha hb, and_iff_right hl]
  rcases hm with rfl | rfl <;> simp only [operator, Option.some.injEq] at ho <;> subst ho <;>
    cases o' <;> simp [Expr.level, BinOp.level]

/-- **C133**, which operators, for `PROP_EXPECT_LT`, `GT`, `LE` and `GE`: as the first argument `==` and `!=` do not fit
either, as the second only `*`, `+`, `-` and `<<` do. -/
theorem C133_which_order_partial (m : Macro) (o : BinOp) (ho : operator m = some o) (h1 : m ≠ .EQ) (h2 : m ≠ .NE)
    (o' : BinOp) (x y c : Expr) (ha : (Expr.bin o' x y).Written) (hc : c.Written) (hl : o.level < c.level) :
    (Compiled (expectText m (Expr.bin o' x y).text c.text) (.paren (.bin o (.bin o' x y) c)) ↔
      o' ∉ [BinOp.eq, .ne, .band, .bxor, .bor, .and, .or]) ∧
    (Compiled (expectText m c.text (Expr.bin o' x y).text) (.paren (.bin o c (.bin o' x y))) ↔
      o' ∈ [BinOp.mul, .add, .sub, .shl]) := by
  rw [C133_exact_partial m o ho _ _ ha hc, C133_exact_partial m o ho _ _ hc ha, and_iff_left hl,
    and_iff_right (Nat.le_of_lt hl)]
  cases m <;> simp [operator] at ho h1 h2 <;> subst ho <;> cases o' <;> simp [Expr.level, BinOp.level]

/-- `PROP_EXPECT_LT(1 < 2, 3)` compares as written, `PROP_EXPECT_LT(3, 1 < 2)` does not. -/
example : (Expr.bin .lt (.num 1) (.num 2)).Written ∧ BinOp.lt.level < (Expr.num 3).level ∧
    BinOp.lt ∉ [BinOp.eq, .ne, .band, .bxor, .bor, .and, .or] ∧ BinOp.lt ∉ [BinOp.mul, .add, .sub, .shl] := by
  decide

/-- **C133** is false of the code: with a conditional expression as the first argument, as in
`PROP_EXPECT_EQ(c ? p : q, r)`, the expectation passes whenever `c` and `p` are not zero, whatever `r` is. -/
theorem C133_conditional_violated (m : Macro) (o : BinOp) (ho : operator m = some o) (c p q r : Expr)
    (hw : (Expr.cond c p q).Written) (hr : r.Written) (hq : o.level ≤ q.level) (hl : o.level < r.level)
    (hc : c.value ≠ 0) (hp : p.value ≠ 0) : ¬ Taken (expectTest m (Expr.cond c p q).text r.text) := by
  have ht : expectTest m (Expr.cond c p q).text r.text = (Expr.not (.paren (.paren (.cond c p (.bin o q r))))).text := by
    rw [expectTest, expectText_op m o ho]
    simp [Expr.text]
  obtain ⟨w1, w2, w3, w4⟩ := hw
  rw [taken_iff ht ⟨⟨w1, w2, ⟨w3, hr, hq, hl⟩, w4⟩, rfl⟩]
  rw [not_value]
  simp [Expr.value, hc, hp]

/-- `PROP_EXPECT_EQ(1 ? 2 : 3, 4)` passes. -/
example : ¬ Taken (expectTest .EQ (Expr.cond (.num 1) (.num 2) (.num 3)).text (Expr.num 4).text) ∧
    ¬ Macro.EQ.meaning (Expr.cond (.num 1) (.num 2) (.num 3)).value (Expr.num 4).value := by
  refine ⟨C133_conditional_violated .EQ .eq rfl _ _ _ _ (by decide) (by decide) (by decide) (by decide) (by decide) (by decide), ?_⟩
  unfold Macro.meaning
  decide

/-- **C133** is false of the code: `PROP_EXPECT_EQ(x & m, v)` fails whenever the values of `m` and `v` differ, whatever `x`
is; for instance `PROP_EXPECT_EQ(x & 1, 0)`. -/
theorem C133_mask_violated (x m v : Expr) (hx : x.Written) (hm : m.Written) (hv : v.Written) (h1 : 5 ≤ x.level)
    (h2 : 6 ≤ m.level) (h3 : 6 < v.level) (hne : m.value ≠ v.value) :
    Taken (expectTest .EQ (Expr.bin .band x m).text v.text) := by
  have ht : expectTest .EQ (Expr.bin .band x m).text v.text =
      (Expr.not (.paren (.paren (.bin .band x (.bin .eq m v))))).text := by
    rw [expectTest, expectText_op .EQ .eq rfl]
    simp [Expr.text]
  rw [taken_iff ht ⟨⟨hx, ⟨hm, hv, h2, h3⟩, h1, (by decide : 5 < 6)⟩, rfl⟩, not_value]
  have hz : ∀ z : Int, z.land 0 = 0 := by
    intro z
    cases z with
    | ofNat n => simp [Int.land]
    | negSucc n =>
      show ((Nat.ldiff 0 n : Nat) : Int) = 0
      rw [Nat.ldiff, Nat.bitwise_zero_left]
      rfl
  simp [Expr.value, BinOp.eval, ofBool, hne, hz]

/-- `PROP_EXPECT_EQ(4 & 1, 0)` fails. -/
example : Taken (expectTest .EQ (Expr.bin .band (.num 4) (.num 1)).text (Expr.num 0).text) ∧
    Macro.EQ.meaning (Expr.bin .band (.num 4) (.num 1)).value (Expr.num 0).value := by
  refine ⟨C133_mask_violated _ _ _ (by decide) (by decide) (by decide) (by decide) (by decide) (by decide) (by decide), ?_⟩
  unfold Macro.meaning
  decide

/-- **C133** is false of the code: with a conditional expression as the second argument, as in
`PROP_EXPECT_EQ(a, c ? p : q)`, `a` is compared with the condition, and `p` and `q` are the outcome: with `p` and `q` not
zero the expectation always passes. -/
theorem C133_second_violated (m : Macro) (o : BinOp) (ho : operator m = some o) (a c p q : Expr)
    (ha : a.Written) (hw : (Expr.cond c p q).Written) (hl : o.level ≤ a.level) (hc : o.level < c.level)
    (hp : p.value ≠ 0) (hq : q.value ≠ 0) : ¬ Taken (expectTest m a.text (Expr.cond c p q).text) := by
  have ht : expectTest m a.text (Expr.cond c p q).text = (Expr.not (.paren (.paren (.cond (.bin o a c) p q)))).text := by
    rw [expectTest, expectText_op m o ho]
    simp [Expr.text]
  obtain ⟨w1, w2, w3, w4⟩ := hw
  rw [taken_iff ht ⟨⟨⟨ha, w1, hl, hc⟩, w2, w3, level_pos o⟩, rfl⟩, not_value]
  show ¬ (if (Expr.bin o a c).value ≠ 0 then p.value else q.value) = 0
  split_ifs
  · exact hp
  · exact hq

/-- `PROP_EXPECT_EQ(7, 0 ? 1 : 2)` passes. -/
example : ¬ Taken (expectTest .EQ (Expr.num 7).text (Expr.cond (.num 0) (.num 1) (.num 2)).text) :=
  C133_second_violated .EQ .eq rfl _ _ _ _ (by decide) (by decide) (by decide) (by decide) (by decide) (by decide)

/-! ### C90 for all conditions -/

/-- **C90** `PROP_ASSERT_FALSE` throws iff its condition is true, for conditions that are an operand, a negation or in
parentheses. -/
theorem C90_single_partial (a : Expr) (ha : a.Written) (hl : a.level = 11) :
    Taken (assertFalseTest a.text) ↔ a.value ≠ 0 := by
  have ht : assertFalseTest a.text = (Expr.not (.paren (.not a))).text := by simp [assertFalseTest, Expr.text]
  rw [taken_iff ht ⟨⟨ha, hl⟩, rfl⟩, not_value]
  show (Expr.not a).value = 0 ↔ _
  rw [← not_iff_not, ← ne_eq, not_value, not_not]

/-- `PROP_ASSERT_FALSE((1 == 2))`. -/
example : (Expr.paren (.bin .eq (.num 1) (.num 2))).Written ∧ (Expr.paren (.bin .eq (.num 1) (.num 2))).level = 11 := by
  decide

/-- **C90** is false of the code: `PROP_ASSERT_FALSE(x == y)` throws whatever `x` is if `y` is neither 0 nor 1. -/
theorem C90_equal_violated (x y : Expr) (hx : x.Written) (hy : y.Written) (h1 : x.level = 11) (h2 : 6 < y.level)
    (h3 : y.value ≠ 0) (h4 : y.value ≠ 1) : Taken (assertFalseTest (Expr.bin .eq x y).text) := by
  have ht : assertFalseTest (Expr.bin .eq x y).text = (Expr.not (.paren (.bin .eq (.not x) y))).text := by
    simp [assertFalseTest, Expr.text]
  rw [taken_iff ht ⟨⟨⟨hx, h1⟩, hy, Nat.le_of_lt (level_lt _), h2⟩, rfl⟩, not_value]
  have : ¬ (Expr.not x).value = y.value := by
    rw [Expr.value]
    cases decide (x.value = 0)
    · exact fun h => h3 h.symm
    · exact fun h => h4 h.symm
  show ofBool (decide ((Expr.not x).value = y.value)) = 0
  rw [decide_eq_false this]
  rfl

/-- `PROP_ASSERT_FALSE(5 == 3)`. -/
example : Taken (assertFalseTest (Expr.bin .eq (.num 5) (.num 3)).text) :=
  C90_equal_violated _ _ (by decide) (by decide) (by decide) (by decide) (by decide) (by decide)

/-- **C90** is false of the code: `PROP_ASSERT_FALSE(x < y)` never throws if `y` is at least 2. -/
theorem C90_less_violated (x y : Expr) (hx : x.Written) (hy : y.Written) (h1 : x.level = 11) (h2 : 7 < y.level)
    (h3 : 2 ≤ y.value) : ¬ Taken (assertFalseTest (Expr.bin .lt x y).text) := by
  have ht : assertFalseTest (Expr.bin .lt x y).text = (Expr.not (.paren (.bin .lt (.not x) y))).text := by
    simp [assertFalseTest, Expr.text]
  rw [taken_iff ht ⟨⟨⟨hx, h1⟩, hy, Nat.le_of_lt (level_lt _), h2⟩, rfl⟩, not_value]
  have : (Expr.not x).value < y.value := by
    rw [Expr.value]
    cases decide (x.value = 0) <;> simp only [ofBool] <;> simp <;> omega
  show ¬ ofBool (decide ((Expr.not x).value < y.value)) = 0
  rw [decide_eq_true this]
  decide

/-- `PROP_ASSERT_FALSE(1 < 2)`. -/
example : ¬ Taken (assertFalseTest (Expr.bin .lt (.num 1) (.num 2)).text) :=
  C90_less_violated _ _ (by decide) (by decide) (by decide) (by decide) (by decide)

/-! ### C134 -/

variable {S : Type}

/-- **C134** With arguments that only read the state, an expectation changes nothing, and if it fails the values reported
are those that were compared.

Partial: false for arguments with side effects, see below. -/
theorem C134_reading_partial (o : BinOp) (rightFirst : Bool) (f g : S → Int) (s : S) :
    expectArgs o rightFirst (fun s => (f s, s)) (fun s => (g s, s)) s =
      (if o.eval (f s) (g s) ≠ 0 then none else some (f s, g s), s) := by
  unfold expectArgs operands
  cases rightFirst <;> by_cases h : o.eval (f s) (g s) = 0 <;> simp [h]

example : expectArgs .lt false (fun s : Nat => ((s : Int) + 1, s)) (fun s => (s, s)) 5 = (some (6, 5), 5) := by
  decide +kernel

/-- **C134** An expectation that passes has evaluated each argument once. -/
theorem C134_passing_partial (o : BinOp) (rightFirst : Bool) (a b : Arg S) (s : S)
    (h : (expectArgs o rightFirst a b s).1 = none) :
    (expectArgs o rightFirst a b s).2 = (if rightFirst then (a (b s).2).2 else (b (a s).2).2) ∧
      o.eval (if rightFirst then (a (b s).2).1 else (a s).1) (if rightFirst then (b s).1 else (b (a s).2).1) ≠ 0 := by
  unfold expectArgs at h ⊢
  dsimp only at h ⊢
  split_ifs at h ⊢ with h1
  all_goals simp_all [operands]

example : expectArgs .eq false (fun s : Nat => ((s : Int), s + 1)) (fun s => (5, s)) 5 = (none, 6) := by decide +kernel

/-- **C134** is false of the code: an expectation that fails evaluates each argument a second time and reports the values
of the second evaluation. -/
theorem C134_twice_violated (o : BinOp) (a b : Arg S) (s : S) (h : o.eval (a s).1 (b (a s).2).1 = 0) :
    let s' := (b (a s).2).2
    expectArgs o false a b s = (some ((a s').1, (b (a s').2).1), (b (a s').2).2) := by
  unfold expectArgs operands
  simp [h]

/-- **C134** is false of the code: `PROP_EXPECT_EQ(next(), 6)`, when `next` returns 5 the first and 6 the second time,
fails and reports 6 != 6; for every number. -/
theorem C134_report_violated (n : Int) :
    expectArgs .eq false (fun s => (s, s + 1)) (fun s => (n + 1, s)) n = (some (n + 1, n + 1), n + 2) := by
  simp [expectArgs, operands, BinOp.eval, ofBool]
  omega

end Macros
end Verif
