import Verif.Spec.Macro
import Verif.Lemmas.Context
import Mathlib.Tactic.Set
/-
C58, C59 and C89-C92: contexts, tags and expectation macros.
-/
namespace Verif
namespace Context

/-! ### C58 -/

/-- A program running in a live context: afterwards the same context is current, every other live context is as
before, and the failed expectations and tags of exactly this level were added to the current one. This holds whatever
contexts are opened and closed in between, also when exceptions leave blocks or the program. -/
theorem C58_contexts_nest (p : Prog) (w : World) (a : Nat) (c : Ctx) (h : Live w a c) :
    ∃ w' c', exec p w = .ok (p.raises, w') ∧ Live w' a c' ∧ (∀ b, b ≠ a → w'.ctxs b = w.ctxs b) ∧
      c'.oldContext = c.oldContext ∧
      c'.failures.map Failure.condition = c.failures.map Failure.condition ++ p.own ∧
      c'.tags = p.ownTags.foldl (fun t kv => tag t kv.1 kv.2) c.tags ∧ w.used ≤ w'.used := by
  induction p generalizing w a c with
  | done => exact ⟨w, c, rfl, h, fun _ _ => rfl, rfl, by simp [Prog.own], rfl, le_refl _⟩
  | raise => exact ⟨w, c, rfl, h, fun _ _ => rfl, rfl, by simp [Prog.own], rfl, le_refl _⟩
  | expect cond name detail msg rest ih =>
    obtain ⟨w1, c1, h1, h2, h3, h4, h5, h6, h7⟩ := expectStream_live h cond name detail msg
    obtain ⟨w', c', g1, g2, g3, g4, g5, g6, g7⟩ := ih w1 a c1 h2
    refine ⟨w', c', ?_, g2, fun b hb => (g3 b hb).trans (h4 b hb), g4.trans h6, ?_, ?_, by omega⟩
    · rw [exec, h1]; exact g1
    · rw [g5, h7]
      cases cond <;> simp [Prog.own]
    · rw [g6, h5]; rfl
  | tag k v rest ih =>
    obtain ⟨w', c', g1, g2, g3, g4, g5, g6, g7⟩ := ih _ a _ (h.set ⟨tag c.tags k v, c.failures, c.lastStreamExists, c.oldContext⟩)
    refine ⟨w', c', ?_, g2, ?_, g4, g5, g6, g7⟩
    · rw [exec, baseTag, onContext_live h]; exact g1
    · intro b hb
      rw [g3 b hb]
      simp [World.set, hb]
  | block body catches rest ihb ih =>
    have hlt := h.lt
    have hl : Live (ctor w).2 w.used ⟨[], [], false, w.context⟩ := by
      refine ⟨rfl, by simp [ctor, World.set], ?_⟩
      intro b hb
      have hb' : w.used + 1 ≤ b := hb
      have : b ≠ w.used := by omega
      simp only [ctor, World.set, this, if_false]
      exact h.fresh b (by omega)
    obtain ⟨w1, c1, g1, g2, g3, g4, _, _, g7⟩ := ihb _ _ _ hl
    have g7' : w.used + 1 ≤ w1.used := g7
    have hd : dtor (ctor w).1 w1 = .ok ⟨(w1.set w.used none).ctxs, some a, w1.defaultStr, w1.used⟩ := by
      unfold dtor
      rw [show (ctor w).1 = w.used from rfl, g2.alive]
      simp only [g4, h.current]
      rfl
    have hbk : ∀ b, (w1.set w.used none).ctxs b = w.ctxs b := by
      intro b
      by_cases hb : b = w.used
      · subst hb
        simp only [World.set, if_true]
        exact (h.fresh _ (le_refl _)).symm
      · simp only [World.set, hb, if_false]
        rw [g3 b hb]
        simp [ctor, World.set, hb]
    have h2 : Live ⟨(w1.set w.used none).ctxs, some a, w1.defaultStr, w1.used⟩ a c := by
      refine ⟨rfl, ?_, ?_⟩
      · simp only [hbk]; exact h.alive
      · intro b hb
        simp only [hbk]
        exact h.fresh b (by have : w1.used ≤ b := hb; omega)
    rw [exec, g1]
    simp only [hd]
    by_cases hr : (body.raises && !catches) = true
    · refine ⟨_, c, ?_, h2, fun b _ => hbk b, rfl, ?_, ?_, ?_⟩
      · rw [if_pos hr]; simp [Prog.raises, hr]
      · simp [Prog.own, hr]
      · simp [Prog.ownTags, hr]
      · show w.used ≤ w1.used; omega
    · obtain ⟨w', c', e1, e2, e3, e4, e5, e6, e7⟩ := ih _ a c h2
      refine ⟨w', c', ?_, e2, fun b hb => (e3 b hb).trans (hbk b), e4, ?_, ?_, ?_⟩
      · rw [if_neg hr, e1]; simp only [Prog.raises, Bool.eq_false_iff.mpr hr, Bool.false_or]
      · simp only [Prog.own, if_neg hr]; exact e5
      · simp only [Prog.ownTags, if_neg hr]; exact e6
      · have : w1.used ≤ w'.used := e7
        omega

/-- A block with its own context, in any enclosing situation (also without a context): the context of the block ends
up with exactly the failures and tags of the block's own level, and after the block everything is as before. -/
theorem C58_block_restores (body : Prog) (w : World) (hw : ∀ b, w.used ≤ b → w.ctxs b = none) :
    ∃ w1 c1 w2, exec body (ctor w).2 = .ok (body.raises, w1) ∧ w1.context = some (ctor w).1 ∧
      w1.ctxs (ctor w).1 = some c1 ∧ c1.failures.map Failure.condition = body.own ∧
      c1.tags = body.ownTags.foldl (fun t kv => tag t kv.1 kv.2) [] ∧
      dtor (ctor w).1 w1 = .ok w2 ∧ w2.context = w.context ∧ ∀ b, w2.ctxs b = w.ctxs b := by
  have hl : Live (ctor w).2 w.used ⟨[], [], false, w.context⟩ := by
    refine ⟨rfl, by simp [ctor, World.set], ?_⟩
    intro b hb
    have hb' : w.used + 1 ≤ b := hb
    have : b ≠ w.used := by omega
    simp only [ctor, World.set, this, if_false]
    exact hw b (by omega)
  obtain ⟨w1, c1, g1, g2, g3, g4, g5, g6, _⟩ := C58_contexts_nest body _ _ _ hl
  have hd : dtor (ctor w).1 w1 = .ok ⟨(w1.set w.used none).ctxs, w.context, w1.defaultStr, w1.used⟩ := by
    unfold dtor
    rw [show (ctor w).1 = w.used from rfl, g2.alive]
    simp only [g4]
    rfl
  refine ⟨w1, c1, _, g1, g2.current, g2.alive, by simpa using g5, g6, hd, rfl, ?_⟩
  intro b
  by_cases hb : b = w.used
  · subst hb
    simp only [World.set, if_true]
    exact (hw _ (le_refl _)).symm
  · simp only [World.set, hb, if_false]
    rw [g3 b hb]
    simp [ctor, World.set, hb]

/-- Without a context, expectations and tags throw a runtime_error and change nothing. -/
theorem C58_no_context (w : World) (h : w.context = none) (cond : Bool) (name detail msg : Txt) (k v : Nat) :
    expectStream cond name detail msg w = .throws .runtimeError ∧ baseTag k v w = .throws .runtimeError := by
  constructor
  · unfold expectStream baseFail baseSucceed onContext
    rw [h]
    cases cond <;> rfl
  · unfold baseTag onContext
    rw [h]

/-- Before anything happened. -/
def start : World := ⟨fun _ => none, none, Stream.empty, 0⟩

/-- x fails, an inner block fails y and is left by an exception that is caught, z fails -/
def sampleProg : Prog :=
  .expect false "x".toList [] [] (.block (.expect false "y".toList [] [] .raise) true (.expect false "z".toList [] [] .done))

example : sampleProg.own = ["x".toList, "z".toList] := by decide +kernel

example : (match exec sampleProg (ctor start).2 with
    | .ok (r, w) => (r, w.context, (w.ctxs 0).map (fun c => c.failures.map Failure.condition), (w.ctxs 1).isSome)
    | _ => (true, none, none, true)) = (false, some 0, some ["x".toList, "z".toList], false) := by decide +kernel

example : ∃ c, Live (ctor start).2 0 c := ⟨_, rfl, rfl, fun b hb => by
  have : b ≠ 0 := by have : 1 ≤ b := hb; omega
  simp [ctor, World.set, start, this]⟩

/-! ### C59 -/

section
variable {K V : Type} [LinearOrder K] [LinearOrder V]

/-- After any sequence of `tag` calls the summary lists exactly the keys used, in strictly increasing order, each
with exactly the values used for it, in strictly increasing order; the number shown for a value is the number of calls
with that key and value, the total shown is the number of calls with that key. -/
theorem C59_tag_counts (calls : List (K × V)) :
    let summary := printSummary (calls.foldl (fun t kv => tag t kv.1 kv.2) ([] : Tags K V))
    (summary.map Prod.fst).Pairwise (· < ·) ∧
    (∀ k, k ∈ summary.map Prod.fst ↔ ∃ v, (k, v) ∈ calls) ∧
    ∀ k lines, (k, lines) ∈ summary →
      (lines.map Prod.fst).Pairwise (· < ·) ∧ (∀ v, v ∈ lines.map Prod.fst ↔ (k, v) ∈ calls) ∧
      ∀ v count total, (v, count, total) ∈ lines →
        count = calls.count (k, v) ∧ total = calls.countP (fun kv => kv.1 = k) := by
  have hr : Recorded calls (calls.foldl (fun t kv => tag t kv.1 kv.2) ([] : Tags K V)) := by
    have := recorded_all calls [] ([] : Tags K V) ⟨by simp [Sorted], by simp, by simp [mapFind]⟩
    simpa using this
  generalize calls.foldl (fun t kv => tag t kv.1 kv.2) ([] : Tags K V) = tags at hr
  have hkeys : (printSummary tags).map Prod.fst = tags.map Prod.fst := by
    simp [printSummary, Function.comp_def]
  simp only
  refine ⟨by rw [hkeys, ← sorted_iff_keys]; exact hr.sorted, ?_, ?_⟩
  · intro k
    rw [hkeys]
    constructor
    · intro hk
      obtain ⟨⟨k', vm⟩, hm, rfl⟩ := List.mem_map.mp hk
      obtain ⟨_, ⟨k2, v⟩, h2, h3⟩ := hr.some _ _ ((mem_iff_find hr.sorted _ _).mp hm)
      exact ⟨v, by cases h3; exact h2⟩
    · rintro ⟨v, hv⟩
      cases hf : mapFind tags k with
      | none => exact absurd rfl (hr.none k hf _ hv)
      | some vm => exact List.mem_map.mpr ⟨(k, vm), (mem_iff_find hr.sorted _ _).mpr hf, rfl⟩
  · intro k lines hl
    obtain ⟨⟨k', vm⟩, hm, he⟩ := List.mem_map.mp hl
    simp only [Prod.mk.injEq] at he
    obtain ⟨rfl, rfl⟩ := he
    obtain ⟨hc, _⟩ := hr.some _ _ ((mem_iff_find hr.sorted _ _).mp hm)
    have hk2 : (vm.map (fun x => (x.1, x.2, vm.foldl (fun total valueKV => total + valueKV.2) 0))).map Prod.fst =
        vm.map Prod.fst := by simp [Function.comp_def]
    refine ⟨?_, ?_, ?_⟩
    · rw [hk2, ← sorted_iff_keys]; exact hc.sorted
    · intro v
      rw [hk2]
      constructor
      · intro hv
        obtain ⟨⟨v', c⟩, hvc, rfl⟩ := List.mem_map.mp hv
        have hf := (mem_iff_find hc.sorted _ _).mp hvc
        have h1 := hc.count v'
        have h2 := hc.pos _ _ hf
        rw [hf] at h1
        simp only [Option.getD_some] at h1
        exact List.count_pos_iff.mp (by rw [← h1]; exact h2)
      · intro hv
        have h1 := hc.count v
        have h2 := List.count_pos_iff.mpr hv
        cases hf : mapFind vm v with
        | none => rw [hf] at h1; simp at h1; omega
        | some c => exact List.mem_map.mpr ⟨(v, c), (mem_iff_find hc.sorted _ _).mpr hf, rfl⟩
    · intro v count total hvc
      obtain ⟨⟨v', c⟩, hm2, he⟩ := List.mem_map.mp hvc
      simp only [Prod.mk.injEq] at he
      obtain ⟨rfl, rfl, rfl⟩ := he
      have hf := (mem_iff_find hc.sorted _ _).mp hm2
      have h1 := hc.count v'
      rw [hf] at h1
      exact ⟨h1, by rw [foldl_total, Nat.zero_add]; exact hc.sum⟩

end

example : printSummary ([(2, 7), (1, 5), (2, 6), (2, 7)].foldl (fun t (kv : Nat × Nat) => tag t kv.1 kv.2) []) =
    [(1, [(5, 1, 1)]), (2, [(6, 1, 3), (7, 2, 3)])] := by decide +kernel

/-! ### C89 -/

/-- Every macro but `PROP_EXPECT_FALSE` adds one failure to the current context if what it says does not hold, and
none if it holds.

Partial: C89 is false for `PROP_EXPECT_FALSE`, see `C89_expect_false_violated`. -/
theorem C89_expect_macros_partial (m : Macro) (hm : m ≠ .FALSE) (a b : Int) (name detail msg : Txt) (w : World)
    (ad : Nat) (c : Ctx) (h : Live w ad c) :
    ∃ w' c', expectStream (m.condition a b) name detail msg w = .ok w' ∧ Live w' ad c' ∧
      (m.meaning a b → c'.failures = c.failures) ∧
      (¬ m.meaning a b → ∃ f, c'.failures = c.failures ++ [f] ∧ f.condition = name) := by
  obtain ⟨w', c', h1, h2, _, _, _, _, h7⟩ := expectStream_live h (m.condition a b) name detail msg
  have hb : m.condition a b = true ↔ m.meaning a b := by
    cases m <;> simp [Macro.condition, Macro.meaning] at hm ⊢
  refine ⟨w', c', h1, h2, ?_, ?_⟩
  · intro hh
    rw [h7, if_pos (hb.mpr hh)]
  · intro hh
    rw [h7, if_neg (fun e => hh (hb.mp e))]
    exact ⟨_, rfl, rfl⟩

/-- C89 is violated for `PROP_EXPECT_FALSE`, for every condition: it fails when the condition is false and passes when
the condition is true. -/
theorem C89_expect_false_violated (a : Int) (name detail msg : Txt) (w : World) (ad : Nat) (c : Ctx) (h : Live w ad c) :
    ∃ w' c', expectStream (Macro.FALSE.condition a 0) name detail msg w = .ok w' ∧ Live w' ad c' ∧
      (Macro.FALSE.meaning a 0 ↔ c'.failures ≠ c.failures) := by
  obtain ⟨w', c', h1, h2, _, _, _, _, h7⟩ := expectStream_live h (Macro.FALSE.condition a 0) name detail msg
  refine ⟨w', c', h1, h2, ?_⟩
  rw [h7]
  by_cases ha : a = 0 <;> simp [Macro.condition, Macro.meaning, ha]

example : Macro.FALSE.condition 0 0 = false ∧ Macro.FALSE.meaning 0 0 := ⟨by decide, rfl⟩

/-! ### C90 -/

/-- `PROP_ASSERT_FALSE` of a single operand throws iff the operand is true.

Partial: C90 is false for conditions with an operator, see `C90_assert_false_violated`. -/
theorem C90_assert_false_partial (a : Int) : assertFalseThrows (.operand a) = (CondText.operand a).value := by
  by_cases h : a = 0 <;> simp [assertFalseThrows, CondText.bang, CondText.value, h]

/-- With an operator, the first operand is negated: `PROP_ASSERT_FALSE(a == b)` throws iff `!a` is not equal to `b`,
`PROP_ASSERT_FALSE(a < b)` iff `!a` is at least `b`. -/
theorem C90_assert_false_operator_partial (a b : Int) :
    (assertFalseThrows (.eq a b) = true ↔ ¬ ((a = 0 ∧ b = 1) ∨ (a ≠ 0 ∧ b = 0))) ∧
    (assertFalseThrows (.lt a b) = true ↔ (a = 0 ∧ b ≤ 1) ∨ (a ≠ 0 ∧ b ≤ 0)) := by
  by_cases h : a = 0 <;> simp [assertFalseThrows, CondText.bang, CondText.value, h] <;> omega

example : assertFalseThrows (.lt 4 0) = true ∧ assertFalseThrows (.lt 4 1) = false := by decide

/-- C90 is violated: `PROP_ASSERT_FALSE(5 == 3)` throws although 5 == 3 is false, and `PROP_ASSERT_FALSE(1 < 2)` does
not throw although 1 < 2 is true. -/
theorem C90_assert_false_violated :
    (assertFalseThrows (.eq 5 3) = true ∧ (CondText.eq 5 3).value = false) ∧
    (assertFalseThrows (.lt 1 2) = false ∧ (CondText.lt 1 2).value = true) := by decide +kernel

example : assertFalseThrows (.operand 7) = true := by decide

/-! ### C91 -/

/-- `PROP_EXPECT_STREQ2(a, b, |a|, |b|)` never reads out of bounds and holds iff the shorter string is a prefix of the
longer one; `STRNE2` is the opposite. For strings of equal length this is equality.

Partial: C91 asks for equality for all strings, see `C91_prefix_violated`. -/
theorem C91_streq2_partial (a b : List Nat) :
    ∃ r, streq2 a b a.length b.length = .ok r ∧ strne2 a b a.length b.length = .ok (!r) ∧
      (r = true ↔ a <+: b ∨ b <+: a) ∧ (a.length = b.length → (r = true ↔ a = b)) := by
  set k := if a.length ≤ b.length then a.length else b.length with hk
  have hka : k ≤ a.length := by rw [hk]; split <;> omega
  have hkb : k ≤ b.length := by rw [hk]; split <;> omega
  obtain ⟨r, h1, h2⟩ := memcmp_zero a b k hka hkb
  have hpre : (a.take k = b.take k ↔ a <+: b ∨ b <+: a) := by
    by_cases hle : a.length ≤ b.length
    · have hk' : k = a.length := by rw [hk, if_pos hle]
      rw [hk', List.take_length]
      constructor
      · intro h; exact Or.inl (List.prefix_iff_eq_take.mpr h)
      · rintro (h | h)
        · exact List.prefix_iff_eq_take.mp h
        · have : b.length = a.length := le_antisymm h.length_le hle
          rw [← this, List.take_length]
          exact (h.eq_of_length this).symm
    · have hk' : k = b.length := by rw [hk, if_neg hle]
      rw [hk', List.take_length]
      constructor
      · intro h; exact Or.inr (List.prefix_iff_eq_take.mpr h.symm)
      · rintro (h | h)
        · exact absurd h.length_le hle
        · exact (List.prefix_iff_eq_take.mp h).symm
  refine ⟨decide (r = 0), ?_, ?_, ?_, ?_⟩
  · unfold streq2; rw [← hk, h1]; rfl
  · unfold strne2; rw [← hk, h1]; simp [Outcome.ok_bind]
  · rw [decide_eq_true_iff, h2, hpre]
  · intro hl
    rw [decide_eq_true_iff, h2, hpre]
    constructor
    · rintro (h | h)
      · exact h.eq_of_length hl
      · exact (h.eq_of_length hl.symm).symm
    · rintro rfl; exact Or.inl (List.prefix_refl _)

/-- C91 is violated: "ab" and "abc" count as equal, and the empty string equals every string. -/
theorem C91_prefix_violated :
    streq2 [97, 98] [97, 98, 99] 2 3 = .ok true ∧ strne2 [97, 98] [97, 98, 99] 2 3 = .ok false ∧
      streq2 [] [120] 0 1 = .ok true := by decide +kernel

example : streq2 [97, 98] [97, 99, 99] 2 3 = .ok false := by decide +kernel

/-! ### C92 -/

/-- Text streamed into a failing expectation overwrites the beginning of the comparison text. It is kept in full; the
comparison text is kept only from the length of the streamed text on.

Partial: C92 asks that both are kept, see `C92_message_overwrites_violated`. -/
theorem C92_streamed_text_partial (name detail msg : Txt) (w : World) (a : Nat) (c : Ctx) (h : Live w a c) :
    ∃ w' c' f, expectStream false name detail msg w = .ok w' ∧ Live w' a c' ∧ c'.failures = c.failures ++ [f] ∧
      msg <+: f.str.buf ∧ (detail = [] → f.str.buf = msg) ∧ (msg = [] → f.str.buf = detail) := by
  obtain ⟨w', c', h1, h2, _, _, _, _, h7⟩ := expectStream_live h false name detail msg
  refine ⟨w', c', _, h1, h2, h7, by simp, ?_, ?_⟩
  · rintro rfl; simp
  · rintro rfl; simp

/-- Text streamed into an expectation that holds is not shown: no failure changes. -/
theorem C92_passing_expectation_silent (name detail msg : Txt) (w : World) (a : Nat) (c : Ctx) (h : Live w a c) :
    ∃ w' c', expectStream true name detail msg w = .ok w' ∧ Live w' a c' ∧ (flushFailures c').1 = (flushFailures c).1 := by
  obtain ⟨w', c', h1, h2, _, _, _, _, h7⟩ := expectStream_live h true name detail msg
  refine ⟨w', c', h1, h2, ?_⟩
  simp only [if_true] at h7
  simp [flushFailures, h7]

/-- C92 is violated: `PROP_EXPECT_EQ(1, 2) << "no"` shows "no!= 2" instead of "1 != 2no". -/
theorem C92_message_overwrites_violated :
    (match expectStream false "a == b".toList "1 != 2".toList "no".toList (ctor start).2 with
      | .ok w => (w.ctxs 0).map (fun c => (flushFailures c).1)
      | _ => none) = some ["a == b with no!= 2".toList] := by decide +kernel

end Context
end Verif
