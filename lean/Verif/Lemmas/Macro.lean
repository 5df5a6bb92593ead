import Verif.Spec.Macro
/-
Auxiliary facts: reading a text gives the expression back, and only expressions that can be written.
-/
namespace Verif
namespace Macros

theorem level_pos (o : BinOp) : 1 ≤ o.level := by cases o <;> simp [BinOp.level]
theorem level_lt (o : BinOp) : o.level < 11 := by cases o <;> simp [BinOp.level]

/-! ### More fuel does not hurt -/

theorem read_succ (f : Nat) :
    (∀ ts r, readUnary f ts = some r → readUnary (f + 1) ts = some r) ∧
    (∀ l ts r, readExpr f l ts = some r → readExpr (f + 1) l ts = some r) ∧
    (∀ l e ts r, readMore f l e ts = some r → readMore (f + 1) l e ts = some r) := by
  induction f with
  | zero =>
    refine ⟨?_, ?_, ?_⟩
    · intro ts r h; simp [readUnary] at h
    · intro l ts r h; simp [readExpr] at h
    · intro l e ts r h; simp [readMore] at h
  | succ f ih =>
    obtain ⟨ihu, ihe, ihm⟩ := ih
    refine ⟨?_, ?_, ?_⟩
    · intro ts r h
      match ts with
      | [] => simp [readUnary] at h
      | .num v :: ts => simpa [readUnary] using h
      | .bang :: ts =>
        rw [readUnary] at h ⊢
        cases hu : readUnary f ts with
        | none => rw [hu] at h; simp at h
        | some x => rw [ihu _ _ hu]; rw [hu] at h; exact h
      | .lpar :: ts =>
        rw [readUnary] at h ⊢
        cases hu : readExpr f 0 ts with
        | none => rw [hu] at h; simp at h
        | some x => rw [ihe _ _ _ hu]; rw [hu] at h; exact h
      | .op o :: ts => simp [readUnary] at h
      | .quest :: ts => simp [readUnary] at h
      | .colon :: ts => simp [readUnary] at h
      | .rpar :: ts => simp [readUnary] at h
    · intro l ts r h
      rw [readExpr] at h ⊢
      cases hu : readUnary f ts with
      | none => rw [hu] at h; simp at h
      | some x =>
        rw [ihu _ _ hu]
        rw [hu] at h
        exact ihm _ _ _ _ h
    · intro l e ts r h
      match ts with
      | [] => simpa [readMore] using h
      | .num v :: ts => simpa [readMore] using h
      | .bang :: ts => simpa [readMore] using h
      | .lpar :: ts => simpa [readMore] using h
      | .rpar :: ts => simpa [readMore] using h
      | .colon :: ts => simpa [readMore] using h
      | .op o :: ts =>
        rw [readMore] at h ⊢
        split_ifs at h ⊢ with hl
        · cases hu : readExpr f (o.level + 1) ts with
          | none => rw [hu] at h; simp at h
          | some x =>
            rw [ihe _ _ _ hu]
            rw [hu] at h
            exact ihm _ _ _ _ h
        · exact h
      | .quest :: ts =>
        rw [readMore] at h ⊢
        split_ifs at h ⊢ with hl
        · cases hu : readExpr f 0 ts with
          | none => rw [hu] at h; simp at h
          | some x =>
            rw [ihe _ _ _ hu]
            rw [hu] at h
            match x, h with
            | (a, .colon :: r1), h =>
              dsimp only at h ⊢
              cases hv : readExpr f 0 r1 with
              | none => rw [hv] at h; simp at h
              | some y => rw [ihe _ _ _ hv]; rw [hv] at h; exact h
        · exact h

theorem readUnary_mono {f f' : Nat} (hf : f ≤ f') {ts r} (h : readUnary f ts = some r) : readUnary f' ts = some r := by
  induction hf with
  | refl => exact h
  | step _ ih => exact (read_succ _).1 _ _ ih

theorem readExpr_mono {f f' : Nat} (hf : f ≤ f') {l ts r} (h : readExpr f l ts = some r) : readExpr f' l ts = some r := by
  induction hf with
  | refl => exact h
  | step _ ih => exact (read_succ _).2.1 _ _ _ ih

theorem readMore_mono {f f' : Nat} (hf : f ≤ f') {l e ts r} (h : readMore f l e ts = some r) :
    readMore f' l e ts = some r := by
  induction hf with
  | refl => exact h
  | step _ ih => exact (read_succ _).2.2 _ _ _ _ ih

theorem compiled_unique {ts : List Tok} {e e' : Expr} (h : Compiled ts e) (h' : Compiled ts e') : e = e' := by
  obtain ⟨f, hf⟩ := h
  obtain ⟨f', hf'⟩ := h'
  have h1 := readExpr_mono (Nat.le_max_left f f') hf
  have h2 := readExpr_mono (Nat.le_max_right f f') hf'
  rw [h1] at h2
  simpa using h2

/-! ### What is written is read -/

/-- An expression whose outermost operator has level `k` ends in front of this text. -/
def Ends (k : Nat) : List Tok → Prop
  | .op o :: _ => o.level ≤ k
  | .quest :: _ => 1 ≤ k
  | _ => True

/-- Nothing of this text belongs to an expression that is read with level `l`. -/
def Stops (l : Nat) : List Tok → Prop
  | .op o :: _ => o.level < l
  | .quest :: _ => l ≠ 0
  | _ => True

theorem readMore_stops (f l : Nat) (e : Expr) (ts : List Tok) (h : Stops l ts) : readMore (f + 1) l e ts = some (e, ts) := by
  match ts, h with
  | [], _ => rfl
  | .num v :: ts, _ => rfl
  | .bang :: ts, _ => rfl
  | .lpar :: ts, _ => rfl
  | .rpar :: ts, _ => rfl
  | .colon :: ts, _ => rfl
  | .op o :: ts, h => rw [readMore, if_neg (by simp [Stops] at h; omega)]
  | .quest :: ts, h => rw [readMore, if_neg h]

theorem Ends.mono {k k' : Nat} (hk : k ≤ k') {ts : List Tok} (h : Ends k ts) : Ends k' ts := by
  match ts, h with
  | [], _ => trivial
  | .num v :: ts, _ => trivial
  | .bang :: ts, _ => trivial
  | .lpar :: ts, _ => trivial
  | .rpar :: ts, _ => trivial
  | .colon :: ts, _ => trivial
  | .op o :: ts, h => exact Nat.le_trans h hk
  | .quest :: ts, h => exact Nat.le_trans h hk

theorem Ends.stops {k : Nat} {ts : List Tok} (h : Ends k ts) : Stops (k + 1) ts := by
  match ts, h with
  | [], _ => trivial
  | .num v :: ts, _ => trivial
  | .bang :: ts, _ => trivial
  | .lpar :: ts, _ => trivial
  | .rpar :: ts, _ => trivial
  | .colon :: ts, _ => trivial
  | .op o :: ts, h => exact Nat.lt_succ_of_le h
  | .quest :: ts, h => exact Nat.succ_ne_zero _

theorem Ends.stops_zero {ts : List Tok} (h : Ends 0 ts) : Stops 0 ts := by
  match ts, h with
  | [], _ => trivial
  | .num v :: ts, _ => trivial
  | .bang :: ts, _ => trivial
  | .lpar :: ts, _ => trivial
  | .rpar :: ts, _ => trivial
  | .colon :: ts, _ => trivial
  | .op o :: ts, h => have := level_pos o; simp only [Ends] at h; omega
  | .quest :: ts, h => simp [Ends] at h

theorem read_text (e : Expr) (hw : e.Written) :
    (e.level = 11 → ∀ rest, ∃ f, readUnary f (e.text ++ rest) = some (e, rest)) ∧
    (∀ f l rest r, l ≤ e.level → Ends e.level rest → readMore f l e rest = some r →
      ∃ f', readExpr f' l (e.text ++ rest) = some r) := by
  have ofUnary : ∀ e : Expr, (∀ rest, ∃ f, readUnary f (e.text ++ rest) = some (e, rest)) →
      ∀ f l rest r, readMore f l e rest = some r → ∃ f', readExpr f' l (e.text ++ rest) = some r := by
    intro e h f l rest r hm
    obtain ⟨f1, h1⟩ := h rest
    refine ⟨max f f1 + 1, ?_⟩
    rw [readExpr, readUnary_mono (Nat.le_max_right f f1) h1]
    exact readMore_mono (Nat.le_max_left f f1) hm
  induction e with
  | num v =>
    have hu : ∀ rest, ∃ f, readUnary f ((Expr.num v).text ++ rest) = some (.num v, rest) := fun rest => ⟨1, rfl⟩
    exact ⟨fun _ => hu, fun f l rest r _ _ => ofUnary _ hu f l rest r⟩
  | paren e ih =>
    have hu : ∀ rest, ∃ f, readUnary f ((Expr.paren e).text ++ rest) = some (.paren e, rest) := by
      intro rest
      obtain ⟨f, hf⟩ := (ih hw).2 1 0 (.rpar :: rest) _ (Nat.zero_le _) trivial (readMore_stops 0 0 e (.rpar :: rest) trivial)
      refine ⟨f + 1, ?_⟩
      simp only [Expr.text, List.cons_append, List.append_assoc, List.nil_append]
      rw [readUnary, hf]
    exact ⟨fun _ => hu, fun f l rest r _ _ => ofUnary _ hu f l rest r⟩
  | not e ih =>
    have hu : ∀ rest, ∃ f, readUnary f ((Expr.not e).text ++ rest) = some (.not e, rest) := by
      intro rest
      obtain ⟨f, hf⟩ := (ih hw.1).1 hw.2 rest
      refine ⟨f + 1, ?_⟩
      simp only [Expr.text, List.cons_append]
      rw [readUnary, hf]
    exact ⟨fun _ => hu, fun f l rest r _ _ => ofUnary _ hu f l rest r⟩
  | bin o a b iha ihb =>
    refine ⟨fun h => absurd h (Nat.ne_of_lt (level_lt o)), ?_⟩
    intro f l rest r hl he hm
    obtain ⟨wa, wb, la, lb⟩ := hw
    simp only [Expr.level] at hl he
    obtain ⟨f1, h1⟩ := (ihb wb).2 1 (o.level + 1) rest (b, rest) lb (he.mono (Nat.le_of_lt lb))
      (readMore_stops 0 _ b rest he.stops)
    have hmore : readMore (max f f1 + 1) l a (.op o :: (b.text ++ rest)) = some r := by
      rw [readMore, if_pos hl, readExpr_mono (Nat.le_max_right f f1) h1]
      exact readMore_mono (Nat.le_max_left f f1) hm
    obtain ⟨f2, h2⟩ := (iha wa).2 _ l (.op o :: (b.text ++ rest)) r (Nat.le_trans hl la) la hmore
    exact ⟨f2, by simpa [Expr.text] using h2⟩
  | cond c a b ihc iha ihb =>
    refine ⟨fun h => absurd h (by simp [Expr.level]), ?_⟩
    intro f l rest r hl he hm
    obtain ⟨wc, wa, wb, lc⟩ := hw
    simp only [Expr.level, Nat.le_zero] at hl he
    subst hl
    obtain ⟨f1, h1⟩ := (ihb wb).2 1 0 rest (b, rest) (Nat.zero_le _) (he.mono (Nat.zero_le _))
      (readMore_stops 0 _ b rest he.stops_zero)
    obtain ⟨f2, h2⟩ := (iha wa).2 1 0 (.colon :: (b.text ++ rest)) _ (Nat.zero_le _) trivial
      (readMore_stops 0 0 a _ trivial)
    have hr : r = (.cond c a b, rest) := by
      cases f with
      | zero => simp [readMore] at hm
      | succ f => rw [readMore_stops f 0 _ rest he.stops_zero] at hm; simpa using hm.symm
    have hmore : readMore (max f1 f2 + 1) 0 c (.quest :: (a.text ++ .colon :: (b.text ++ rest))) = some r := by
      rw [readMore, if_pos rfl, readExpr_mono (Nat.le_max_right f1 f2) h2]
      dsimp only
      rw [readExpr_mono (Nat.le_max_left f1 f2) h1, hr]
    obtain ⟨f3, h3⟩ := (ihc wc).2 _ 0 (.quest :: (a.text ++ .colon :: (b.text ++ rest))) r (Nat.zero_le _) lc hmore
    exact ⟨f3, by simpa [Expr.text] using h3⟩

/-- The text of an expression that can be written is read as this expression. -/
theorem compiled_text (e : Expr) (hw : e.Written) : Compiled e.text e := by
  obtain ⟨f, hf⟩ := (read_text e hw).2 1 0 [] (e, []) (Nat.zero_le _) trivial rfl
  exact ⟨f, by simpa using hf⟩

/-! ### What is read could be written -/

theorem read_written (f : Nat) :
    (∀ ts e r, readUnary f ts = some (e, r) → ts = e.text ++ r ∧ e.Written ∧ e.level = 11) ∧
    (∀ l ts e r, l ≤ 11 → readExpr f l ts = some (e, r) → ts = e.text ++ r ∧ e.Written ∧ l ≤ e.level ∧ Stops l r) ∧
    (∀ l e ts e' r, readMore f l e ts = some (e', r) → e.Written → l ≤ e.level → Ends e.level ts →
      e.text ++ ts = e'.text ++ r ∧ e'.Written ∧ l ≤ e'.level ∧ Stops l r) := by
  induction f with
  | zero =>
    refine ⟨?_, ?_, ?_⟩
    · intro ts e r h; simp [readUnary] at h
    · intro l ts e r _ h; simp [readExpr] at h
    · intro l e ts e' r h; simp [readMore] at h
  | succ f ih =>
    obtain ⟨ihu, ihe, ihm⟩ := ih
    refine ⟨?_, ?_, ?_⟩
    · intro ts e r h
      match ts with
      | [] => simp [readUnary] at h
      | .num v :: ts =>
        simp only [readUnary, Option.some.injEq, Prod.mk.injEq] at h
        obtain ⟨rfl, rfl⟩ := h
        exact ⟨rfl, trivial, rfl⟩
      | .bang :: ts =>
        rw [readUnary] at h
        cases hu : readUnary f ts with
        | none => rw [hu] at h; simp at h
        | some x =>
          obtain ⟨e1, r1⟩ := x
          rw [hu] at h
          simp only [Option.some.injEq, Prod.mk.injEq] at h
          obtain ⟨rfl, rfl⟩ := h
          obtain ⟨h1, h2, h3⟩ := ihu _ _ _ hu
          exact ⟨by rw [h1]; rfl, ⟨h2, h3⟩, rfl⟩
      | .lpar :: ts =>
        rw [readUnary] at h
        split at h
        · next e1 r1 hu =>
          simp only [Option.some.injEq, Prod.mk.injEq] at h
          obtain ⟨rfl, rfl⟩ := h
          obtain ⟨h1, h2, -, -⟩ := ihe _ _ _ _ (Nat.zero_le _) hu
          exact ⟨by rw [h1]; simp [Expr.text], h2, rfl⟩
        · simp at h
      | .op o :: ts => simp [readUnary] at h
      | .quest :: ts => simp [readUnary] at h
      | .colon :: ts => simp [readUnary] at h
      | .rpar :: ts => simp [readUnary] at h
    · intro l ts e r hl h
      rw [readExpr] at h
      cases hu : readUnary f ts with
      | none => rw [hu] at h; simp at h
      | some x =>
        obtain ⟨e1, r1⟩ := x
        rw [hu] at h
        obtain ⟨h1, h2, h3⟩ := ihu _ _ _ hu
        rw [h1]
        refine ihm _ _ _ _ _ h h2 (by rw [h3]; exact hl) ?_
        rw [h3]
        match r1 with
        | [] => trivial
        | .num v :: ts => trivial
        | .bang :: ts => trivial
        | .lpar :: ts => trivial
        | .rpar :: ts => trivial
        | .colon :: ts => trivial
        | .op o :: ts => exact Nat.le_of_lt (level_lt o)
        | .quest :: ts => simp [Ends]
    · intro l e ts e' r h hw hl hends
      have same : ∀ ts, some (e, ts) = some (e', r) → Stops l ts →
          e.text ++ ts = e'.text ++ r ∧ e'.Written ∧ l ≤ e'.level ∧ Stops l r := by
        intro ts h hs
        simp only [Option.some.injEq, Prod.mk.injEq] at h
        obtain ⟨rfl, rfl⟩ := h
        exact ⟨rfl, hw, hl, hs⟩
      match ts with
      | [] => exact same _ h trivial
      | .num v :: ts => exact same _ h trivial
      | .bang :: ts => exact same _ h trivial
      | .lpar :: ts => exact same _ h trivial
      | .rpar :: ts => exact same _ h trivial
      | .colon :: ts => exact same _ h trivial
      | .op o :: ts =>
        rw [readMore] at h
        split_ifs at h with hlo
        · cases hu : readExpr f (o.level + 1) ts with
          | none => rw [hu] at h; simp at h
          | some x =>
            obtain ⟨b, r1⟩ := x
            rw [hu] at h
            obtain ⟨h1, h2, h3, h4⟩ := ihe _ _ _ _ (Nat.succ_le_of_lt (level_lt o)) hu
            have := ihm _ _ _ _ _ h ⟨hw, h2, hends, h3⟩ hlo (by
              match r1, h4 with
              | [], _ => trivial
              | .num v :: ts, _ => trivial
              | .bang :: ts, _ => trivial
              | .lpar :: ts, _ => trivial
              | .rpar :: ts, _ => trivial
              | .colon :: ts, _ => trivial
              | .op o' :: ts, h4 => exact Nat.le_of_lt_succ h4
              | .quest :: ts, _ => exact level_pos o)
            rw [h1]
            simpa [Expr.text] using this
        · exact same _ h (by simp only [Stops]; omega)
      | .quest :: ts =>
        rw [readMore] at h
        split_ifs at h with hl0
        · split at h
          · next a r1 hu =>
            cases hv : readExpr f 0 r1 with
            | none => rw [hv] at h; simp at h
            | some y =>
              obtain ⟨b, r2⟩ := y
              rw [hv] at h
              simp only [Option.some.injEq, Prod.mk.injEq] at h
              obtain ⟨rfl, rfl⟩ := h
              obtain ⟨h1, h2, -, -⟩ := ihe _ _ _ _ (Nat.zero_le _) hu
              obtain ⟨h5, h6, -, h8⟩ := ihe _ _ _ _ (Nat.zero_le _) hv
              refine ⟨by rw [h1, h5]; simp [Expr.text], ⟨hw, h2, h6, hends⟩, by omega, by rw [hl0]; exact h8⟩
          · simp at h
        · exact same _ h hl0

theorem compiled_written {ts : List Tok} {e : Expr} (h : Compiled ts e) : ts = e.text ∧ e.Written := by
  obtain ⟨f, hf⟩ := h
  obtain ⟨h1, h2, -, -⟩ := (read_written f).2.1 _ _ _ _ (Nat.zero_le _) hf
  exact ⟨by simpa using h1, h2⟩

end Macros
end Verif
