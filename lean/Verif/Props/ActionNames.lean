import Verif.Model.ActionNames
import Verif.Lemmas.Printing
import Verif.Props.Stateful
/-
C187: what the shown actions of a failing stateful test tell.
-/
namespace Verif
open Stateful Printing Engine
variable {O M : Type}

/-! ### C187 the report of a stateful test tells the actions -/

theorem showVector_val {α : Type} (T : α → Prop) (p : Printer α) (xs : List {a // T a}) :
    showVector (fun a : {a // T a} => p a.1) xs = showVector p (xs.map Subtype.val) := by
  have rest : ∀ xs : List {a // T a}, showRest (fun a : {a // T a} => p a.1) xs = showRest p (xs.map Subtype.val) := by
    intro xs
    induction xs with
    | nil => rfl
    | cons x xs ih => simp [showRest, ih]
  cases xs with
  | nil => rfl
  | cons x xs => simp [showVector, showSeq, rest]

theorem showRun_eq (p : Printer O) (o : O) (as : List (NamedAct O M)) :
    showRun p (o, as) = (p o >>= fun t => showVector showAction as >>= fun u =>
      .ok ([123, 32] ++ (t ++ [44, 32]) ++ u ++ [32, 125])) := by
  simp only [showRun, showTuple, showFront]
  cases h : p o with
  | ok t =>
    have : (0 : Nat) < 1 + 1 := by omega
    simp [h]
  | throws e => simp
  | ub => simp
  | diverges => simp

/-- The actions have names without spaces, and no two of them have the same name. -/
structure WellNamed (T : NamedAct O M → Prop) : Prop where
  ne : ∀ a, T a → a.name ≠ []
  space : ∀ a, T a → 32 ∉ a.name
  inj : ∀ a b, T a → T b → a.name = b.name → a = b

theorem WellNamed.exact {T : NamedAct O M → Prop} (h : WellNamed T) :
    Exact (showVector (fun a : {a // T a} => showAction a.1)) := by
  refine exact_seq (by omega) (by omega) ⟨?_, ?_, ?_⟩
  · intro a b s t ha hb u v e
    obtain rfl := ok_inj ha
    obtain rfl := ok_inj hb
    exact sep_noSpace (h.space _ a.2) (h.space _ b.2) e
  · intro a b s ha hb
    obtain rfl := ok_inj ha
    exact Subtype.ext (h.inj _ _ a.2 b.2 (ok_inj hb).symm)
  · intro a s ha
    obtain rfl := ok_inj ha
    refine ⟨_, _, (List.dropLast_append_getLast (h.ne _ a.2)).symm, fun e => ?_⟩
    exact h.space _ a.2 (e ▸ List.getLast_mem _)

/-- C187, the part that holds: let the actions of a test have names without spaces, different ones for different actions, and
let the shown object determine the object. Then the shown arguments determine the object and the list of actions, and so
what the test does when it is repeated with them. Missing: see the theorems named `_violated`. -/
theorem C187_replay_partial (T : NamedAct O M → Prop) (hT : WellNamed T) (p : Printer O)
    (hp : ∀ o o' s, p o = .ok s → p o' = .ok s → o = o') (o o' : O) (as as' : List (NamedAct O M))
    (ha : ∀ a ∈ as, T a) (ha' : ∀ a ∈ as', T a) (s : Text) (h : showRun p (o, as) = .ok s)
    (h' : showRun p (o', as') = .ok s) :
    o = o' ∧ as = as' ∧
      ∀ factory check, runNamed factory check o as = runNamed factory check o' as' := by
  have main : o = o' ∧ as = as' := by
    obtain ⟨as, rfl⟩ : ∃ xs : List {a // T a}, xs.map Subtype.val = as := ⟨as.attachWith _ ha, by simp⟩
    obtain ⟨as', rfl⟩ : ∃ xs : List {a // T a}, xs.map Subtype.val = as' := ⟨as'.attachWith _ ha', by simp⟩
    rw [showRun_eq, ← showVector_val] at h h'
    obtain ⟨t, h1, h⟩ := Outcome.bind_eq_ok.mp h
    obtain ⟨u, h2, h⟩ := Outcome.bind_eq_ok.mp h
    obtain ⟨t', h1', h'⟩ := Outcome.bind_eq_ok.mp h'
    obtain ⟨u', h2', h'⟩ := Outcome.bind_eq_ok.mp h'
    have e := (ok_inj h).trans (ok_inj h').symm
    have e : ([123, 32] ++ t ++ [44]) ++ 32 :: u = ([123, 32] ++ t' ++ [44]) ++ 32 :: u' := by
      have := List.append_cancel_right e
      simpa using this
    obtain ⟨e1, e2⟩ := hT.exact.sep h2 h2' _ _ e
    have e1 := List.append_cancel_left (List.append_cancel_right e1)
    refine ⟨hp _ _ _ h1 (e1 ▸ h1'), ?_⟩
    rw [hT.exact.inj h2 (e2 ▸ h2')]
  obtain ⟨rfl, rfl⟩ := main
  exact ⟨rfl, rfl, fun _ _ => rfl⟩

/-- Texts separated by a comma and a space. -/
def commas : List Text → Text
  | [] => []
  | [t] => t
  | t :: ts => t ++ [44, 32] ++ commas ts

theorem showRest_names : ∀ (a : NamedAct O M) (as : List (NamedAct O M)), ∃ r, showRest showAction as = .ok r ∧
    a.name ++ r = commas (a.name :: as.map NamedAct.name)
  | a, [] => ⟨[], rfl, by simp [commas]⟩
  | a, b :: as => by
    obtain ⟨r, h1, h2⟩ := showRest_names b as
    refine ⟨[44, 32] ++ b.name ++ r, by simp [showRest, showAction, h1], ?_⟩
    simp only [List.map_cons, commas]
    rw [← List.map_cons, List.append_assoc _ b.name, h2]
    simp

theorem showVector_names (as : List (NamedAct O M)) :
    showVector showAction as = .ok ([91, 32] ++ commas (as.map NamedAct.name) ++ [32, 93]) := by
  cases as with
  | nil => rfl
  | cons a as =>
    obtain ⟨r, h1, h2⟩ := showRest_names a as
    simp only [showVector, showSeq, showAction, h1, Outcome.ok_bind]
    rw [List.map_cons, ← h2]

/-- The names are shown in the order in which the actions are executed: if every action notes its name in the object, then
whenever all actions have returned, the shown list consists of the names noted, in the order of the notes. -/
theorem C187_order (as : List (NamedAct (O × List Text) M))
    (hn : ∀ a ∈ as, ∀ o l m fs o' l' m', a.func (o, l) m = ⟨fs, .ok ((o', l'), m')⟩ → l' = l ++ [a.name])
    (o o' : O) (m m' : M) (fs : List String) (noted : List Text)
    (h : runActions (as.map NamedAct.func) ((o, []), m) = ⟨fs, .ok ((o', noted), m')⟩) :
    showVector showAction as = .ok ([91, 32] ++ commas noted ++ [32, 93]) := by
  suffices key : ∀ (as : List (NamedAct (O × List Text) M)) (l : List Text) (o : O) (m : M) (fs : List String),
      (∀ a ∈ as, ∀ o l m fs o' l' m', a.func (o, l) m = ⟨fs, .ok ((o', l'), m')⟩ → l' = l ++ [a.name]) →
      Runs (as.map NamedAct.func) ((o, l), m) fs ((o', noted), m') → noted = l ++ as.map NamedAct.name by
    rw [showVector_names]
    have := key as [] o m fs hn ((runActions_ok _ _ _ _).mp h)
    rw [this, List.nil_append]
  intro as
  induction as with
  | nil =>
    intro l o m fs _ h
    cases h
    simp
  | cons a as ih =>
    intro l o m fs hn h
    cases h with
    | @cons _ _ _ s1 _ gs hs ha has =>
      obtain ⟨⟨o1, l1⟩, m1⟩ := s1
      have e := hn a (by simp) _ _ _ _ _ _ _ ha
      subst e
      rw [ih _ _ _ _ (fun b hb => hn b (by simp [hb])) has]
      simp

/-- The names make no difference to what is executed: a test with named actions holds iff the functions of all the actions, in the order in
which the names are shown, the post check after them, return and no expectation fails on the way; and it throws what they
throw. Actions with the same functions and other names give the same. -/
theorem C187_runs (factory : O → Ev (O × M)) (check : O → M → Ev (O × M)) (obj : O) (as as' : List (NamedAct O M)) :
    (runNamed factory (some check) obj as = ⟨[], .ok true⟩ ↔
      ∃ s s1 s2, factory obj = ⟨[], .ok s⟩ ∧ Runs (as.map NamedAct.func) s [] s1 ∧ check s1.1 s1.2 = ⟨[], .ok s2⟩) ∧
    (∀ e, (runNamed factory (some check) obj as).out = .throws e ↔
      (factory obj).out = .throws e ∨
      ∃ gs s, factory obj = ⟨gs, .ok s⟩ ∧
        ((∃ pre a post hs s', as = pre ++ a :: post ∧ Runs (pre.map NamedAct.func) s hs s' ∧ (a.func s'.1 s'.2).out = .throws e) ∨
         (∃ hs s', Runs (as.map NamedAct.func) s hs s' ∧ (check s'.1 s'.2).out = .throws e))) ∧
    (as.map NamedAct.func = as'.map NamedAct.func → ∀ check, runNamed factory check obj as = runNamed factory check obj as') := by
  refine ⟨C68_holds_iff _ _ _ _, fun e => ?_, fun h c => by unfold runNamed; rw [h]⟩
  unfold runNamed
  rw [(C68_throws_iff _ _ _ _).2 e]
  refine or_congr_right (exists_congr fun gs => exists_congr fun s => and_congr_right fun _ => or_congr_left ⟨?_, ?_⟩)
  · rintro ⟨pre, a, post, hs, s', h1, h2, h3⟩
    obtain ⟨xs, ys, rfl, rfl, h⟩ := List.map_eq_append_iff.mp h1
    obtain ⟨b, zs, rfl, rfl, rfl⟩ := List.map_eq_cons_iff.mp h
    exact ⟨xs, b, zs, hs, s', rfl, h2, h3⟩
  · rintro ⟨pre, a, post, hs, s', rfl, h2, h3⟩
    exact ⟨pre.map NamedAct.func, a.func, post.map NamedAct.func, hs, s', by simp, h2, h3⟩

/-- Two actions without names and one with a name; the second throws unless it finds 1. -/
example : runNamed (fun o : Nat => ⟨[], .ok (o, ())⟩) none 0
    [NamedAct.unnamed fun o m => ⟨[], .ok (o + 1, m)⟩, ⟨[98], fun o m => if o = 1 then ⟨[], .ok (7, m)⟩ else ⟨[], .throws .assertFailed⟩⟩,
      NamedAct.unnamed fun o m => ⟨if o = 7 then [] else ["not 7"], .ok (o, m)⟩] = ⟨[], .ok true⟩ := by decide +kernel

/-- A list of simple actions is executed one after the other. -/
inductive SimpleRuns : List (SimpleAct O) → O → List String → O → Prop
  | nil (o : O) : SimpleRuns [] o [] o
  | cons {a : SimpleAct O} {as : List (SimpleAct O)} {o o1 o2 : O} {fs gs : List String} :
      a.func o = ⟨fs, .ok o1⟩ → SimpleRuns as o1 gs o2 → SimpleRuns (a :: as) o (fs ++ gs) o2

/-- Simple actions keep their names, and are executed in the same order with the same effects on the object; the model is left
alone. -/
theorem C187_simple (as : List (SimpleAct O)) (o o' : O) (m m' : M) (fs : List String) :
    showVector showAction (as.map (NamedAct.ofSimple (M := M))) =
      .ok ([91, 32] ++ commas (as.map SimpleAct.name) ++ [32, 93]) ∧
    (runActions ((as.map NamedAct.ofSimple).map NamedAct.func) (o, m) = ⟨fs, .ok (o', m')⟩ ↔
      SimpleRuns as o fs o' ∧ m' = m) := by
  refine ⟨by rw [showVector_names, List.map_map]; rfl, ?_⟩
  rw [runActions_ok]
  induction as generalizing o fs with
  | nil =>
    constructor
    · intro h
      cases h
      exact ⟨.nil _, rfl⟩
    · rintro ⟨h, rfl⟩
      cases h
      exact .nil _
  | cons a as ih =>
    constructor
    · intro h
      cases h with
      | @cons _ _ _ s1 _ gs hs ha has =>
        obtain ⟨o1, m1⟩ := s1
        obtain ⟨g1, h1, o2, e1, e2, rfl⟩ := andThen_ok.mp ha
        injection e2 with e2 e3
        injection e3 with e3
        injection e3 with e3 e4
        subst e2 e3 e4
        obtain ⟨i1, i2⟩ := (ih _ _).mp has
        exact ⟨.cons (by simpa using e1) i1, i2⟩
    · rintro ⟨h, rfl⟩
      cases h with
      | @cons _ _ _ o1 _ gs hs ha has =>
        refine .cons (s1 := (o1, m')) ?_ ((ih _ _).mpr ⟨has, rfl⟩)
        exact andThen_ok.mpr ⟨gs, [], o1, ha, rfl, by simp⟩

/-- C187 is violated: of actions made without a name only the number is shown. -/
theorem C187_unnamed_violated (fs gs : List (Act O M)) (h : fs.length = gs.length) :
    showVector showAction (fs.map NamedAct.unnamed) = showVector showAction (gs.map NamedAct.unnamed) := by
  rw [showVector_names, showVector_names, List.map_map, List.map_map]
  have e : ∀ l : List (Act O M), l.map (NamedAct.name ∘ NamedAct.unnamed) = List.replicate l.length noName := by
    intro l
    induction l with
    | nil => rfl
    | cons f l ih => rw [List.map_cons, ih, List.length_cons, List.replicate_succ]; rfl
  rw [e, e, h]

/-- C187 is violated: a name may contain a comma and a space, so two actions are shown as one. -/
theorem C187_comma_violated (n n' : Text) (f g k : Act O M) :
    showVector showAction [⟨n, f⟩, ⟨n', g⟩] = showVector showAction [⟨n ++ [44, 32] ++ n', k⟩] := by
  rw [showVector_names, showVector_names]
  rfl

theorem showRest_unknown : ∀ (as : List (ClassAct O M)), ∃ r, showRest showClassAction as = .ok r ∧
    [60, 63, 63, 63, 62] ++ r = commas (List.replicate (as.length + 1) [60, 63, 63, 63, 62])
  | [] => ⟨[], rfl, by simp [commas]⟩
  | b :: as => by
    obtain ⟨r, h1, h2⟩ := showRest_unknown as
    refine ⟨[44, 32] ++ [60, 63, 63, 63, 62] ++ r, by simp [showRest, showClassAction, showNullable, showDefault, h1], ?_⟩
    rw [List.length_cons, List.replicate_succ, List.replicate_succ, commas, ← List.replicate_succ, ← h2]
    · simp
    · simp

/-- C187 is violated for the class style: each action is shown as `<???>`, so of the actions only the number is shown. -/
theorem C187_class_violated (as bs : List (ClassAct O M)) :
    showVector showClassAction as = .ok ([91, 32] ++ commas (List.replicate as.length [60, 63, 63, 63, 62]) ++ [32, 93]) ∧
    (as.length = bs.length → showVector showClassAction as = showVector showClassAction bs) := by
  have key : ∀ as : List (ClassAct O M),
      showVector showClassAction as = .ok ([91, 32] ++ commas (List.replicate as.length [60, 63, 63, 63, 62]) ++ [32, 93]) := by
    intro as
    cases as with
    | nil => rfl
    | cons a as =>
      obtain ⟨r, h1, h2⟩ := showRest_unknown as
      simp only [showVector, showSeq, h1]
      rw [List.length_cons, ← h2]
      rfl
  exact ⟨key as, fun h => by rw [key, key, h]⟩

/-! Cases. -/

/-- `add(n)` -/
def addAct (n : Nat) : NamedAct Nat Unit :=
  ⟨[97, 100, 100, 40] ++ dec n ++ [41], fun o m => ⟨[], .ok (o + n, m)⟩⟩

/-- `clear` -/
def clearAct : NamedAct Nat Unit := ⟨[99, 108, 101, 97, 114], fun _ m => ⟨[], .ok (0, m)⟩⟩

/-- The actions `add(0)`, `add(1)`, ... and `clear`. -/
example : WellNamed (fun a => a = clearAct ∨ ∃ n, a = addAct n) where
  ne := by
    rintro _ (rfl | ⟨n, rfl⟩) <;> simp [clearAct, addAct]
  space := by
    rintro _ (rfl | ⟨n, rfl⟩)
    · decide
    · intro h
      simp only [addAct, List.mem_append, List.mem_cons, List.not_mem_nil, or_false] at h
      rcases h with (h | h) | h
      · omega
      · have := dec_digit n _ h
        omega
      · omega
  inj := by
    rintro _ _ (rfl | ⟨n, rfl⟩) (rfl | ⟨k, rfl⟩) h
    · rfl
    · simp [clearAct, addAct] at h
    · simp [clearAct, addAct] at h
    · have h := List.append_cancel_left (List.append_cancel_right h)
      rw [dec_inj h]

/-- `{ 5, [ add(3), clear ] }` -/
example : showRun (fun n : Nat => .ok (dec n)) (5, [addAct 3, clearAct]) =
    .ok ("{ 5, [ add(3), clear ] }".toList.map Char.toNat) := by
  rw [showRun_eq, showVector_names]
  simp [addAct, clearAct, dec, commas]

/-- Two unnamed actions that do different things. -/
example : showVector showAction ([fun o m => ⟨[], .ok (o + 1, m)⟩].map (NamedAct.unnamed (O := Nat) (M := Unit))) =
      showVector showAction ([fun _ _ => ⟨[], .throws .assertFailed⟩].map (NamedAct.unnamed (O := Nat) (M := Unit))) :=
  C187_unnamed_violated _ _ rfl

/-- Two actions of the class style, of which one fails; both are shown as `[ <???> ]`. -/
example : showVector showClassAction [upTo3] = showVector showClassAction [bad] ∧
    showVector showClassAction [bad] = .ok ("[ <???> ]".toList.map Char.toNat) ∧
    (runClassActions [upTo3] (0, ())).out ≠ (runClassActions [bad] (0, ())).out :=
  ⟨(C187_class_violated _ _).2 rfl, by decide, by decide⟩

/-- actions that note their names -/
def noteAct (name : Text) : NamedAct (Nat × List Text) Unit := ⟨name, fun o m => ⟨[], .ok ((o.1 + 1, o.2 ++ [name]), m)⟩⟩

example : runActions ([noteAct [98], noteAct [97]].map NamedAct.func) ((0, []), ()) = ⟨[], .ok ((2, [[98], [97]]), ())⟩ ∧
    showVector showAction [noteAct [98], noteAct [97]] = .ok [91, 32, 98, 44, 32, 97, 32, 93] := ⟨rfl, rfl⟩

example : SimpleRuns [⟨[97], fun o : Nat => ⟨["e"], .ok (o + 1)⟩⟩, SimpleAct.unnamed fun o => ⟨[], .ok (2 * o)⟩] 3 ["e"] 8 :=
  .cons (fs := ["e"]) (o1 := 4) rfl (.cons (fs := []) (o1 := 8) rfl (.nil 8))

end Verif
