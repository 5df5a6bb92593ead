import Verif.Lemmas.LiveLaws
import Verif.Lemmas.Chance
import Verif.Spec.ChanceLive
/-
Lemmas on the chances of the values of dependent generators: the shrinks are kept as a plan of the draws they will make.
-/
namespace Verif
namespace Live
variable {σ α β γ A B : Type}

/-! ### Programs that draw, and shrinks that draw -/

/-- A program that draws from [a, a+n]. -/
inductive Prog (α : Type) where
  | ret (x : α)
  | draw (a : Int) (n : Nat) (next : Int → Prog α)

namespace Prog

def bind (k : α → Prog β) : Prog α → Prog β
  | ret x => k x
  | draw a n next => draw a n fun v => (next v).bind k

def run (R : Rng σ) : Prog α → σ → α × σ
  | ret x, s => (x, s)
  | draw a n next, s => (next (R.draw s a (a + n)).1).run R (R.draw s a (a + n)).2

def toExp : Prog α → Exp (Outcome α)
  | ret x => .ret (.ok x)
  | draw a n next => .draw a (a + n) fun v => (next v).toExp

def mean (f : α → ℚ) (p : Prog α) : ℚ := p.toExp.mean (val f)

theorem run_bind (R : Rng σ) (k : α → Prog β) (p : Prog α) (s : σ) :
    (p.bind k).run R s = (k (p.run R s).1).run R (p.run R s).2 := by
  induction p generalizing s with
  | ret x => rfl
  | draw a n next ih => exact ih _ _

theorem toExp_valid (p : Prog α) : p.toExp.Valid := by
  induction p with
  | ret x => trivial
  | draw a n next ih => exact ⟨by omega, fun v _ _ => ih v⟩

theorem run_toExp (R : Rng σ) (p : Prog α) (s : σ) : p.toExp.run R s = (.ok (p.run R s).1, (p.run R s).2) := by
  induction p generalizing s with
  | ret x => rfl
  | draw a n next ih => exact ih _ _

theorem mean_bind (f : β → ℚ) (k : α → Prog β) (p : Prog α) : (p.bind k).mean f = p.mean fun a => (k a).mean f := by
  induction p with
  | ret x => rfl
  | draw a n next ih =>
    simp only [mean] at ih
    simp only [mean, bind, toExp, Exp.mean, ih]

theorem mean_const (c : ℚ) (p : Prog α) : (p.mean fun _ => c) = c := by
  induction p with
  | ret x => rfl
  | draw a n next ih =>
    have h : a ≤ a + (n : Int) := by omega
    have pos := Exp.size_pos h
    simp only [mean] at ih
    simp only [mean, toExp, Exp.mean, ih]
    rw [Finset.sum_const, nsmul_eq_mul, Exp.card_Icc h]
    field_simp

end Prog

/-- An experiment that always has a result. -/
theorem prog_of (e : Exp (Outcome α)) (hv : e.Valid) (ok : ∀ (σ : Type) (R : Rng σ) (s : σ), ∃ x, (e.run R s).1 = .ok x) :
    ∃ p : Prog α, ∀ (σ : Type) (R : Rng σ) (s : σ), e.run R s = (.ok (p.run R s).1, (p.run R s).2) := by
  induction e with
  | ret o =>
    obtain ⟨x, hx⟩ := ok Unit ⟨fun _ a _ => (a, ()), fun _ a b h => ⟨le_refl a, h⟩⟩ ()
    simp only [Exp.run] at hx
    exact ⟨.ret x, fun σ R s => by rw [Exp.run, hx]; rfl⟩
  | draw a b next ih =>
    have step : ∀ v, a ≤ v → v ≤ b → ∃ p : Prog α, ∀ (σ : Type) (R : Rng σ) (s : σ),
        (next v).run R s = (.ok (p.run R s).1, (p.run R s).2) := by
      intro v h1 h2
      refine ih v (hv.2 v h1 h2) fun σ R s => ?_
      let R' : Rng (Option σ) := ⟨fun o x y => match o with
        | none => (if x ≤ v ∧ v ≤ y then v else x, some s)
        | some s => ((R.draw s x y).1, some (R.draw s x y).2), ?_⟩
      · have key : ∀ (e : Exp (Outcome α)) (s : σ), e.run R' (some s) = ((e.run R s).1, some (e.run R s).2) := by
          intro e
          induction e with
          | ret x => intro s; rfl
          | draw x y k ihk => intro s; exact ihk _ _
        obtain ⟨x, hx⟩ := ok _ R' none
        have : (Exp.draw a b next).run R' none = (next v).run R' (some s) := by
          simp only [Exp.run, R', h1, h2, and_self, ↓reduceIte]
        rw [this, key] at hx
        exact ⟨x, hx⟩
      · intro o x y hxy
        cases o with
        | none => dsimp only; split_ifs with h <;> omega
        | some s => exact R.draw_mem s x y hxy
    have hab := hv.1
    have : Nonempty (Prog α) := let ⟨p, _⟩ := step a le_rfl hab; ⟨p⟩
    choose! p hp using step
    refine ⟨.draw a (b - a).toNat p, fun σ R s => ?_⟩
    have e : a + ((b - a).toNat : Int) = b := by omega
    have hm := R.draw_mem s a b hab
    simp only [Exp.run, Prog.run, e]
    exact hp _ hm.1 hm.2 σ R _

/-- Shrinks that are evaluated when somebody looks at them, and then draw. -/
inductive Plan (α : Type) where
  | nil
  | cons (v : α) (shrinks tail : Plan α)
  | draw (a : Int) (n : Nat) (next : Int → Plan α)

namespace Plan

def runWith (h : α → A) (R : Rng σ) : Plan α → σ → Run σ A
  | nil => fun s => .nil s
  | cons v shrinks tail => fun s => .cons s (h v) (runWith h R shrinks) (runWith h R tail)
  | draw a n next => fun s => runWith h R (next (R.draw s a (a + n)).1) (R.draw s a (a + n)).2

def graft (k : α → Plan β) : Prog α → Plan β
  | .ret x => k x
  | .draw a n next => .draw a n fun v => graft k (next v)

theorem run_graft (h : β → B) (R : Rng σ) (k : α → Plan β) (p : Prog α) (s : σ) :
    (graft k p).runWith h R s = (k (p.run R s).1).runWith h R (p.run R s).2 := by
  induction p generalizing s with
  | ret x => rfl
  | draw a n next ih => exact ih _ _

def flatMap (f : α → Prog β) : Plan α → Plan β
  | nil => nil
  | cons v shrinks tail => graft (fun b => cons b (flatMap f shrinks) (flatMap f tail)) (f v)
  | draw a n next => draw a n fun v => flatMap f (next v)

theorem run_flatMap {h : α → A} {h' : β → B} {R : Rng σ} {f : α → Prog β} {f' : A → σ → Outcome (B × σ)}
    (hf : ∀ v s, f' (h v) s = .ok (h' ((f v).run R s).1, ((f v).run R s).2)) (p : Plan α) (s : σ) :
    (p.flatMap f).runWith h' R s = (p.runWith h R s).flatMap f' := by
  induction p generalizing s with
  | nil => rfl
  | cons v shrinks tail ih1 ih2 =>
    simp only [flatMap, run_graft, runWith, Run.flatMap, hf, Run.after, Run.cons.injEq, true_and]
    exact ⟨funext ih1, funext ih2⟩
  | draw a n next ih => exact ih _ _

def look : Plan α → Prog Bool
  | nil => .ret true
  | cons _ _ _ => .ret false
  | draw a n next => .draw a n fun v => look (next v)

theorem run_look (h : α → A) (R : Rng σ) (p : Plan α) (s : σ) : (p.runWith h R s).state = .ok (p.look.run R s).2 ∧
    (p.runWith h R s).isEmpty = (p.look.run R s).1 := by
  induction p generalizing s with
  | nil => exact ⟨rfl, rfl⟩
  | cons v shrinks tail _ _ => exact ⟨rfl, rfl⟩
  | draw a n next ih => exact ih _ _

def andThen (thn : α → Plan α) : Plan α → Plan α
  | nil => nil
  | cons v shrinks tail =>
    graft (fun b => cons v (if b then thn v else andThen thn shrinks) (andThen thn tail)) (look shrinks)
  | draw a n next => draw a n fun v => andThen thn (next v)

theorem run_andThen {h : α → A} {R : Rng σ} {thn : α → Plan α} {thn' : LShr σ A → σ → Run σ A}
    (ht : ∀ v sh s, thn' ⟨h v, sh⟩ s = (thn v).runWith h R s) (p : Plan α) (s : σ) :
    (p.andThen thn).runWith h R s = (p.runWith h R s).andThen thn' := by
  induction p generalizing s with
  | nil => rfl
  | cons v shrinks tail ih1 ih2 =>
    obtain ⟨h1, h2⟩ := run_look h R shrinks s
    simp only [andThen, run_graft, runWith, Run.andThen, h1, h2, Run.cons.injEq, true_and]
    refine ⟨?_, funext ih2⟩
    funext s'
    split
    · exact (ht _ _ _).symm
    · exact ih1 _
  | draw a n next ih => exact ih _ _

def ofShrs : List (Shr α) → Plan α
  | [] => nil
  | .node v ss :: ts => cons v (ofShrs ss) (ofShrs ts)

end Plan

/-- The experiment of a generator, with the shrinks. -/
def Made (g : LSrc α) (e : Prog (α × Plan α)) : Prop :=
  ∀ (σ : Type) (R : Rng σ) (s : σ), g σ R s = .ok (⟨(e.run R s).1.1, (e.run R s).1.2.runWith id R⟩, (e.run R s).2)

/-- Pairs of values with the shrinks of the second one, for an engine. -/
def rep (R : Rng σ) (x : α × β × Plan β) : α × LShr σ β := (x.1, ⟨x.2.1, x.2.2.runWith id R⟩)

def expandP (x : α × β × Plan β) : Plan (α × β × Plan β) := x.2.2.flatMap fun w => .ret (x.1, w, .nil)

def dependentP (e : Prog (α × Plan α)) (f : α → Prog (β × Plan β)) : Prog ((α × β × Plan β) × Plan (α × β × Plan β)) :=
  e.bind fun x => (f x.1).bind fun y =>
    (x.2.flatMap fun v => (f v).bind fun y => .ret (v, y)).look.bind fun b =>
      .ret ((x.1, y), if b then expandP (x.1, y) else (x.2.flatMap fun v => (f v).bind fun y => .ret (v, y)).andThen expandP)

theorem run_dependent {g : LSrc α} {f : α → LSrc β} {e : Prog (α × Plan α)} {ef : α → Prog (β × Plan β)} (hg : Made g e)
    (hf : ∀ v, Made (f v) (ef v)) (R : Rng σ) (s : σ) :
    dependent (g σ R) (fun v => f v σ R) s = .ok (⟨rep R ((dependentP e ef).run R s).1.1,
      ((dependentP e ef).run R s).1.2.runWith (rep R) R⟩, ((dependentP e ef).run R s).2) := by
  have hi : ∀ v s, inter (fun v => f v σ R) v s =
      .ok (rep R (((ef v).bind fun y => Prog.ret (v, y)).run R s).1, (((ef v).bind fun y => Prog.ret (v, y)).run R s).2) := by
    intro v s
    simp only [inter, hf v σ R s, Outcome.ok_bind, Outcome.pure_eq, Prog.run_bind, Prog.run, rep]
  have hex : ∀ (x : α × β × Plan β) (sh) (s : σ), expand ⟨rep R x, sh⟩ s = (expandP x).runWith (rep R) R s := by
    intro x sh s
    rw [expandP, Plan.run_flatMap (h := id) (f' := fun u s => .ok ((x.1, leaf u), s))]
    · rfl
    · intro v s; rfl
  simp only [dependent, hg σ R s, Outcome.ok_bind, LShr.flatMap, hi, Outcome.pure_eq, LShr.andThen, dependentP, Prog.run_bind, Prog.run]
  simp only [← Plan.run_flatMap (h := id) (h' := rep R) (f := fun v => (ef v).bind fun y => Prog.ret (v, y)) hi]
  rw [(Plan.run_look _ _ _ _).1, (Plan.run_look _ _ _ _).2]
  simp only [Outcome.ok_bind]
  refine congrArg Outcome.ok (Prod.ext (congrArg (LShr.mk _) ?_) rfl)
  split
  · funext s'
    exact hex _ _ _
  · funext s'
    exact (Plan.run_andThen hex _ _).symm

def mapP (c : α → β) (p : Plan α) : Plan β := p.flatMap fun v => .ret (c v)

theorem made_map {i : ∀ σ : Type, Rng σ → σ → Outcome (LShr σ (A × LShr σ B) × σ)} {e : Prog ((A × B × Plan B) × Plan (A × B × Plan B))}
    (hi : ∀ (σ : Type) (R : Rng σ) (s : σ),
      i σ R s = .ok (⟨rep R (e.run R s).1.1, (e.run R s).1.2.runWith (rep R) R⟩, (e.run R s).2)) (c : A → B → γ) :
    Made (fun σ R s => do
      let (t, s) ← i σ R s
      t.flatMap (fun p s => .ok (c p.1 p.2.value, s)) s)
      (e.bind fun x => .ret (c x.1.1 x.1.2.1, mapP (fun x => c x.1 x.2.1) x.2)) := by
  intro σ R s
  simp only [hi, Outcome.ok_bind, LShr.flatMap, Outcome.pure_eq, Prog.run_bind, Prog.run]
  refine congrArg Outcome.ok (Prod.ext (congrArg (LShr.mk _) ?_) rfl)
  funext s'
  exact (Plan.run_flatMap (h := rep R) (h' := id) (f := fun x => Prog.ret (c x.1 x.2.1)) (fun _ _ => rfl) _ s').symm

/-- The experiment of `pairWith`, `tupleWith` and `flatMap`. -/
def bothP (c : α → β → γ) (e : Prog (α × Plan α)) (f : α → Prog (β × Plan β)) : Prog (γ × Plan γ) :=
  (dependentP e f).bind fun x => .ret (c x.1.1 x.1.2.1, mapP (fun x => c x.1 x.2.1) x.2)

theorem made_both {g : LSrc α} {f : α → LSrc β} {e : Prog (α × Plan α)} {ef : α → Prog (β × Plan β)} (hg : Made g e)
    (hf : ∀ v, Made (f v) (ef v)) (c : α → β → γ) : Made (fun σ R s => do
      let (i, s) ← dependent (g σ R) (fun v => f v σ R) s
      i.flatMap (fun p s => .ok (c p.1 p.2.value, s)) s) (bothP c e ef) :=
  made_map (i := fun σ R s => dependent (g σ R) (fun v => f v σ R) s) (fun _ R s => run_dependent hg hf R s) c

/-- Looking at shrinks does not change the chances of values. -/
theorem mean_both (c : α → β → γ) (e : Prog (α × Plan α)) (f : α → Prog (β × Plan β)) (F : γ → ℚ) :
    ((bothP c e f).mean fun z => F z.1) = e.mean fun x => (f x.1).mean fun y => F (c x.1 y.1) := by
  simp only [bothP, dependentP, Prog.mean_bind]
  congr 1
  funext x
  congr 1
  funext y
  have hr : ∀ {X : Type} (h : X → ℚ) (x : X), (Prog.ret x).mean h = h x := fun _ _ => rfl
  simp only [hr]
  exact Prog.mean_const _ _

theorem made_transform {g : LSrc α} {e : Prog (α × Plan α)} (hg : Made g e) (f : α → β) :
    Made (fun σ R => transform (g σ R) f) (e.bind fun x => .ret (f x.1, mapP f x.2)) := by
  intro σ R s
  simp only [transform, hg σ R s, Outcome.ok_bind, LShr.flatMap, Outcome.pure_eq, Prog.run_bind, Prog.run]
  refine congrArg Outcome.ok (Prod.ext (congrArg (LShr.mk _) ?_) rfl)
  funext s'
  exact (Plan.run_flatMap (h := id) (h' := id) (f := fun x => Prog.ret (f x)) (fun _ _ => rfl) _ s').symm

theorem run_ofShrs (R : Rng σ) : ∀ (ts : List (Shr α)) (s : σ), (Plan.ofShrs ts).runWith id R s = ofList ts s
  | [], s => by simp [Plan.ofShrs, Plan.runWith, ofList]
  | .node v ss :: ts, s => by
    have h1 := run_ofShrs R ss
    have h2 := run_ofShrs R ts
    simp only [Plan.ofShrs, Plan.runWith, ofList, Shr.value, id, Run.cons.injEq, true_and]
    refine ⟨funext fun s' => ?_, funext h2⟩
    rw [h1, ofShrinks]

theorem made_gen {g : Src (Shr α)} {e : Exp (Outcome (Shr α))} (h : Follows g e) (ok : ∀ σ R s, ∃ r, g σ R s = .ok r) :
    ∃ p, Made (fun σ R => ofGen (g σ R)) p := by
  obtain ⟨p, hp⟩ := prog_of e h.1 fun σ R s => by
    obtain ⟨r, hr⟩ := ok σ R s
    rw [h.2] at hr
    cases ho : (e.run R s).1 with
    | ok x => exact ⟨x, rfl⟩
    | throws x => rw [ho] at hr; cases hr
    | ub => rw [ho] at hr; cases hr
    | diverges => rw [ho] at hr; cases hr
  refine ⟨p.bind fun t => .ret (t.value, Plan.ofShrs t.shrinks), fun σ R s => ?_⟩
  simp only [ofGen, h.2, hp, Outcome.bind, Outcome.ok_bind, Outcome.pure_eq, Prog.run_bind, Prog.run, ofShr]
  refine congrArg Outcome.ok (Prod.ext (congrArg (LShr.mk _) ?_) rfl)
  funext s'
  rw [run_ofShrs]
  obtain ⟨v, ss⟩ := (p.run R s).1
  simp only [ofShrinks, Shr.shrinks]

theorem Built.made {α : Type} {g : LSrc α} (h : Built g) : ∃ e, Made g e := by
  induction h with
  | gen g h ok => exact made_gen h.choose_spec ok
  | pairWith _ _ ih1 ih2 =>
    obtain ⟨e, he⟩ := ih1
    choose ef hf using ih2
    exact ⟨_, made_both he hf Prod.mk⟩
  | tupleWith cat _ _ ih1 ih2 =>
    obtain ⟨e, he⟩ := ih1
    choose ef hf using ih2
    exact ⟨_, made_both he hf cat⟩
  | flatMap _ _ ih1 ih2 =>
    obtain ⟨e, he⟩ := ih1
    choose ef hf using ih2
    exact ⟨_, made_both he hf fun _ b => b⟩
  | map f _ ih =>
    obtain ⟨e, he⟩ := ih
    exact ⟨_, made_transform he f⟩

theorem chance_of_made {g : LSrc α} {e : Prog (α × Plan α)} (h : Made g e) (E : α → Bool) :
    Chance (valueOf g) E (e.mean fun x => if E x.1 then 1 else 0) := by
  refine ⟨(e.bind fun x => .ret x.1).toExp, ⟨Prog.toExp_valid _, fun σ R s => ?_⟩, ?_⟩
  · rw [Prog.run_toExp, Prog.run_bind, valueOf, h σ R s]
    rfl
  · rw [hit_eq]
    exact Prog.mean_bind _ _ e

theorem chance_made {g : LSrc α} {e : Prog (α × Plan α)} (h : Made g e) {E : α → Bool} {p : ℚ} (hp : Chance (valueOf g) E p) :
    (e.mean fun x => if E x.1 then 1 else 0) = p := chance_unique (chance_of_made h E) hp

theorem mean_scale (c : ℚ) (f : α → ℚ) (e : Prog α) : (e.mean fun x => c * f x) = c * e.mean f := by
  have : (val fun x => c * f x) = fun o => c * val f o := by
    funext o
    cases o <;> simp [val]
  rw [Prog.mean, this, Exp.mean_mul]
  rfl

theorem mean_plus (f g : α → ℚ) (e : Prog α) : (e.mean fun x => f x + g x) = e.mean f + e.mean g := by
  have : (val fun x => f x + g x) = fun o => val f o + val g o := by
    funext o
    cases o <;> simp [val]
  rw [Prog.mean, this, Exp.mean_add]
  rfl

theorem chance_both {g : LSrc α} {f : α → LSrc β} (hg : Built g) (hf : ∀ v, Built (f v)) (c : α → β → γ) (G : γ → Bool)
    (E : α → Bool) (F : β → Bool) (hG : ∀ a b, G (c a b) = (E a && F b)) (p q : ℚ) (h1 : Chance (valueOf g) E p)
    (h2 : ∀ v, E v = true → Chance (valueOf (f v)) F q) : Chance (valueOf fun σ R s => do
      let (i, s) ← dependent (g σ R) (fun v => f v σ R) s
      i.flatMap (fun p s => .ok (c p.1 p.2.value, s)) s) G (p * q) := by
  obtain ⟨e, he⟩ := hg.made
  choose ef hf' using fun v => (hf v).made
  have := chance_of_made (made_both he hf' c) G
  rw [mean_both c e ef fun z => if G z then 1 else 0] at this
  rw [← chance_made he h1, mul_comm, ← mean_scale]
  convert this using 2
  funext x
  by_cases hE : E x.1 = true
  · rw [if_pos hE, mul_one, ← chance_made (hf' x.1) (h2 _ hE)]
    simp [hG, hE]
  · rw [if_neg hE, mul_zero]
    simp only [hG, hE, Bool.false_and, Bool.false_eq_true, ↓reduceIte]
    rw [Prog.mean_const]

theorem chance_gen {g : Src (Shr α)} {E : α → Bool} {p : ℚ} (h : Chance g (fun t => E t.value) p) :
    Chance (valueOf fun σ R => ofGen (g σ R)) E p := by
  obtain ⟨e, he, hm⟩ := h
  refine ⟨_, (he.bind fun t => Follows.pure t.value).congr fun σ R s => ?_, ?_⟩
  · rw [valueOf, ofGen]
    cases g σ R s <;> rfl
  · rw [← hm, hit_eq, hit_eq, mean_andThen]
    rfl

theorem fits_snoc (E : α → Bool) (v : α) : ∀ (Es : List (α → Bool)) (l : List α), fits (Es ++ [E]) (l ++ [v]) = (fits Es l && E v)
  | [], [] => by simp [fits]
  | [], x :: l => by cases l <;> simp [fits]
  | F :: Es, [] => by cases Es <;> simp [fits]
  | F :: Es, x :: l => by simp [fits, fits_snoc E v Es l, Bool.and_assoc]

end Live
end Verif
