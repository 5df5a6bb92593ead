import Verif.Lemmas.PropertyCongr
import Verif.Lemmas.PropertyKeeps
import Verif.Lemmas.PairTuple
import Verif.Props.Property
/-
C191: a test depends on the property function only at values that can be generated.
-/
namespace Verif
namespace Engine
open PairTuple
variable {n : Nat} {A : Fin n → Type} {σ : Type}

/-- The generator can produce the value, or a value that shrinks to it. -/
def Possible {α : Type} (g : Gen σ α) (v : α) : Prop := ∃ t, g.Makes t ∧ Reach t v

theorem runForAll_possible (c : Cfg σ A) (f' : Trace A → Args A → Ev Bool)
    (hf : ∀ tr a, (∀ i, Possible (c.gens i) (a i)) → c.func tr a = f' tr a) (fuel : Nat) :
    runForAll c fuel = runForAll { c with func := f' } fuel :=
  runForAll_congr (T := fun i v => Possible (c.gens i) v) hf
    (fun order _ s ts r h i v hv => ⟨ts i, Gen.drawTuple_ok c.gens order s ts r h i, hv⟩) fuel

/-- C191. Two property functions that do the same for all arguments whose values the generators can produce, or arrive
at by shrinking, give the same test: the same calls in the same order, the same report, with all settings, hooks and
generators, whatever they do. What the functions do for other arguments (undefined behaviour, say) does not matter. -/
theorem C191_same_test (c : Cfg σ A) (f' : Trace A → Args A → Ev Bool)
    (hf : ∀ tr a, (∀ i, Possible (c.gens i) (a i)) → c.func tr a = f' tr a) (fuel : Nat) (seed : σ) (tr : Trace A) :
    forAll c fuel seed tr = forAll { c with func := f' } fuel seed tr := by
  unfold forAll
  rw [runForAll_possible c f' hf]

theorem desc_chain3 {t : Shr Nat} (h : Desc chain3 t) : t.value ≤ 3 := by
  have : ∀ u t : Shr Nat, Desc u t → (u = chain3 ∨ u = .node 2 [.node 1 [.node 0 []]] ∨ u = .node 1 [.node 0 []] ∨ u = .node 0 []) →
      t.value ≤ 3 := by
    intro u t h
    induction h with
    | refl t => rintro (rfl | rfl | rfl | rfl) <;> decide
    | step hs _ ih =>
      rintro (rfl | rfl | rfl | rfl) <;> simp [chain3] at hs <;> subst hs <;> exact ih (by simp)
  exact this _ _ h (.inl rfl)

/-- Numbers up to 3: it makes no difference that a function is undefined for larger numbers. -/
example (fuel : Nat) (tr : Trace (fun _ : Fin 1 => Nat)) :
    forAll (demo (fun _ => chain3) below2 10) fuel 0 tr =
      forAll (demo (fun _ => chain3) (fun k => if k ≤ 3 then below2 k else ⟨[], .ub⟩) 10) fuel 0 tr := by
  refine C191_same_test (demo (fun _ => chain3) below2 10)
    (fun _ a => if a 0 ≤ 3 then below2 (a 0) else ⟨[], .ub⟩) (fun tr a ha => ?_) fuel 0 tr
  obtain ⟨t, ⟨s, s', h⟩, u, hu, e⟩ := ha 0
  obtain rfl : chain3 = t := by cases h; rfl
  have := desc_chain3 hu
  rw [e] at this
  rw [if_pos this]
  rfl

/-! ### Calls -/

/-- What is recorded is what the function does. -/
def RecordedCalls (c : Cfg σ A) (tr : Trace A) : Prop := ∀ ph a ev, .call ph a ev ∈ tr → ∃ tr', ev = c.func tr' a

theorem recorded_forAll {c : Cfg σ A} (fuel : Nat) (seed : σ) : RecordedCalls c (forAll c fuel seed []).2 := by
  have hcons : ∀ (x : Event A) tr, (∀ ph a ev, x = .call ph a ev → ∃ tr', ev = c.func tr' a) → RecordedCalls c tr →
      RecordedCalls c (x :: tr) := by
    intro x tr he hs ph a ev h
    rcases List.mem_cons.1 h with h | h
    · exact he ph a ev h.symm
    · exact hs ph a ev h
  exact keeps_forAll (P := RecordedCalls c)
    { startup := fun ph ev tr => hcons _ _ (by simp)
      cleanup := fun ph ev tr => hcons _ _ (by simp)
      call := fun ph a tr => hcons _ _ fun ph' a' ev h => by cases h; exact ⟨_, rfl⟩
      genThrew := fun ph e tr => hcons _ _ (by simp) } fuel seed [] (by intro ph a ev h; cases h)

/-- C191. The property is called only with arguments whose values the generators can produce, or arrive at by
shrinking, also if the test ends with undefined behaviour or an exception. -/
theorem C191_calls (c : Cfg σ A) (fuel : Nat) (seed : σ) (ph : Phase) (a : Args A) (ev : Ev Bool)
    (h : .call ph a ev ∈ (forAll c fuel seed []).2) (i : Fin n) : Possible (c.gens i) (a i) := by
  classical
  by_contra hno
  have key : ∀ x : Ev Bool, ev = x := by
    intro x
    have e := C191_same_test c (fun tr a => if ∀ i, Possible (c.gens i) (a i) then c.func tr a else x)
      (fun tr a ha => (if_pos ha).symm) fuel seed []
    rw [e] at h
    obtain ⟨tr', h'⟩ := recorded_forAll fuel seed ph a ev h
    simp only at h'
    rwa [if_neg fun hh => hno (hh i)] at h'
  have h1 := key ⟨[], .ub⟩
  rw [key ⟨[], .ok true⟩] at h1
  cases h1

/-- The test above does call the property, with 3, 2 and 1. -/
example : (forAll (demo (fun _ => chain3) below2 10) 5 0 []).2.length = 3 ∧
    ∀ ph a ev, .call ph a ev ∈ (forAll (demo (fun _ => chain3) below2 10) 5 0 []).2 → a 0 ≤ 3 := by
  refine ⟨by decide +kernel, fun ph a ev h => ?_⟩
  obtain ⟨t, ⟨s, s', h1⟩, u, hu, e⟩ := C191_calls _ 5 0 ph a ev h 0
  obtain rfl : chain3 = t := by cases h1; rfl
  have := desc_chain3 hu
  rwa [e] at this

end Engine
end Verif
