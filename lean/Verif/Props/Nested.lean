import Verif.Lemmas.LiveAgree
import Verif.Spec.Tree
/-
C182: dependent generators of dependent generators, to any depth.
-/
namespace Verif
namespace Live
variable {σ α β γ : Type}

private theorem ofList_has : ∀ (ts : List (Shr α)) (s : σ) (c : LShr σ α), (ofList ts s).Has c → ∃ t ∈ ts, c = ofShr t
  | [], _, _, h => by cases h
  | t :: ts, s, c, h => by
    simp only [ofList] at h
    cases h with
    | head => exact ⟨t, by simp, rfl⟩
    | tail _ s1 _ _ _ _ h =>
      obtain ⟨t', ht, rfl⟩ := ofList_has ts s1 c h
      exact ⟨t', by simp [ht], rfl⟩

private theorem ofShr_desc {t d : LShr σ α} (h : t.Desc d) : ∀ u : Shr α, t = ofShr u → ∃ w, Verif.Desc u w ∧ d = ofShr w := by
  induction h with
  | self t => exact fun u hu => ⟨u, .refl u, hu⟩
  | step t c d s hc _ ih =>
    rintro ⟨v, ss⟩ rfl
    obtain ⟨w, hw, rfl⟩ := ofList_has ss s c hc
    obtain ⟨x, hx, rfl⟩ := ih w rfl
    exact ⟨x, .step hw hx, rfl⟩

/-- For a generator whose shrinks do not draw, the values are those of the trees it makes. -/
theorem gives_ofGen {g : Gen σ α} {v : α} (h : LGen.Gives (ofGen g) v) : ∃ t, g.Makes t ∧ Verif.Reach t v := by
  obtain ⟨s, t, s', h, d, hd, rfl⟩ := h
  simp only [ofGen] at h
  obtain ⟨⟨u, s1⟩, hu, h⟩ := Outcome.bind_eq_ok.1 h
  simp only [Outcome.pure_eq, Outcome.ok.injEq, Prod.mk.injEq] at h
  obtain ⟨w, hw, rfl⟩ := ofShr_desc hd u h.1.symm
  exact ⟨u, ⟨_, _, hu⟩, w, hw, rfl⟩

/-- **C182, pairs.** Whatever generators, themselves dependent or not, `dependency` is applied to, at whatever states of the
engine its shrinks are evaluated: the first component of every pair one can meet is one the first generator gives, the second
one is one the generator for just this first component gives. -/
theorem C182_pairs (gen1 : LGen σ α) (f : α → LGen σ β) (v : α) (w : β) (h : LGen.Gives (dependency gen1 f) (v, w)) :
    LGen.Gives gen1 v ∧ LGen.Gives (f v) w := by
  obtain ⟨p, hp, h1, h2⟩ := reformat_gives (k := fun p : α × LShr σ β => (p.1, p.2.value)) h
  simp only [Prod.mk.injEq] at hp
  obtain ⟨rfl, rfl⟩ := hp
  exact ⟨h1, h2⟩

/-- **C182, derived values.** What `derive` (`flatMap`) gives is given by the generator for some value the first generator
gives. -/
theorem C182_derived (gen1 : LGen σ α) (f : α → LGen σ β) (w : β) (h : LGen.Gives (derive gen1 f) w) :
    ∃ v, LGen.Gives gen1 v ∧ LGen.Gives (f v) w := by
  obtain ⟨p, rfl, h1, h2⟩ := reformat_gives (k := fun p : α × LShr σ β => p.2.value) h
  exact ⟨p.1, h1, h2⟩

/-- **C182, tuples of any length.** `gen.tupleWith(f1)...tupleWith(fn)`: in every tuple one can meet, each component is one the
generator for the components before it gives. -/
theorem C182_tuples (fs : List (List α → LGen σ α)) : ∀ (gen1 : LGen σ (List α)) (l : List α), LGen.Gives (chains gen1 fs) l →
    ∃ l0, LGen.Gives gen1 l0 ∧ l.length = l0.length + fs.length ∧ l.take l0.length = l0 ∧
      ∀ i (hi : i < fs.length), ∃ v, l[l0.length + i]? = some v ∧ LGen.Gives (fs[i] (l.take (l0.length + i))) v := by
  induction fs with
  | nil => exact fun gen1 l h => ⟨l, h, rfl, by simp, by simp⟩
  | cons f fs ih =>
    intro gen1 l h
    obtain ⟨l1, h1, hlen, htake, hrest⟩ := ih _ l h
    obtain ⟨p, hp, g1, g2⟩ := reformat_gives (k := fun p : List α × LShr σ α => p.1 ++ [p.2.value]) h1
    have hl1 : l1.length = p.1.length + 1 := by rw [← hp]; simp
    have htk : l.take p.1.length = p.1 := by
      have : l.take p.1.length = (l.take l1.length).take p.1.length := by rw [List.take_take, hl1]; simp
      rw [this, htake, ← hp]; simp
    refine ⟨p.1, g1, by simp [hlen, hl1]; omega, htk, ?_⟩
    intro i hi
    cases i with
    | zero =>
      refine ⟨p.2.value, ?_, by simpa [htk] using g2⟩
      have : l[p.1.length]? = l1[p.1.length]? := by
        rw [← htake, List.getElem?_take]; simp [hl1]
      simp [this, ← hp]
    | succ i =>
      obtain ⟨v, hv, hg⟩ := hrest i (by simpa using hi)
      refine ⟨v, ?_, ?_⟩
      · rw [← hv, hl1]; congr 1; omega
      · have : p.1.length + (i + 1) = l1.length + i := by omega
        simpa [this] using hg

/-- **C182, what is reported.** Shrinking an argument of any such generator, with the engine that serves its shrinks: if it comes
back, the reported value was met by shrinking the generated one, it fails if the generated one fails, and the shrinks made
for it at the end all pass. -/
theorem C182_reported (g : LGen σ α) (fails : α → Bool) (s s' : σ) (v : α) (h : shrink g fails s = .ok (v, s')) :
    ∃ t s1, g s = .ok (t, s1) ∧ t.Reach v ∧ (fails t.value = true → fails v = true) ∧
      ∃ d s2 vs, t.Desc d ∧ d.value = v ∧ (d.shrinks s2).read = .ok (vs, s') ∧ ∀ x ∈ vs, fails x = false := by
  obtain ⟨⟨t, s1⟩, ht, h⟩ := Outcome.bind_eq_ok.1 h
  refine ⟨t, s1, ht, ?_⟩
  rcases search_ok _ _ h with ⟨rfl, vs, h1, h2⟩ | ⟨c, d, s2, vs, h1, h2, rfl, h3, h4, h5⟩
  · exact ⟨⟨t, .self t, rfl⟩, id, t, s1, vs, .self t, rfl, h1, h2⟩
  · have hd : t.Desc d := .step _ _ _ s1 h1 h2
    exact ⟨⟨d, hd, rfl⟩, fun _ => h3, d, s2, vs, hd, rfl, h4, h5⟩

/-- **C182, shrinking comes back.** If all generators always return, tuples of any length are always generated, all their shrinks
can be evaluated at all times, and shrinking comes back. -/
theorem C182_returns (fs : List (List α → LGen σ α)) : ∀ (gen1 : LGen σ (List α)), LGen.Total gen1 →
    (∀ f ∈ fs, ∀ l, LGen.Total (f l)) →
    LGen.Total (chains gen1 fs) ∧ ∀ (fails : List α → Bool) (s : σ), ∃ l s', shrink (chains gen1 fs) fails s = .ok (l, s') := by
  have key : ∀ fs : List (List α → LGen σ α), ∀ (gen1 : LGen σ (List α)), LGen.Total gen1 →
      (∀ f ∈ fs, ∀ l, LGen.Total (f l)) → LGen.Total (chains gen1 fs) := by
    intro fs
    induction fs with
    | nil => exact fun gen1 h _ => h
    | cons f fs ih =>
      intro gen1 h hf
      exact ih _ (reformat_total (k := fun p : List α × LShr σ α => p.1 ++ [p.2.value]) h (hf f (by simp)))
        fun g hg => hf g (by simp [hg])
  intro gen1 h hf
  refine ⟨key fs gen1 h hf, fun fails s => ?_⟩
  obtain ⟨t, s1, ht, hc⟩ := key fs gen1 h hf s
  obtain ⟨l, s', hl⟩ := calm_search (fails := fails) (t.shrinks s1) t.value (hc s1)
  exact ⟨l, s', by simp [shrink, ht, hl]⟩

/-! ### A concrete case: three numbers, each at most the one before -/

/-- Numbers from a script, with all smaller numbers as shrinks. -/
private def upTo (m : Nat) : Gen (List Nat) Nat := fun s =>
  let v := min m (s.headD 0)
  .ok (.node v ((List.range v).map Shr.leaf), s.tail)

private def first : LGen (List Nat) (List Nat) := fun s => do
  let (t, s) ← ofGen (upTo 9) s
  t.flatMap (fun v s => .ok ([v], s)) s
private def falling : List (List Nat → LGen (List Nat) Nat) :=
  [fun l => ofGen (upTo (l.getLastD 0)), fun l => ofGen (upTo (l.getLastD 0))]

private def fell : List Nat → Bool := fun l => 3 ≤ l.getD 0 0 && 1 ≤ l.getD 1 0

private theorem upTo_makes {m v : Nat} (h : LGen.Gives (ofGen (upTo m)) v) : v ≤ m := by
  obtain ⟨t, ⟨s, s', ht⟩, d, hd, rfl⟩ := gives_ofGen h
  simp only [upTo, Outcome.ok.injEq, Prod.mk.injEq] at ht
  obtain ⟨rfl, -⟩ := ht
  cases hd with
  | refl => exact Nat.min_le_left _ _
  | step hc hrest =>
    simp only [Shr.shrinks, List.mem_map, List.mem_range] at hc
    obtain ⟨k, hk, rfl⟩ := hc
    cases hrest with
    | refl => exact Nat.le_of_lt (lt_of_lt_of_le hk (Nat.min_le_left _ _))
    | step hc _ => simp [Shr.leaf, Shr.shrinks] at hc

/-- `C182_tuples` for this case: the numbers of all tuples one can meet are falling. -/
example (l : List Nat) (h : LGen.Gives (chains first falling) l) : ∃ a b c, l = [a, b, c] ∧ c ≤ b ∧ b ≤ a ∧ a ≤ 9 := by
  obtain ⟨l0, h0, hlen, htake, hi⟩ := C182_tuples falling first l h
  have h1 : ∃ a, l0 = [a] ∧ a ≤ 9 := by
    obtain ⟨s, t, s', ht, hr⟩ := h0
    obtain ⟨⟨u, s1⟩, hu, ht⟩ := Outcome.bind_eq_ok.1 ht
    obtain ⟨d, hd, x, y, hf⟩ := reach_flatMap ht hr
    simp only [Outcome.ok.injEq, Prod.mk.injEq] at hf
    exact ⟨d.value, hf.1.symm, upTo_makes ⟨_, _, _, hu, d, hd, rfl⟩⟩
  obtain ⟨a, rfl, ha⟩ := h1
  obtain ⟨v, hv, gv⟩ := hi 0 (by decide)
  obtain ⟨w, hw, gw⟩ := hi 1 (by decide)
  match l, hlen with
  | [a', b, c], _ =>
    simp only [List.length_singleton, List.take_succ_cons, List.take_zero, List.cons.injEq, and_true] at htake
    subst htake
    simp only [List.length_singleton, Nat.add_zero, List.getElem?_cons_succ, List.getElem?_cons_zero, Option.some.injEq] at hv hw
    subst hv hw
    exact ⟨a', b, c, rfl, upTo_makes gw, upTo_makes gv, ha⟩

/-- `C182_returns` applies to it. -/
example (fails : List Nat → Bool) (s : List Nat) : ∃ l s', shrink (chains first falling) fails s = .ok (l, s') := by
  have ht : ∀ m, LGen.Total (ofGen (upTo m)) := fun m => ofGen_total fun s => ⟨_, _, rfl⟩
  have h1 : LGen.Total first := by
    intro s
    obtain ⟨t, s', h, hc⟩ := ht 9 s
    exact ⟨⟨[t.value], fun s => (t.shrinks s).flatMap fun v s => .ok ([v], s)⟩, s', by simp only [first, h, Outcome.ok_bind, LShr.flatMap, Outcome.pure_eq],
      fun s => calm_flatMap (fun v s => ⟨_, _, rfl⟩) (hc s)⟩
  refine (C182_returns falling first h1 ?_).2 fails s
  intro f hf l
  simp only [falling, List.mem_cons, List.not_mem_nil, or_false, or_self] at hf
  subst hf
  exact ht _

/-- The generated tuple is [5, 4, 3]: two of the numbers of the script go to first shrinks that are looked at and dropped. What
is reported if tuples with at least 3 and 1 in front fail is [3, 1, 0]; the generators draw for the shrinks all numbers of the
script but the last. -/
example : ((chains first falling [5, 4, 0, 3, 0, 0, 1]).bind fun r => .ok r.1.value) = .ok [5, 4, 3] := by decide +kernel
example : shrink (chains first falling) fell [5, 4, 0, 3, 2, 2, 1, 7, 4, 1, 1, 1, 2, 2, 3, 3, 4, 4, 1, 1, 2, 2, 3, 1] =
    .ok ([3, 1, 0], [1]) := by decide +kernel

end Live
end Verif
