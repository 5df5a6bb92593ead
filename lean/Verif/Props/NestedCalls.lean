import Verif.Lemmas.LiveCalls
/-
C183: how often the generators are called when a dependent value is generated.
-/
namespace Verif
namespace Live
variable {σ α β γ : Type}

/-- **C183, violated for tuples.** Generating a tuple with `gen.tupleWith(f1)...tupleWith(fn)` calls generators not n + 1 times
but, if all components are like numbers that are not 0, `fib (n + 4) - 2` times: 3, 6, 11, 19, 32, ..., more than 1.6 times as
often with each component. The values of all calls but n + 1 are dropped. -/
theorem C183_tuple_violated (calls : σ → Nat) (gen1 : Gen σ (List α)) (fs : List (List α → Gen σ α)) (h1 : Simple calls gen1)
    (h2 : ∀ f ∈ fs, ∀ l, Simple calls (f l)) (s : σ) :
    ∃ t s', chains (ofGen gen1) (fs.map fun f l => ofGen (f l)) s = .ok (t, s') ∧
      calls s' = calls s + (Nat.fib (fs.length + 4) - 2) := by
  have h0 : ∀ s, ∃ t s', ofGen gen1 s = .ok (t, s') ∧ calls s' = calls s + (Nat.fib (0 + 4) - 2) ∧
      Path calls (fun _ => True) (costs 0) t.value t.shrinks := by
    intro s
    obtain ⟨v, w, cs, s', hg, hc⟩ := h1 s
    exact ⟨ofShr (.node v (.node w [] :: cs)), s', by simp [ofGen, hg], hc, simple_path v w cs⟩
  obtain ⟨t, s', ht, hc, _⟩ := chains_costs fs 0 (ofGen gen1) h0 h2 s
  exact ⟨t, s', ht, by simpa using hc⟩

/-- **C183, violated for nested `flatMap`.** Generating n values with n nested calls of `flatMap` calls generators not n times
but 2^n - 1 times, if all of them have shrinks. -/
theorem C183_flatMap_violated (calls : σ → Nat) (fs : List (List α → Gen σ α)) (h : ∀ f ∈ fs, ∀ l, Simple calls (f l)) :
    ∀ (l : List α) (s : σ), ∃ t s', nested fs l s = .ok (t, s') ∧ calls s' = calls s + (2 ^ fs.length - 1) := by
  induction fs with
  | nil => exact fun l s => ⟨leaf l, s, rfl, by simp⟩
  | cons f fs ih =>
    intro l s
    have ih := ih fun g hg => h g (by simp [hg])
    obtain ⟨v, w, cs, s1, h1, c1⟩ := h f (by simp) l s
    obtain ⟨t2, s2, h2, c2⟩ := ih (l ++ [v]) s1
    obtain ⟨t3, s3, h3, c3⟩ := ih (l ++ [w]) s2
    have hp : 1 ≤ 2 ^ fs.length := Nat.one_le_two_pow
    refine ⟨⟨t2.value, ?_⟩, s3, ?_, by simp only [List.length_cons, pow_succ]; omega⟩
    rotate_left
    · simp only [nested, derive, dependent, ofGen, h1, Outcome.ok_bind, Outcome.pure_eq, LShr.flatMap, inter, ofShr, Shr.value, h2,
        LShr.andThen, ofShrinks, ofList, Run.flatMap, h3, Run.after, Run.state]
      rfl

/-- **C183, partial: values without shrinks.** Tuples of values without shrinks take one call for each component. (In general this
is false, see `C183_tuple_violated`.) -/
theorem C183_plain_partial (calls : σ → Nat) (gen1 : Gen σ (List α)) (fs : List (List α → Gen σ α)) (h1 : Plain calls gen1)
    (h2 : ∀ f ∈ fs, ∀ l, Plain calls (f l)) (s : σ) :
    ∃ t s', chains (ofGen gen1) (fs.map fun f l => ofGen (f l)) s = .ok (t, s') ∧ calls s' = calls s + (fs.length + 1) := by
  have key : ∀ (fs : List (List α → Gen σ α)) (m : Nat) (gen1 : LGen σ (List α)),
      (∀ s, ∃ t s', gen1 s = .ok (t, s') ∧ calls s' = calls s + m ∧ ∀ s, t.shrinks s = .nil s) →
      (∀ f ∈ fs, ∀ l, Plain calls (f l)) → ∀ s, ∃ t s', chains gen1 (fs.map fun f l => ofGen (f l)) s = .ok (t, s') ∧
        calls s' = calls s + (m + fs.length) := by
    intro fs
    induction fs with
    | nil =>
      intro m gen1 h _ s
      obtain ⟨t, s', ht, hc, _⟩ := h s
      exact ⟨t, s', ht, hc⟩
    | cons f fs ih =>
      intro m gen1 h hf s
      obtain ⟨t, s', ht, hc⟩ := ih (m + 1) _ (plain_chain h (hf f (by simp))) (fun g hg => hf g (by simp [hg])) s
      exact ⟨t, s', ht, by simp only [List.length_cons]; omega⟩
  have h0 : ∀ s, ∃ t s', ofGen gen1 s = .ok (t, s') ∧ calls s' = calls s + 1 ∧ ∀ s, t.shrinks s = .nil s := by
    intro s
    obtain ⟨v, s', hv, hc⟩ := h1 s
    exact ⟨ofShr (.node v []), s', by simp [ofGen, hv], hc, fun s => rfl⟩
  obtain ⟨t, s', ht, hc⟩ := key fs 1 (ofGen gen1) h0 h2 s
  exact ⟨t, s', ht, by omega⟩

/-! ### An upper bound for all generators -/

/-- **C183, partial: an upper bound.** Whatever the generators make, generating a tuple with `gen.tupleWith(f1)...tupleWith(fn)`
takes at most 2^(n+1) - 1 calls. (The claim would be n + 1.) -/
theorem C183_bound_partial (calls : σ → Nat) (gen1 : Gen σ (List α)) (fs : List (List α → Gen σ α))
    (h1 : ∀ s t s', gen1 s = .ok (t, s') → calls s' = calls s + 1)
    (h2 : ∀ f ∈ fs, ∀ l s t s', f l s = .ok (t, s') → calls s' = calls s + 1) (s : σ) (t : LShr σ (List α)) (s' : σ)
    (h : chains (ofGen gen1) (fs.map fun f l => ofGen (f l)) s = .ok (t, s')) :
    calls s' ≤ calls s + (2 ^ (fs.length + 1) - 1) := by
  have key : ∀ (fs : List (List α → Gen σ α)) (m : Nat) (gen1 : LGen σ (List α)),
      (∀ s t s', gen1 s = .ok (t, s') → calls s' ≤ calls s + (2 ^ (m + 1) - 1) ∧
        ∀ s, (t.shrinks s).Cheap calls (fun _ => True) (2 ^ (m + 1) - 2) s) →
      (∀ f ∈ fs, ∀ l s t s', f l s = .ok (t, s') → calls s' = calls s + 1) →
      ∀ s t s', chains gen1 (fs.map fun f l => ofGen (f l)) s = .ok (t, s') → calls s' ≤ calls s + (2 ^ (m + fs.length + 1) - 1) := by
    intro fs
    induction fs with
    | nil => exact fun m gen1 h _ s t s' hc => (h s t s' hc).1
    | cons f fs ih =>
      intro m gen1 h hf s t s' hc
      have hp : 2 ≤ 2 ^ (m + 1) := by
        have : 2 ^ 1 ≤ 2 ^ (m + 1) := Nat.pow_le_pow_right (by decide) (by omega)
        simpa using this
      have hq : 2 ^ (m + 1 + 1) = 2 ^ (m + 1) + 2 ^ (m + 1) := by rw [pow_succ]; omega
      have := ih (m + 1) (chain (fun l v => l ++ [v]) gen1 fun l => ofGen (f l)) ?_ (fun g hg => hf g (by simp [hg])) s t s'
        (by simpa only [List.map_cons, chains] using hc)
      · have e : m + 1 + fs.length = m + (fs.length + 1) := by omega
        simpa only [List.length_cons, e] using this
      · intro s t s' hc
        obtain ⟨k1, k2⟩ := chain_cheap h (hf f (by simp)) s t s' hc
        refine ⟨by omega, fun s => cheap_mono (by omega) (k2 s)⟩
  have := key fs 0 (ofGen gen1) ?_ h2 s t s' h
  · simpa using this
  · intro s t s' hg
    simp only [ofGen] at hg
    obtain ⟨⟨u, x⟩, hu, hg⟩ := Outcome.bind_eq_ok.1 hg
    simp only [Outcome.pure_eq, Outcome.ok.injEq, Prod.mk.injEq] at hg
    obtain ⟨rfl, rfl⟩ := hg
    exact ⟨by rw [h1 _ _ _ hu]; simp, fun s => by simpa [ofShr] using ofShrinks_cheap calls u s⟩

/-! ### Concrete cases -/

/-- A generator of the number 7 with the shrinks 0, 3, 5, 6; the state counts the calls. -/
private def seven : Gen Nat Nat := fun k => .ok (.node 7 [.node 0 [], .node 3 [], .node 5 [], .node 6 []], k + 1)
private def sevens : Gen Nat (List Nat) := fun k => .ok (.node [7] [.node [0] [], .node [3] []], k + 1)

/-- The three components of a date take 6 calls, with `flatMap` 7; the hypotheses of `C183_tuple_violated` and
`C183_flatMap_violated` are met. -/
example : Simple id sevens ∧ ∀ l : List Nat, Simple id ((fun _ => seven) l) :=
  ⟨fun _ => ⟨_, _, _, _, rfl, rfl⟩, fun _ _ => ⟨_, _, _, _, rfl, rfl⟩⟩
example : ((chains (ofGen sevens) [fun _ => ofGen seven, fun _ => ofGen seven] 0).bind fun r => .ok r.2) = .ok 6 := by decide +kernel
example : ((chains (ofGen sevens) [fun _ => ofGen seven, fun _ => ofGen seven, fun _ => ofGen seven, fun _ => ofGen seven,
    fun _ => ofGen seven, fun _ => ofGen seven] 0).bind fun r => .ok r.2) = .ok 53 := by decide +kernel
example : ((nested [fun _ => seven, fun _ => seven, fun _ => seven] [] 0).bind fun r => .ok (r.1.value, r.2)) = .ok ([7, 7, 7], 7) := by
  decide +kernel

/-- Without shrinks (`C183_plain_partial`). -/
example : Plain id (fun k : Nat => .ok (Shr.leaf [7], k + 1)) := fun _ => ⟨_, _, rfl, rfl⟩
example : ((chains (ofGen fun k : Nat => .ok (Shr.leaf [7], k + 1)) [fun _ => ofGen fun k => .ok (Shr.leaf 8, k + 1),
    fun _ => ofGen fun k => .ok (Shr.leaf 9, k + 1)] 0).bind fun r => .ok (r.1.value, r.2)) = .ok ([7, 8, 9], 3) := by decide +kernel

/-- The upper bound is taken on by numbers with long chains of first shrinks. -/
private def deep : Nat → Shr Nat
  | 0 => .node 0 []
  | n + 1 => .node (n + 1) [deep n]
example : ((chains (ofGen fun k : Nat => .ok ((deep 9).map fun v => [v], k + 1)) [fun _ => ofGen fun k => .ok (deep 9, k + 1),
    fun _ => ofGen fun k => .ok (deep 9, k + 1), fun _ => ofGen fun k => .ok (deep 9, k + 1)] 0).bind fun r => .ok r.2) =
      .ok (2 ^ 4 - 1) := by decide +kernel

end Live
end Verif
