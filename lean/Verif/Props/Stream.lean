import Verif.Model.Stream
import Verif.Model.Shrinkable
import Verif.Lemmas.Tree
/-
C01-C04: streams. The specification of a stream is the partial function `s.get? : Nat → Option α`
(element number n, if there is one).
-/
namespace Verif
open Stream'
open Stream'.Seq hiding take
variable {α β : Type}

namespace Strm

theorem destruct_none {s : Strm α} (h : s.destruct = none) : s = Seq.nil := destruct_eq_none h
theorem destruct_some {s : Strm α} {a t} (h : s.destruct = some (a, t)) : s = Seq.cons a t :=
  destruct_eq_cons h

theorem transform_nil (f : α → β) : transform f Seq.nil = Seq.nil := by
  unfold transform; exact corec_nil _ _ (by simp)
theorem transform_cons (f : α → β) (a : α) (s : Strm α) :
    transform f (Seq.cons a s) = Seq.cons (f a) (transform f s) := by
  unfold transform; exact corec_cons (by simp)

theorem concat_cons (a : α) (s t : Strm α) :
    concat (Seq.cons a s) t = Seq.cons a (concat s t) := by
  unfold concat; exact corec_cons (by simp)
theorem concat_nil_nil : concat (Seq.nil : Strm α) Seq.nil = Seq.nil := by
  unfold concat; exact corec_nil _ _ (by simp)
theorem concat_nil_cons (a : α) (t : Strm α) :
    concat Seq.nil (Seq.cons a t) = Seq.cons a (concat Seq.nil t) := by
  unfold concat; exact corec_cons (by simp [empty])

theorem take_nil (n : Int) : take n (Seq.nil : Strm α) = Seq.nil := by
  unfold take; exact corec_nil _ _ (by simp)
theorem take_zero (s : Strm α) : take 0 s = Seq.nil := by
  unfold take
  refine corec_nil _ _ ?_
  show (match s.destruct with | none => none | some (a, t) => _) = none
  cases s.destruct <;> rfl
theorem take_cons (n : Int) (h : n ≠ 0) (a : α) (s : Strm α) :
    take n (Seq.cons a s) = Seq.cons a (take (n - 1) s) := by
  unfold take; exact corec_cons (by simp [h])

end Strm
open Strm

/-- Induction principle for statements about element number `n` of a stream. -/
theorem strm_cases (s : Strm α) : s = Seq.nil ∨ ∃ a t, s = Seq.cons a t := by
  cases h : s.destruct with
  | none => exact .inl (destruct_none h)
  | some p => exact .inr ⟨p.1, p.2, destruct_some h⟩

/-! ### C01 transform -/

/-- C01. Element number `n` of `s.transform(f)` is `f` of element number `n` of `s`, and exists exactly
when that exists. -/
theorem C01_transform_get (f : α → β) (s : Strm α) (n : Nat) :
    (s.transform f).get? n = (s.get? n).map f := by
  induction n generalizing s with
  | zero => rcases strm_cases s with rfl | ⟨a, t, rfl⟩ <;> simp [transform_nil, transform_cons]
  | succ n ih =>
    rcases strm_cases s with rfl | ⟨a, t, rfl⟩
    · simp [transform_nil]
    · simp [transform_cons, ih]

/-- C01. Iterating: the first `n` values delivered by `s.transform(f)` are `f` of the first `n` values
delivered by `s`; the iteration throws for one iff it throws for the other. -/
theorem C01_transform_iterate (f : α → β) (s : Strm α) (n : Nat) :
    nextN n (s.transform f) =
      match nextN n s with
      | .ok l => .ok (l.map f)
      | .throws e => .throws e
      | .ub => .ub
      | .diverges => .diverges := by
  induction n generalizing s with
  | zero => simp [nextN]
  | succ n ih =>
    rcases strm_cases s with rfl | ⟨a, t, rfl⟩
    · simp [transform_nil, nextN, next]
    · simp only [nextN, next, transform_cons, destruct_cons, Outcome.ok_bind, ih]
      cases nextN n t <;> simp

/-- Iterating observes exactly `get?`: `n` calls of `next` succeed with `l` iff the stream has at least
`n` elements and `l` lists them. -/
theorem C01_iterate_get (s : Strm α) (n : Nat) (l : List α) :
    nextN n s = .ok l ↔ l.length = n ∧ ∀ i, i < n → s.get? i = l[i]? := by
  induction n generalizing s l with
  | zero =>
    simp only [nextN]
    constructor
    · intro h; cases h; simp
    · rintro ⟨h, _⟩; rw [List.length_eq_zero_iff] at h; rw [h]
  | succ n ih =>
    rcases strm_cases s with rfl | ⟨a, t, rfl⟩
    · simp only [nextN, next, destruct_nil, Outcome.throws_bind, reduceCtorEq, false_iff]
      rintro ⟨h, h2⟩
      have := h2 0 (by omega)
      rw [get?_nil] at this
      have := (List.getElem?_eq_none_iff.mp this.symm)
      omega
    · simp only [nextN, next, destruct_cons, Outcome.ok_bind]
      rw [Outcome.bind_eq_ok]
      constructor
      · rintro ⟨r, hr, e⟩
        cases e
        obtain ⟨h1, h2⟩ := (ih t r).mp hr
        refine ⟨by simp [h1], ?_⟩
        intro i hi
        cases i with
        | zero => simp
        | succ i => simpa using h2 i (by omega)
      · rintro ⟨h1, h2⟩
        cases l with
        | nil => simp at h1
        | cons b r =>
          have hb := h2 0 (by omega)
          simp at hb
          subst hb
          refine ⟨r, (ih t r).mpr ⟨by simpa using h1, fun i hi => ?_⟩, rfl⟩
          have := h2 (i + 1) (by omega)
          simpa using this

/-- C01. Asking for more elements than there are throws `invalid_argument`; nothing else can go wrong when iterating. -/
theorem C01_iterate_end (s : Strm α) (n : Nat) :
    nextN n s = .throws .invalidArgument ∧ (∃ i < n, s.get? i = none) ∨
      (∃ l, nextN n s = .ok l) ∧ ∀ i < n, s.get? i ≠ none := by
  induction n generalizing s with
  | zero => exact .inr ⟨⟨[], rfl⟩, fun i hi => by omega⟩
  | succ n ih =>
    rcases strm_cases s with rfl | ⟨a, t, rfl⟩
    · exact .inl ⟨rfl, 0, by omega, get?_nil 0⟩
    · rcases ih t with ⟨h, i, hi, hn⟩ | ⟨⟨l, h⟩, hn⟩
      · refine .inl ⟨?_, i + 1, by omega, by simpa using hn⟩
        simp [nextN, next, h]
      · refine .inr ⟨⟨a :: l, by simp [nextN, next, h]⟩, fun i hi => ?_⟩
        cases i with
        | zero => simp
        | succ i => simpa using hn i (by omega)

/-- The infinite stream n, n+1, n+2, ... used in the examples below. -/
def natsFrom (n : Nat) : Strm Nat := Stream'.Seq.corec (fun k => some (k, k + 1)) n
theorem natsFrom_eq (n : Nat) : natsFrom n = Seq.cons n (natsFrom (n + 1)) := by
  unfold natsFrom; exact corec_cons rfl
theorem natsFrom_get (n k : Nat) : (natsFrom n).get? k = some (n + k) := by
  induction k generalizing n with
  | zero => rw [natsFrom_eq]; simp
  | succ k ih => rw [natsFrom_eq]; simp [ih]; omega

example : ((natsFrom 5).transform (· * 2)).get? 100 = some 210 := by
  rw [C01_transform_get, natsFrom_get]; rfl

example : nextN 3 (Seq.cons 7 (Seq.cons 8 Seq.nil) : Strm Nat) = .throws .invalidArgument := by
  rcases C01_iterate_end (Seq.cons 7 (Seq.cons 8 Seq.nil) : Strm Nat) 3 with h | h
  · exact h.1
  · exact absurd (by simp) (h.2 2 (by omega))

/-- C01. `Stream::two(a, b)` delivers `a` and `b` and then ends; `tail` delivers what comes after the first element, and
of a stream without elements nothing. -/
theorem C01_two_tail (a b : α) (s : Strm α) (n : Nat) :
    (two a b).get? n = [a, b][n]? ∧ (Strm.tail s).get? n = s.get? (n + 1) := by
  constructor
  · rcases n with _ | _ | n <;> simp [two, one, empty]
  · rcases strm_cases s with rfl | ⟨a, t, rfl⟩ <;> simp [Strm.tail, empty]

example : (Strm.tail (Strm.tail (two 7 8))).get? 0 = none ∧ (Strm.tail (two 7 8)).get? 0 = some 8 :=
  ⟨by rw [(C01_two_tail 0 0 _ _).2, (C01_two_tail 0 0 _ _).2, (C01_two_tail 7 8 (two 7 8) _).1]; rfl,
    by rw [(C01_two_tail 0 0 _ _).2, (C01_two_tail 7 8 (two 7 8) _).1]; rfl⟩

/-! ### C02 filter -/

/-- C02. When the search for the next element returns one, it is the first element (at some position
`k`) satisfying the criteria, and the rest of the filtered stream continues after position `k`. -/
theorem C02_filter_found (c : α → Bool) (fuel : Nat) (s t : Strm α) (a : α)
    (h : filterSearch c fuel s = .ok (some (a, t))) :
    ∃ k, (∀ i < k, ∃ b, s.get? i = some b ∧ c b = false) ∧ s.get? k = some a ∧ c a = true ∧
      ∀ i, t.get? i = s.get? (k + 1 + i) := by
  induction fuel generalizing s with
  | zero => simp [filterSearch] at h
  | succ n ih =>
    rcases strm_cases s with rfl | ⟨x, u, rfl⟩
    · simp [filterSearch] at h
    · simp only [filterSearch, destruct_cons] at h
      split at h
      · cases h
        refine ⟨0, by simp, by simp, ‹_›, fun i => ?_⟩
        rw [Nat.add_comm 0 1, Nat.add_comm (1 + 0) i]; rfl
      · obtain ⟨k, h1, h2, h3, h4⟩ := ih u h
        refine ⟨k + 1, ?_, by simpa, h3, fun i => ?_⟩
        · intro i hi
          cases i with
          | zero => exact ⟨x, by simp, by simpa using ‹¬c x = true›⟩
          | succ i => simpa using h1 i (by omega)
        · rw [h4]
          have : k + 1 + 1 + i = (k + 1 + i) + 1 := by omega
          rw [this, get?_cons_succ]

/-- C02. When the search reports the end, the stream is finite and has no (further) match. -/
theorem C02_filter_end (c : α → Bool) (fuel : Nat) (s : Strm α)
    (h : filterSearch c fuel s = .ok none) :
    ∃ k, s.get? k = none ∧ ∀ i < k, ∃ b, s.get? i = some b ∧ c b = false := by
  induction fuel generalizing s with
  | zero => simp [filterSearch] at h
  | succ n ih =>
    rcases strm_cases s with rfl | ⟨x, u, rfl⟩
    · exact ⟨0, by simp, by simp⟩
    · simp only [filterSearch, destruct_cons] at h
      split at h
      · cases h
      · obtain ⟨k, h1, h2⟩ := ih u h
        refine ⟨k + 1, by simpa, ?_⟩
        intro i hi
        cases i with
        | zero => exact ⟨x, by simp, by simpa using ‹¬c x = true›⟩
        | succ i => simpa using h2 i (by omega)

/-- C02. The search never throws and is never undefined; it runs forever iff the stream is infinite
and has no match. -/
theorem C02_filter_diverges_iff (c : α → Bool) (s : Strm α) :
    (∀ fuel, filterSearch c fuel s = .diverges) ↔ ∀ i, ∃ b, s.get? i = some b ∧ c b = false := by
  constructor
  · intro h i
    induction i generalizing s with
    | zero =>
      have := h 1
      rcases strm_cases s with rfl | ⟨x, u, rfl⟩
      · simp [filterSearch] at this
      · refine ⟨x, by simp, ?_⟩
        by_contra hc
        simp [filterSearch, hc] at this
    | succ i ih =>
      rcases strm_cases s with rfl | ⟨x, u, rfl⟩
      · have := h 1; simp [filterSearch] at this
      · simp only [get?_cons_succ]
        refine ih u fun fuel => ?_
        have := h (fuel + 1)
        simp only [filterSearch, destruct_cons] at this
        split at this
        · cases this
        · exact this
  · intro h fuel
    induction fuel generalizing s with
    | zero => rfl
    | succ n ih =>
      rcases strm_cases s with rfl | ⟨x, u, rfl⟩
      · obtain ⟨b, hb, _⟩ := h 0; simp at hb
      · obtain ⟨b, hb, hc⟩ := h 0
        simp at hb; subst hb
        simp only [filterSearch, destruct_cons, hc]
        exact ih u fun i => by simpa using h (i + 1)

/-- C02. With a larger budget a finished search gives the same answer, so the budget does not matter. -/
theorem C02_filter_fuel_mono (c : α → Bool) (fuel fuel' : Nat) (s : Strm α) (r)
    (h : filterSearch c fuel s = .ok r) (hle : fuel ≤ fuel') : filterSearch c fuel' s = .ok r := by
  induction fuel generalizing s fuel' with
  | zero => simp [filterSearch] at h
  | succ n ih =>
    obtain ⟨m, rfl⟩ : ∃ m, fuel' = m + 1 := ⟨fuel' - 1, by omega⟩
    simp only [filterSearch] at h ⊢
    split
    · rename_i hd; rw [hd] at h; simpa using h
    · rename_i a t hd
      rw [hd] at h
      simp only at h
      split
      · rename_i hc; rw [if_pos hc] at h; exact h
      · rename_i hc; rw [if_neg hc] at h; exact ih _ _ h (by omega)

/-- C02. Iterating over the filtered stream: the values delivered are exactly the matching ones among
the first `m` elements, for some `m`; fewer values than asked for only at the end of the stream. -/
theorem C02_filter_iterate (c : α → Bool) (fuel n : Nat) (s : Strm α) (l : List α)
    (h : filterPull c fuel n s = .ok l) :
    ∃ m, ∃ pre : List α, (∀ i < m, s.get? i = pre[i]?) ∧ pre.length = m ∧ l = pre.filter c ∧
      l.length ≤ n ∧ (l.length < n → s.get? m = none) := by
  induction n generalizing s l with
  | zero =>
    simp only [filterPull, Outcome.ok.injEq] at h; subst h
    exact ⟨0, [], by simp, rfl, rfl, by simp, by simp⟩
  | succ n ih =>
    simp only [filterPull] at h
    rw [Outcome.bind_eq_ok] at h
    obtain ⟨r, hr, h⟩ := h
    cases r with
    | none =>
      simp at h; subst h
      obtain ⟨k, h1, h2⟩ := C02_filter_end c fuel s hr
      rcases Nat.eq_zero_or_pos k with rfl | hpos
      · exact ⟨0, [], by simp, rfl, rfl, by simp, fun _ => h1⟩
      have : Nonempty α := ⟨(h2 0 hpos).choose⟩
      choose! b hb using h2
      refine ⟨k, (List.range k).map b, ?_, by simp, ?_, by simp, fun _ => h1⟩
      · intro i hi; simp [hi, hb i hi]
      · symm; rw [List.filter_eq_nil_iff]
        intro x hx
        simp only [List.mem_map, List.mem_range] at hx
        obtain ⟨i, hi, rfl⟩ := hx
        simp [(hb i hi).2]
    | some p =>
      obtain ⟨a, t⟩ := p
      simp only at h
      rw [Outcome.bind_eq_ok] at h
      obtain ⟨rest, hrest, h⟩ := h
      simp at h; subst h
      obtain ⟨k, h1, h2, h3, h4⟩ := C02_filter_found c fuel s t a hr
      obtain ⟨m, pre, g1, g2, g3, g4, g5⟩ := ih t rest hrest
      have : Nonempty α := ⟨a⟩
      choose! b hb using h1
      refine ⟨k + 1 + m, (List.range k).map b ++ a :: pre, ?_, by simp [g2]; omega, ?_, by simpa, ?_⟩
      · intro i hi
        rcases Nat.lt_trichotomy i k with hk | rfl | hk
        · rw [List.getElem?_append_left (by simpa)]; simp [hk, hb i hk]
        · rw [List.getElem?_append_right (by simp)]; simp [h2]
        · obtain ⟨j, rfl⟩ : ∃ j, i = k + 1 + j := ⟨i - k - 1, by omega⟩
          rw [← h4, List.getElem?_append_right (by simp; omega)]
          have : k + 1 + j - ((List.range k).map b).length = j + 1 := by simp; omega
          rw [this, List.getElem?_cons_succ]
          exact g1 j (by omega)
      · rw [List.filter_append, List.filter_cons, if_pos h3, ← g3]
        have : ((List.range k).map b).filter c = [] := by
          rw [List.filter_eq_nil_iff]
          intro x hx
          simp only [List.mem_map, List.mem_range] at hx
          obtain ⟨i, hi, rfl⟩ := hx
          simp [(hb i hi).2]
        rw [this]; rfl
      · intro hlt
        rw [← h4]
        exact g5 (by simpa using hlt)

example : filterPull (· % 3 == 0) 5 2 (Seq.ofList [1, 3, 5, 6, 7, 9]) = .ok [3, 6] := by
  simp [filterPull, filterSearch]
example : ∀ fuel, filterSearch (fun n : Nat => n == 3) fuel (natsFrom 4) = .diverges := by
  rw [C02_filter_diverges_iff]
  intro i; exact ⟨4 + i, natsFrom_get 4 i, by simp; omega⟩

/-! ### C03 concat -/

theorem concat_nil_left (t : Strm α) : concat Seq.nil t = t := by
  apply Stream'.Seq.ext
  intro n
  induction n generalizing t with
  | zero =>
    rcases strm_cases t with rfl | ⟨a, u, rfl⟩
    · rw [concat_nil_nil]
    · rw [concat_nil_cons]; simp
  | succ n ih =>
    rcases strm_cases t with rfl | ⟨a, u, rfl⟩
    · rw [concat_nil_nil]
    · rw [concat_nil_cons]; simp [ih]

/-- C03. If the first stream has exactly `k` elements, `a.concat(b)` delivers these `k` elements and
then the elements of `b`. -/
theorem C03_concat_finite (a b : Strm α) (k : Nat) (hk : a.get? k = none)
    (hk' : ∀ i < k, a.get? i ≠ none) (n : Nat) :
    (concat a b).get? n = if n < k then a.get? n else b.get? (n - k) := by
  induction k generalizing a n with
  | zero =>
    rcases strm_cases a with rfl | ⟨x, u, rfl⟩
    · rw [concat_nil_left]; simp
    · simp at hk
  | succ k ih =>
    rcases strm_cases a with rfl | ⟨x, u, rfl⟩
    · exact absurd (by simp) (hk' 0 (by omega))
    · rw [concat_cons]
      cases n with
      | zero => simp
      | succ n =>
        rw [get?_cons_succ, ih u (by simpa using hk) (fun i hi => by simpa using hk' (i + 1) (by omega))]
        simp

/-- C03. If the first stream is infinite, the second one is never reached. -/
theorem C03_concat_infinite (a b : Strm α) (h : ∀ i, a.get? i ≠ none) : concat a b = a := by
  apply Stream'.Seq.ext
  intro n
  induction n generalizing a with
  | zero =>
    rcases strm_cases a with rfl | ⟨x, u, rfl⟩
    · exact absurd (by simp) (h 0)
    · rw [concat_cons]; simp
  | succ n ih =>
    rcases strm_cases a with rfl | ⟨x, u, rfl⟩
    · exact absurd (by simp) (h 0)
    · rw [concat_cons]; simp only [get?_cons_succ]
      exact ih u fun i => by simpa using h (i + 1)

/-- C03. `concat` is associative and the empty stream is its identity. -/
theorem C03_concat_monoid (a b c : Strm α) :
    concat (concat a b) c = concat a (concat b c) ∧ concat Strm.empty a = a ∧
      concat a Strm.empty = a := by
  refine ⟨?_, concat_nil_left a, ?_⟩
  · apply Stream'.Seq.ext
    intro n
    induction n generalizing a with
    | zero =>
      rcases strm_cases a with rfl | ⟨x, u, rfl⟩
      · rw [concat_nil_left, concat_nil_left]
      · simp [concat_cons]
    | succ n ih =>
      rcases strm_cases a with rfl | ⟨x, u, rfl⟩
      · rw [concat_nil_left, concat_nil_left]
      · simp [concat_cons, ih]
  · apply Stream'.Seq.ext
    intro n
    induction n generalizing a with
    | zero =>
      rcases strm_cases a with rfl | ⟨x, u, rfl⟩
      · rw [concat_nil_left]; rfl
      · simp [concat_cons]
    | succ n ih =>
      rcases strm_cases a with rfl | ⟨x, u, rfl⟩
      · rw [concat_nil_left]; rfl
      · simp [concat_cons, ih]

example : (concat (Seq.ofList [1, 2]) (natsFrom 7)).get? 5 = some 10 := by
  rw [C03_concat_finite _ _ 2 (by simp) (by intro i hi; rcases i with _ | _ | i <;> first | omega | simp), if_neg (by omega), natsFrom_get]
example : concat (natsFrom 0) (Seq.ofList [1]) = natsFrom 0 :=
  C03_concat_infinite _ _ fun i => by simp [natsFrom_get]

/-! ### C04 take -/

/-- C04. For `n ≥ 0`, `s.take(n)` delivers exactly the elements of `s` at positions below `n`. -/
theorem C04_take_get (n : Nat) (s : Strm α) (i : Nat) :
    (Strm.take n s).get? i = if i < n then s.get? i else none := by
  induction i generalizing s n with
  | zero =>
    cases n with
    | zero => rw [Int.ofNat_zero, Strm.take_zero]; simp
    | succ n =>
      rcases strm_cases s with rfl | ⟨x, u, rfl⟩
      · simp [Strm.take_nil]
      · rw [Strm.take_cons _ (by omega)]; simp
  | succ i ih =>
    cases n with
    | zero => rw [Int.ofNat_zero, Strm.take_zero]; simp
    | succ n =>
      rcases strm_cases s with rfl | ⟨x, u, rfl⟩
      · simp [Strm.take_nil]
      · rw [Strm.take_cons _ (by omega)]
        have : ((n + 1 : Nat) : Int) - 1 = (n : Int) := by omega
        rw [this, get?_cons_succ, ih]; simp

/-- C04. A negative count takes the whole stream. -/
theorem C04_take_negative (n : Int) (hn : n < 0) (s : Strm α) : Strm.take n s = s := by
  apply Stream'.Seq.ext
  intro i
  induction i generalizing s n with
  | zero =>
    rcases strm_cases s with rfl | ⟨x, u, rfl⟩
    · simp [Strm.take_nil]
    · rw [Strm.take_cons _ (by omega)]; simp
  | succ i ih =>
    rcases strm_cases s with rfl | ⟨x, u, rfl⟩
    · simp [Strm.take_nil]
    · rw [Strm.take_cons _ (by omega)]; simp [ih (n - 1) (by omega)]

example : (Strm.take 3 (natsFrom 7)).get? 2 = some 9 := by
  have := C04_take_get 3 (natsFrom 7) 2
  rw [natsFrom_get] at this; simpa using this
example : (Strm.take 3 (natsFrom 7)).get? 3 = none := by
  have := C04_take_get 3 (natsFrom 7) 3
  simpa using this

/-! ### Finite streams behave like lists (justifies the list valued shrinks of `Shr`) -/

/-- On finite streams `transform`, `concat` and `take` are `List.map`, `++` and the list operation used
by the tree model. -/
theorem C01_C04_finite_lists (f : α → β) (l r : List α) (n : Int) :
    transform f (Seq.ofList l) = Seq.ofList (l.map f) ∧
    concat (Seq.ofList l) (Seq.ofList r) = Seq.ofList (l ++ r) ∧
    Strm.take n (Seq.ofList l) = Seq.ofList (Shr.takeInt n l) := by
  refine ⟨?_, ?_, ?_⟩
  · induction l with
    | nil => simp [transform_nil]
    | cons x xs ih => simp [transform_cons, ih]
  · induction l with
    | nil => simp [concat_nil_left]
    | cons x xs ih => simp [concat_cons, ih]
  · induction l generalizing n with
    | nil => simp [Strm.take_nil, Shr.takeInt]
    | cons x xs ih =>
      by_cases h : n = 0
      · subst h; rw [Strm.take_zero]; simp [Shr.takeInt]
      · simp [Strm.take_cons _ h, Shr.takeInt, h, ih]

/-- On finite streams `filter` delivers `List.filter`. -/
theorem C02_finite_lists (c : α → Bool) (l : List α) (fuel : Nat) (h : l.length < fuel) :
    filterPull c fuel fuel (Seq.ofList l) = .ok (l.filter c) := by
  have hs : ∀ (l : List α) (fuel : Nat), l.length < fuel →
      filterSearch c fuel (Seq.ofList l) =
        match l.dropWhile (fun a => !c a) with
        | .nil => .ok none
        | .cons a t => .ok (some (a, Seq.ofList t)) := by
    intro l
    induction l with
    | nil => intro fuel h; cases fuel <;> simp_all [filterSearch]
    | cons x xs ih =>
      intro fuel h
      cases fuel with
      | zero => simp at h
      | succ fuel =>
        simp only [filterSearch, ofList_cons, destruct_cons, List.dropWhile_cons]
        cases hc : c x
        · simp [ih fuel (by simpa using h)]
        · simp
  have key : ∀ (n : Nat) (l : List α), l.length < fuel → l.length < n →
      filterPull c fuel n (Seq.ofList l) = .ok (l.filter c) := by
    intro n
    induction n with
    | zero => intro l _ h; omega
    | succ n ih =>
      intro l hl hn
      simp only [filterPull, hs l fuel hl]
      have hd := List.takeWhile_append_dropWhile (p := fun a => !c a) (l := l)
      have ht : (l.takeWhile (fun a => !c a)).filter c = [] := by
        rw [List.filter_eq_nil_iff]
        intro x hx
        have := List.all_eq_true.mp (List.all_takeWhile (p := fun a => !c a) (l := l)) x hx
        simpa using this
      cases hdw : l.dropWhile (fun a => !c a) with
      | nil =>
        rw [hdw, List.append_nil] at hd
        rw [hd] at ht
        simp [ht]
      | cons a t =>
        have hlen : t.length < l.length := by
          have := (List.dropWhile_suffix (l := l) (fun a => !c a)).length_le
          rw [hdw] at this; simp at this; omega
        have hca : c a = true := by
          have := List.head?_dropWhile_not (fun a => !c a) l
          rw [hdw] at this; simpa using this
        rw [hdw] at hd
        simp only [Outcome.ok_bind, ih t (by omega) (by omega), Outcome.pure_eq]
        rw [← hd, List.filter_append, ht, List.filter_cons, if_pos hca]; rfl
  exact key fuel l h h

end Verif
