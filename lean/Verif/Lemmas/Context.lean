import Verif.Spec.Context
import Mathlib.Data.List.Basic
import Mathlib.Data.List.Count
/-
Helper lemmas about contexts, tags and memory comparison.
-/
namespace Verif
namespace Context

theorem onContext_live {w : World} {a : Nat} {c : Ctx} (h : Live w a c) (f : Ctx → Ctx) :
    onContext w f = .ok (w.set a (some (f c))) := by
  unfold onContext
  rw [h.current]
  simp only [h.alive]

theorem Live.lt {w : World} {a : Nat} {c : Ctx} (h : Live w a c) : a < w.used := by
  by_contra hn
  have := h.fresh a (by omega)
  rw [h.alive] at this
  cases this

theorem Live.set {w : World} {a : Nat} {c : Ctx} (h : Live w a c) (c' : Ctx) : Live (w.set a (some c')) a c' where
  current := h.current
  alive := by simp [World.set]
  fresh := fun b hb => by
    have hlt := h.lt
    have hb' : w.used ≤ b := hb
    have : b ≠ a := by omega
    simp only [World.set, this, if_false]
    exact h.fresh b hb'

theorem modify_last {α : Type} (l : List α) (x : α) (f : α → α) : (l ++ [x]).modify l.length f = l ++ [f x] := by
  induction l with
  | nil => rfl
  | cons y l ih => simpa [List.modify] using ih

/-- What an expectation with streamed text does. -/
theorem expectStream_live {w : World} {a : Nat} {c : Ctx} (h : Live w a c) (cond : Bool) (name detail msg : Txt) :
    ∃ w' c', expectStream cond name detail msg w = .ok w' ∧ Live w' a c' ∧ w'.used = w.used ∧
      (∀ b, b ≠ a → w'.ctxs b = w.ctxs b) ∧ c'.tags = c.tags ∧ c'.oldContext = c.oldContext ∧
      c'.failures = (if cond then c.failures else
        c.failures ++ [⟨name, ⟨msg ++ detail.drop msg.length, msg.length⟩⟩]) := by
  unfold expectStream
  cases cond with
  | true =>
    simp only [Bool.not_true, Bool.false_eq_true, if_false, baseSucceed, onContext_live h, Outcome.ok_bind]
    have h1 := h.set ⟨c.tags, c.failures, false, c.oldContext⟩
    unfold writeLast
    rw [h1.current]
    simp only [h1.alive, Bool.not_false, Bool.or_true, if_true]
    refine ⟨_, _, rfl, ⟨rfl, h1.alive, h1.fresh⟩, rfl, ?_, rfl, rfl, rfl⟩
    intro b hb
    simp [World.set, hb]
  | false =>
    simp only [Bool.not_false, if_true, baseFail, onContext_live h, Outcome.ok_bind, Bool.false_eq_true, if_false]
    have h1 := h.set ⟨c.tags, c.failures ++ [⟨name, Stream.ofText (Stream.empty.write detail).buf⟩], true, c.oldContext⟩
    unfold writeLast
    rw [h1.current]
    simp only [h1.alive]
    rw [if_neg (by simp)]
    refine ⟨_, _, rfl, h1.set _, rfl, ?_, rfl, rfl, ?_⟩
    · intro b hb
      simp [World.set, hb]
    · simp only [List.length_append, List.length_singleton, Nat.add_sub_cancel, modify_last]
      simp [Stream.ofText, Stream.empty, Stream.write]

section
variable {K V : Type} [LinearOrder K]

theorem mapFind_insert (m : List (K × V)) (k : K) (v : V) (h : mapFind m k = none) (j : K) :
    mapFind (mapInsert m k v) j = if j = k then some v else mapFind m j := by
  induction m with
  | nil => simp only [mapInsert, mapFind, eq_comm]
  | cons e m ih =>
    obtain ⟨k', v'⟩ := e
    simp only [mapFind] at h
    by_cases hk : k' = k
    · simp [hk] at h
    · rw [if_neg hk] at h
      simp only [mapInsert]
      by_cases hlt : k < k'
      · simp only [hlt, if_true, mapFind]
        by_cases hj : j = k
        · simp [hj]
        · simp [hj, Ne.symm hj]
      · simp only [hlt, if_false, hk, mapFind, ih h]
        by_cases hj : k' = j
        · subst hj; simp [hk]
        · simp [hj]

theorem mem_insert {m : List (K × V)} {k : K} {v : V} {e : K × V} (h : e ∈ mapInsert m k v) : e = (k, v) ∨ e ∈ m := by
  induction m with
  | nil => simpa [mapInsert] using h
  | cons e' m ih =>
    obtain ⟨k', v'⟩ := e'
    simp only [mapInsert] at h
    split at h
    · simpa using h
    · split at h
      · exact Or.inr h
      · rcases List.mem_cons.mp h with h | h
        · exact Or.inr (by simp [h])
        · rcases ih h with h | h
          · exact Or.inl h
          · exact Or.inr (List.mem_cons_of_mem _ h)

/-- Entries in strictly increasing key order. -/
def Sorted (m : List (K × V)) : Prop := m.Pairwise (fun a b => a.1 < b.1)

theorem sorted_insert {m : List (K × V)} (h : Sorted m) (k : K) (v : V) : Sorted (mapInsert m k v) := by
  induction m with
  | nil => simp [mapInsert, Sorted]
  | cons e m ih =>
    obtain ⟨k', v'⟩ := e
    have hc := List.pairwise_cons.mp h
    simp only [mapInsert]
    split
    · next hlt =>
      refine List.pairwise_cons.mpr ⟨?_, h⟩
      intro x hx
      rcases List.mem_cons.mp hx with rfl | hx
      · exact hlt
      · exact lt_trans hlt (hc.1 x hx)
    · next hlt =>
      split
      · exact h
      · next hne =>
        refine List.pairwise_cons.mpr ⟨?_, ih hc.2⟩
        intro x hx
        rcases mem_insert hx with rfl | hx
        · exact lt_of_le_of_ne (le_of_not_gt hlt) hne
        · exact hc.1 x hx

theorem keys_set (m : List (K × V)) (k : K) (v : V) : (mapSet m k v).map Prod.fst = m.map Prod.fst := by
  induction m with
  | nil => rfl
  | cons e m ih =>
    obtain ⟨k', v'⟩ := e
    simp only [mapSet]
    split <;> simp [ih]

theorem sorted_iff_keys (m : List (K × V)) : Sorted m ↔ (m.map Prod.fst).Pairwise (· < ·) := by
  simp [Sorted, List.pairwise_map]

theorem sorted_set {m : List (K × V)} (h : Sorted m) (k : K) (v : V) : Sorted (mapSet m k v) := by
  rw [sorted_iff_keys, keys_set, ← sorted_iff_keys]; exact h

theorem mapFind_set (m : List (K × V)) (k : K) (v : V) (h : mapFind m k ≠ none) (j : K) :
    mapFind (mapSet m k v) j = if j = k then some v else mapFind m j := by
  induction m with
  | nil => exact absurd rfl h
  | cons e m ih =>
    obtain ⟨k', v'⟩ := e
    simp only [mapFind] at h
    simp only [mapSet]
    by_cases hk : k' = k
    · subst hk
      simp only [if_true, mapFind]
      by_cases hj : j = k'
      · simp [hj]
      · simp [hj, Ne.symm hj]
    · rw [if_neg hk] at h
      simp only [hk, if_false, mapFind, ih h]
      by_cases hj : k' = j
      · subst hj; simp [hk]
      · simp [hj]

theorem mem_iff_find {m : List (K × V)} (h : Sorted m) (k : K) (v : V) : (k, v) ∈ m ↔ mapFind m k = some v := by
  induction m with
  | nil => simp [mapFind]
  | cons e m ih =>
    obtain ⟨k', v'⟩ := e
    have hc := List.pairwise_cons.mp h
    simp only [mapFind, List.mem_cons, Prod.mk.injEq]
    by_cases hk : k' = k
    · subst hk
      simp only [true_and, if_true, Option.some.injEq]
      constructor
      · rintro (h | h)
        · exact h.symm
        · exact absurd (hc.1 _ h) (lt_irrefl _)
      · intro h; exact Or.inl h.symm
    · simp only [hk, if_false, Ne.symm hk, false_and, false_or]
      exact ih hc.2

theorem sum_insert (m : List (K × Nat)) (k : K) (v : Nat) (h : mapFind m k = none) :
    ((mapInsert m k v).map Prod.snd).sum = (m.map Prod.snd).sum + v := by
  induction m with
  | nil => simp [mapInsert]
  | cons e m ih =>
    obtain ⟨k', v'⟩ := e
    simp only [mapFind] at h
    by_cases hk : k' = k
    · simp [hk] at h
    · rw [if_neg hk] at h
      simp only [mapInsert]
      split
      · simp; omega
      · simp [hk, ih h]; omega

theorem sum_set (m : List (K × Nat)) (k : K) (c v : Nat) (h : mapFind m k = some c) :
    ((mapSet m k v).map Prod.snd).sum + c = (m.map Prod.snd).sum + v := by
  induction m with
  | nil => simp [mapFind] at h
  | cons e m ih =>
    obtain ⟨k', v'⟩ := e
    simp only [mapFind] at h
    simp only [mapSet]
    by_cases hk : k' = k
    · rw [if_pos hk] at h
      cases h
      simp [hk]; omega
    · rw [if_neg hk] at h
      have := ih h
      simp [hk]; omega

variable [LinearOrder V]

/-- The counts kept for one key after the calls `l`. -/
structure Counts (l : List (K × V)) (k : K) (vm : List (V × Nat)) : Prop where
  sorted : Sorted vm
  count : ∀ v, (mapFind vm v).getD 0 = l.count (k, v)
  pos : ∀ v c, mapFind vm v = some c → 0 < c
  sum : (vm.map Prod.snd).sum = l.countP (fun kv => kv.1 = k)

/-- The tags after the calls `l`. -/
structure Recorded (l : List (K × V)) (tags : Tags K V) : Prop where
  sorted : Sorted tags
  none : ∀ k, mapFind tags k = none → ∀ kv ∈ l, kv.1 ≠ k
  some : ∀ k vm, mapFind tags k = some vm → Counts l k vm ∧ ∃ kv ∈ l, kv.1 = k

theorem counts_other {l : List (K × V)} {k : K} {vm : List (V × Nat)} (h : Counts l k vm) (key : K) (v : V)
    (hk : key ≠ k) : Counts (l ++ [(key, v)]) k vm where
  sorted := h.sorted
  count := fun v' => by
    rw [h.count, List.count_append, List.count_singleton]
    simp [hk]
  pos := h.pos
  sum := by simp [h.sum, List.countP_append, hk]

theorem recorded_tag {l : List (K × V)} {tags : Tags K V} (h : Recorded l tags) (key : K) (value : V) :
    Recorded (l ++ [(key, value)]) (tag tags key value) := by
  -- what happens to the value map of the key
  have step : ∃ vm', Counts (l ++ [(key, value)]) key vm' ∧ Sorted (tag tags key value) ∧
      ∀ j, mapFind (tag tags key value) j = if j = key then some vm' else mapFind tags j := by
    unfold tag
    cases hf : mapFind tags key with
    | none =>
      have hno := h.none key hf
      refine ⟨_, ?_, sorted_insert h.sorted _ _, fun j => mapFind_insert _ _ _ hf j⟩
      have hc0 : ∀ v, l.count (key, v) = 0 := fun v => List.count_eq_zero.mpr fun hm => hno _ hm rfl
      refine ⟨by simp [mapInsert, Sorted], ?_, ?_, ?_⟩
      · intro v
        rw [List.count_append, hc0, List.count_singleton]
        simp only [mapInsert, mapFind]
        by_cases hv : value = v
        · simp [hv]
        · simp [hv]
      · intro v c hvc
        simp only [mapInsert, mapFind] at hvc
        split at hvc
        · cases hvc; exact Nat.one_pos
        · cases hvc
      · have : l.countP (fun kv => decide (kv.1 = key)) = 0 := by
          rw [List.countP_eq_zero]
          intro kv hkv
          simpa using hno kv hkv
        simp [mapInsert, List.countP_append, this]
    | some vm =>
      obtain ⟨hc, _⟩ := h.some key vm hf
      have hne : mapFind tags key ≠ none := by rw [hf]; simp
      simp only
      cases hv : mapFind vm value with
      | none =>
        refine ⟨_, ?_, sorted_set h.sorted _ _, fun j => mapFind_set _ _ _ hne j⟩
        refine ⟨sorted_insert hc.sorted _ _, ?_, ?_, ?_⟩
        · intro v
          rw [mapFind_insert _ _ _ hv, List.count_append, List.count_singleton, ← hc.count v]
          by_cases hvv : v = value
          · subst hvv; simp [hv]
          · simp [hvv, Ne.symm hvv]
        · intro v c hvc
          rw [mapFind_insert _ _ _ hv] at hvc
          split at hvc
          · cases hvc; exact Nat.one_pos
          · exact hc.pos v c hvc
        · rw [sum_insert _ _ _ hv, hc.sum]
          simp [List.countP_append]
      | some c =>
        have hvn : mapFind vm value ≠ none := by rw [hv]; simp
        refine ⟨_, ?_, sorted_set h.sorted _ _, fun j => mapFind_set _ _ _ hne j⟩
        refine ⟨sorted_set hc.sorted _ _, ?_, ?_, ?_⟩
        · intro v
          rw [mapFind_set _ _ _ hvn, List.count_append, List.count_singleton, ← hc.count v]
          by_cases hvv : v = value
          · subst hvv; simp [hv]
          · simp [hvv, Ne.symm hvv]
        · intro v c' hvc
          rw [mapFind_set _ _ _ hvn] at hvc
          split at hvc
          · cases hvc; omega
          · exact hc.pos v c' hvc
        · have := sum_set _ _ _ (c + 1) hv
          have h2 := hc.sum
          simp only [List.countP_append, List.countP_singleton, decide_true, if_true]
          omega
  obtain ⟨vm', h1, h2, h3⟩ := step
  refine ⟨h2, ?_, ?_⟩
  · intro k hk kv hkv
    rw [h3] at hk
    split at hk
    · cases hk
    · next hne =>
      rcases List.mem_append.mp hkv with hkv | hkv
      · exact h.none k hk kv hkv
      · simp at hkv; subst hkv; exact fun e => hne e.symm
  · intro k vm hk
    rw [h3] at hk
    split at hk
    · next he =>
      cases hk; subst he
      exact ⟨h1, (k, value), by simp, rfl⟩
    · next hne =>
      obtain ⟨g1, kv, g2, g3⟩ := h.some k vm hk
      exact ⟨counts_other g1 key value (fun e => hne e.symm), kv, List.mem_append_left _ g2, g3⟩

theorem recorded_all (calls l : List (K × V)) (tags : Tags K V) (h : Recorded l tags) :
    Recorded (l ++ calls) (calls.foldl (fun t kv => tag t kv.1 kv.2) tags) := by
  induction calls generalizing l tags with
  | nil => simpa using h
  | cons c calls ih =>
    have := ih _ _ (recorded_tag h c.1 c.2)
    simpa using this

theorem foldl_total (vm : List (V × Nat)) (t : Nat) :
    vm.foldl (fun total valueKV => total + valueKV.2) t = t + (vm.map Prod.snd).sum := by
  induction vm generalizing t with
  | nil => simp
  | cons e vm ih => rw [List.foldl_cons, ih]; simp; omega

end

theorem memcmp_zero (a b : List Nat) (n : Nat) (ha : n ≤ a.length) (hb : n ≤ b.length) :
    ∃ r, memcmp a b n = .ok r ∧ (r = 0 ↔ a.take n = b.take n) := by
  unfold memcmp
  rw [if_neg (by omega)]
  have key : ((a.take n).zip (b.take n)).find? (fun p => p.1 ≠ p.2) = none ↔ a.take n = b.take n := by
    rw [List.find?_eq_none]
    have hl : (a.take n).length = (b.take n).length := by simp; omega
    generalize a.take n = x at hl
    generalize b.take n = y at hl
    clear ha hb
    induction x generalizing y with
    | nil =>
      cases y with
      | nil => simp
      | cons _ _ => simp at hl
    | cons p x ih =>
      cases y with
      | nil => simp at hl
      | cons q y =>
        have := ih y (by simpa using hl)
        simp only [List.zip_cons_cons, List.forall_mem_cons, List.cons.injEq, this]
        simp
  cases hf : ((a.take n).zip (b.take n)).find? (fun p => p.1 ≠ p.2) with
  | none => exact ⟨0, rfl, by simp [key.mp hf]⟩
  | some p =>
    have hne : a.take n ≠ b.take n := fun e => by rw [key.mpr e] at hf; cases hf
    obtain ⟨x, y⟩ := p
    by_cases hxy : x < y
    · exact ⟨-1, by simp [hxy], by simp [hne]⟩
    · exact ⟨1, by simp [hxy], by simp [hne]⟩


end Context
end Verif
