import Verif.Spec.Draws
import Mathlib.Data.List.Sort
import Verif.Model.Containers
import Verif.Lemmas.ListLike
import Verif.Lemmas.Height
namespace Verif
namespace Containers
open Shr BinSearch
variable {σ α β κ : Type}

/-- Strictly increasing keys: what a `std::set` or `std::map` looks like when iterated. -/
def SortedBy [LinearOrder κ] (key : β → κ) (l : List β) : Prop := l.Pairwise fun a b => key a < key b

theorem mem_insertBy [LinearOrder κ] {key : β → κ} {x y : β} {l : List β} (h : y ∈ insertBy key x l) :
    y = x ∨ y ∈ l := by
  induction l with
  | nil => simpa [insertBy] using h
  | cons z l ih =>
    rw [insertBy] at h
    split at h
    · simpa using h
    · split at h
      · rcases List.mem_cons.mp h with rfl | h
        · simp
        · rcases ih h with h | h <;> simp [h]
      · exact .inr h

theorem mem_insertBy_of_mem [LinearOrder κ] {key : β → κ} {x y : β} {l : List β} (h : y ∈ l) :
    y ∈ insertBy key x l := by
  induction l with
  | nil => simp at h
  | cons z l ih =>
    rw [insertBy]
    split
    · simp at h ⊢; exact .inr h
    · split
      · rcases List.mem_cons.mp h with rfl | h
        · simp
        · simp [ih h]
      · exact h

theorem sorted_insertBy [LinearOrder κ] {key : β → κ} {x : β} {l : List β} (h : SortedBy key l) :
    SortedBy key (insertBy key x l) := by
  induction l with
  | nil => simp [insertBy, SortedBy]
  | cons z l ih =>
    obtain ⟨h1, h2⟩ := List.pairwise_cons.mp h
    rw [insertBy]
    split
    · rename_i hlt
      refine List.pairwise_cons.mpr ⟨?_, h⟩
      intro y hy
      rcases List.mem_cons.mp hy with rfl | hy
      · exact hlt
      · exact lt_trans hlt (h1 y hy)
    · split
      · rename_i hlt
        refine List.pairwise_cons.mpr ⟨?_, ih h2⟩
        intro y hy
        rcases mem_insertBy hy with rfl | hy
        · exact hlt
        · exact h1 y hy
      · exact h

theorem insertBy_present [LinearOrder κ] {key : β → κ} {x : β} {l : List β} (h : SortedBy key l)
    (hp : ∃ y ∈ l, key y = key x) : insertBy key x l = l := by
  induction l with
  | nil => simp at hp
  | cons z l ih =>
    obtain ⟨h1, h2⟩ := List.pairwise_cons.mp h
    obtain ⟨y, hy, e⟩ := hp
    rw [insertBy]
    rcases List.mem_cons.mp hy with rfl | hy
    · simp [e]
    · have := h1 y hy
      rw [e] at this
      rw [if_neg (not_lt_of_gt this), if_pos this, ih h2 ⟨y, hy, e⟩]

theorem insertBy_absent [LinearOrder κ] {key : β → κ} {x : β} {l : List β}
    (hp : ∀ y ∈ l, key y ≠ key x) : (insertBy key x l).length = l.length + 1 ∧ x ∈ insertBy key x l := by
  induction l with
  | nil => simp [insertBy]
  | cons z l ih =>
    rw [insertBy]
    split
    · simp
    · split
      · have := ih fun y hy => hp y (by simp [hy])
        simp [this.1, this.2]
      · rename_i h1 h2
        exact absurd (le_antisymm (not_lt.mp h1) (not_lt.mp h2)) (hp z (by simp))

theorem insertBy_last [LinearOrder κ] {key : β → κ} {x : β} {l : List β}
    (hp : ∀ y ∈ l, key y < key x) : insertBy key x l = l ++ [x] := by
  induction l with
  | nil => rfl
  | cons z l ih =>
    have := hp z (by simp)
    rw [insertBy, if_neg (not_lt_of_gt this), if_pos this, ih fun y hy => hp y (by simp [hy])]
    rfl

/-- Inserting the elements of a sorted list one by one gives that list. -/
theorem insertAll_sorted [LinearOrder κ] {key : β → κ} {l : List β} (h : SortedBy key l) :
    insertAll key l = l := by
  have : ∀ (l acc : List β), SortedBy key (acc ++ l) →
      l.foldl (fun acc x => insertBy key x acc) acc = acc ++ l := by
    intro l
    induction l with
    | nil => intro acc _; simp
    | cons x l ih =>
      intro acc h
      have hx : ∀ y ∈ acc, key y < key x := fun y hy =>
        (List.pairwise_append.mp h).2.2 y hy x (by simp)
      rw [List.foldl_cons, insertBy_last hx, ih (acc ++ [x]) (by simpa using h)]
      simp
  exact this l [] (by simpa using h)

theorem fillSet_ok [LinearOrder α] (g : Gen σ α) (size : Nat) :
    ∀ (fuel : Nat) (acc : List (Shr α)) (s : σ) (xs : List (Shr α)) (s' : σ),
    fillSet g size fuel acc s = .ok (xs, s') → SortedBy Shr.value acc → acc.length ≤ size →
    xs.length = size ∧ SortedBy Shr.value xs := by
  intro fuel
  induction fuel with
  | zero =>
    intro acc s xs s' h hs hl
    rw [fillSet] at h
    split at h
    · cases h
    · cases h; exact ⟨by omega, hs⟩
  | succ fuel ih =>
    intro acc s xs s' h hs hl
    rw [fillSet] at h
    split at h
    · rename_i hlt
      rw [Outcome.bind_eq_ok] at h
      obtain ⟨⟨x, s1⟩, h1, h2⟩ := h
      refine ih _ _ _ _ h2 (sorted_insertBy hs) ?_
      by_cases hp : ∃ y ∈ acc, y.value = x.value
      · rw [insertBy_present hs hp]; exact hl
      · rw [(insertBy_absent (by simpa using hp)).1]; omega
    · cases h; exact ⟨by omega, hs⟩

theorem value_mem_insertBy [LinearOrder α] {acc : List (Shr α)} (hs : SortedBy Shr.value acc) (x : Shr α) (v : α) :
    v ∈ (insertBy Shr.value x acc).map Shr.value ↔ v = x.value ∨ v ∈ acc.map Shr.value := by
  by_cases hp : ∃ y ∈ acc, y.value = x.value
  · rw [insertBy_present hs hp]
    refine ⟨.inr, ?_⟩
    rintro (rfl | h)
    · obtain ⟨y, hy, e⟩ := hp; exact List.mem_map.mpr ⟨y, hy, e⟩
    · exact h
  · have h := (insertBy_absent (by simpa using hp : ∀ y ∈ acc, y.value ≠ x.value)).2
    constructor
    · intro hv
      obtain ⟨y, hy, rfl⟩ := List.mem_map.mp hv
      rcases mem_insertBy hy with rfl | hy
      · exact .inl rfl
      · exact .inr (List.mem_map_of_mem hy)
    · rintro (rfl | hv)
      · exact List.mem_map_of_mem h
      · obtain ⟨y, hy, rfl⟩ := List.mem_map.mp hv
        exact List.mem_map_of_mem (mem_insertBy_of_mem hy)

/-- The loop calls the generator until the set has the wanted size: its elements are the values drawn, and the
last value drawn was new. -/
theorem fillSet_draws [LinearOrder α] (g : Gen σ α) (size : Nat) :
    ∀ (fuel : Nat) (acc : List (Shr α)) (s : σ) (xs : List (Shr α)) (s' : σ),
    fillSet g size fuel acc s = .ok (xs, s') → SortedBy Shr.value acc → acc.length ≤ size →
    ∃ ds, g.Draws s ds s' ∧ (ds = [] → xs = acc) ∧
      (∀ v, v ∈ xs.map Shr.value ↔ v ∈ acc.map Shr.value ∨ v ∈ ds.map Shr.value) ∧
      ∀ pre x, ds = pre ++ [x] → x.value ∉ acc.map Shr.value ∧ x.value ∉ pre.map Shr.value := by
  intro fuel
  induction fuel with
  | zero =>
    intro acc s xs s' h hs hl
    rw [fillSet] at h
    split at h
    · cases h
    · cases h; exact ⟨[], .nil _, fun _ => rfl, by simp, by simp⟩
  | succ fuel ih =>
    intro acc s xs s' h hs hl
    rw [fillSet] at h
    split at h
    · rename_i hlt
      rw [Outcome.bind_eq_ok] at h
      obtain ⟨⟨x, s1⟩, h1, h2⟩ := h
      have hl' : (insertBy Shr.value x acc).length ≤ size := by
        by_cases hp : ∃ y ∈ acc, y.value = x.value
        · rw [insertBy_present hs hp]; exact hl
        · rw [(insertBy_absent (by simpa using hp)).1]; omega
      obtain ⟨ds, hd, h3, h4, h5⟩ := ih _ _ _ _ h2 (sorted_insertBy hs) hl'
      obtain ⟨hsz, -⟩ := fillSet_ok g size fuel _ _ _ _ h2 (sorted_insertBy hs) hl'
      refine ⟨x :: ds, .cons h1 hd, by simp, fun v => ?_, ?_⟩
      · rw [h4, value_mem_insertBy hs, List.map_cons, List.mem_cons]
        tauto
      · intro pre y e
        cases pre with
        | nil =>
          simp only [List.nil_append, List.cons.injEq] at e
          obtain ⟨rfl, rfl⟩ := e
          refine ⟨fun hin => ?_, by simp⟩
          have := h3 rfl
          rw [insertBy_present hs (by simpa using hin)] at this
          rw [this] at hsz
          omega
        | cons p pre =>
          simp only [List.cons_append, List.cons.injEq] at e
          obtain ⟨rfl, rfl⟩ := e
          obtain ⟨h6, h7⟩ := h5 pre y rfl
          rw [value_mem_insertBy hs] at h6
          simp only [List.map_cons, List.mem_cons]
          tauto
    · cases h; exact ⟨[], .nil _, fun _ => rfl, by simp, by simp⟩

end Containers
end Verif
