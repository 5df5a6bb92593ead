import Verif.Lemmas.ListLike
namespace Verif
open Shr
variable {α β : Type}

namespace Shr
theorem height_lt_of_mem {s t : Shr α} (h : s ∈ t.shrinks) : s.height < t.height := by
  cases t with
  | node v ss =>
    simp only [shrinks_node] at h
    rw [height]
    induction ss with
    | nil => simp at h
    | cons x xs ih =>
      rw [heightList]
      rcases List.mem_cons.mp h with rfl | h
      · omega
      · have := ih h; omega

theorem height_le {t : Shr α} {B : Nat} (h : ∀ s ∈ t.shrinks, s.height + 1 ≤ B) : t.height ≤ B := by
  cases t with
  | node v ss =>
    simp only [shrinks_node] at h
    rw [height]
    induction ss with
    | nil => simp [heightList]
    | cons x xs ih =>
      rw [heightList]
      have h1 := h x (by simp)
      have h2 := ih fun s hs => h s (by simp [hs])
      omega

theorem height_map (f : α → β) (t : Shr α) : (t.map f).height = t.height := by
  induction t using Shr.ind with
  | h v ss ih =>
    apply Nat.le_antisymm
    · refine height_le fun s hs => ?_
      rw [shrinks_map, List.mem_map] at hs
      obtain ⟨c, hc, rfl⟩ := hs
      rw [ih c hc]
      exact height_lt_of_mem hc
    · refine height_le fun s hs => ?_
      rw [← ih s hs]
      exact height_lt_of_mem (by rw [shrinks_map]; exact List.mem_map.mpr ⟨s, hs, rfl⟩)

/-- A chain of steps is not longer than the height. -/
theorem at?_length {t u : Shr α} {p : List Nat} (h : t.at? p = some u) : p.length + u.height ≤ t.height := by
  induction p generalizing t with
  | nil => simp at h; subst h; simp
  | cons i p ih =>
    rw [at?_cons] at h
    cases e : t.shrinks[i]? with
    | none => simp [e] at h
    | some s =>
      simp [e] at h
      have h1 := ih h
      have h2 := height_lt_of_mem (List.mem_of_getElem? e)
      simp only [List.length_cons]
      omega

theorem height_concat {k : Shr α → List (Shr α)} {t : Shr α} {B : Nat}
    (h : ∀ s, Desc t s → ∀ w ∈ k s, w.height + 1 ≤ B) : (t.concat k).height ≤ t.height + B := by
  induction t using Shr.ind with
  | h v ss ih =>
    refine height_le fun s hs => ?_
    rw [shrinks_concat, List.mem_append, List.mem_map] at hs
    rcases hs with ⟨c, hc, rfl⟩ | hs
    · have h1 := ih c hc fun s hs w hw => h s (.step hc hs) w hw
      have h2 := height_lt_of_mem hc
      omega
    · have := h _ (.refl _) s hs; omega

/-- A measure of the values that decreases with every step bounds the height. -/
theorem height_measure {t : Shr α} {μ : α → Nat} (h : AllEdges (fun x y => μ y < μ x) t) :
    t.height ≤ μ t.value := by
  induction t using Shr.ind with
  | h v ss ih =>
    refine height_le fun s hs => ?_
    have h1 := ih s hs fun u hu c hc => h u (.step hs hu) c hc
    have h2 := h _ (.refl _) s hs
    omega
end Shr

theorem AllEdges.andThen {E : α → α → Prop} {k : Shr α → List (Shr α)} {t : Shr α}
    (h : AllEdges E t)
    (hk : ∀ s, Desc t s → s.shrinks = [] → ∀ w ∈ k s, E s.value w.value ∧ AllEdges E w) :
    AllEdges E (t.andThen k) := by
  induction t using Shr.ind with
  | h v ss ih =>
    intro s hs c hc
    rw [desc_iff] at hs
    by_cases e : (node v ss).shrinks = []
    · rw [shrinks_andThen_nil k e] at hs
      rcases hs with rfl | ⟨w, hw, hd⟩
      · rw [shrinks_andThen_nil k e] at hc
        rw [value_andThen]
        exact (hk _ (.refl _) e c hc).1
      · exact (hk _ (.refl _) e w hw).2 s hd c hc
    · rw [shrinks_andThen_ne k e] at hs
      have ih' : ∀ w ∈ (node v ss).shrinks, AllEdges E (w.andThen k) := fun w hw =>
        ih w hw (fun u hu => h u (.step hw hu)) (fun u hu => hk u (.step hw hu))
      rcases hs with rfl | ⟨w, hw, hd⟩
      · rw [shrinks_andThen_ne k e, List.mem_map] at hc
        obtain ⟨c', hc', rfl⟩ := hc
        have := h _ (.refl _) c' hc'
        simpa using this
      · rw [List.mem_map] at hw
        obtain ⟨w', hw', rfl⟩ := hw
        exact ih' w' hw' s hd c hc

end Verif
