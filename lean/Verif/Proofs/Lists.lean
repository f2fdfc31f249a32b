/-! # Small facts about lists -/

namespace Verif

theorem nodup_length_le {α : Type} [DecidableEq α] :
    ∀ {l m : List α}, l.Nodup → (∀ x ∈ l, x ∈ m) → l.length ≤ m.length
  | [], _, _, _ => Nat.zero_le _
  | a :: l, m, h, hs => by
    rw [List.nodup_cons] at h
    have ha : a ∈ m := hs a (by simp)
    have := nodup_length_le (l := l) (m := m.erase a) h.2 fun x hx =>
      (List.mem_erase_of_ne (show x ≠ a from fun e => h.1 (e ▸ hx))).2 (hs x (.tail _ hx))
    rw [List.length_erase_of_mem ha] at this
    have := List.length_pos_of_mem ha
    simp only [List.length_cons]; omega

/-- A duplicate free list containing another duplicate free list of at least the same length
has the same elements. -/
theorem nodup_subset_of_length {α : Type} [DecidableEq α] {l m : List α} (h : l.Nodup)
    (hs : ∀ x ∈ l, x ∈ m) (hl : m.length ≤ l.length) : ∀ x ∈ m, x ∈ l := by
  intro x hx
  by_cases hxl : x ∈ l
  · exact hxl
  · have := nodup_length_le (l := x :: l) (m := m) (List.nodup_cons.2 ⟨hxl, h⟩) (by
      intro y hy
      rcases List.mem_cons.1 hy with rfl | hy
      · exact hx
      · exact hs y hy)
    simp only [List.length_cons] at this; omega

end Verif
