import Verif.Proofs.Core.Edit
import Verif.Model.Core.Collect

/-! # Sorting literals for watching -/

namespace Verif.Core

open Verif.Spec

theorem findBest_ok {s : Solver} (ht : TrailInv s) (enough : Bool) (c : List Nat) :
    ∀ (bs : List Nat) (i pos best : Nat), c[pos]? = some best → c.drop i = bs → pos ≤ i →
    s.values best ≠ 0 → ∃ e, c[s.findBest enough bs i pos best]? = some e ∧
      pos ≤ s.findBest enough bs i pos best ∧
      (s.values e < 0 → ∀ x ∈ best :: bs, s.values x < 0 ∧ s.lev x ≤ s.lev e)
  | [], i, pos, best, hp, _, _, hb => by
    refine ⟨best, hp, Nat.le_refl _, fun h x hx => ?_⟩
    rw [List.mem_singleton.1 hx]; exact ⟨h, Nat.le_refl _⟩
  | b :: bs, i, pos, best, hp, hd, hle, hb => by
    have hi : c[i]? = some b := by
      have := congrArg (·[0]?) hd
      simpa using this
    have hd' : c.drop (i + 1) = bs := by
      have := congrArg (List.drop 1) hd
      rw [List.drop_drop] at this
      simpa using this
    unfold Solver.findBest
    split
    · rename_i h
      exact ⟨b, hi, hle, fun h' => by rcases h with h | h <;> omega⟩
    · rename_i h
      have hb0 : s.values b ≠ 0 := fun h' => h (.inl h')
      have db := ht.dom b
      have dbest := ht.dom best
      split
      · rename_i hbet
        obtain ⟨e, h1, h2, h3⟩ := findBest_ok ht enough c bs (i + 1) i b hi hd' (Nat.le_succ _) hb0
        refine ⟨e, h1, Nat.le_trans hle h2, fun he x hx => ?_⟩
        have := h3 he
        rcases List.mem_cons.1 hx with rfl | hx
        · have hbl := (this b (by simp))
          unfold Solver.better at hbet
          split at hbet
          · omega
          · split at hbet
            · cases hbet
            · split at hbet
              · rename_i hx0
                have := of_decide_eq_true hbet
                exact ⟨hx0, by omega⟩
              · omega
        · exact this x hx
      · rename_i hbet
        obtain ⟨e, h1, h2, h3⟩ := findBest_ok ht enough c bs (i + 1) pos best hp hd' (by omega) hb
        refine ⟨e, h1, h2, fun he x hx => ?_⟩
        have := h3 he
        rcases List.mem_cons.1 hx with rfl | hx
        · exact this x (by simp)
        rcases List.mem_cons.1 hx with rfl | hx
        · have hbl := (this best (by simp))
          unfold Solver.better at hbet
          split at hbet
          · exact absurd rfl hbet
          · split at hbet
            · omega
            · split at hbet
              · have hle : s.lev x ≤ s.lev best := by simpa using hbet
                exact ⟨by omega, by omega⟩
              · omega
        · exact this x (by simp [hx])

/-- Swapping two literals. -/
theorem swap_perm {c : List Nat} {i j a b : Nat} (hi : c[i]? = some a) (hj : c[j]? = some b) :
    ((c.set i b).set j a).Perm c := by
  obtain ⟨hi', rfl⟩ := List.getElem?_eq_some_iff.1 hi
  obtain ⟨hj', rfl⟩ := List.getElem?_eq_some_iff.1 hj
  exact List.set_set_perm hi' hj'

/-- What moving the best literal to position `start` does. -/
theorem moveSmallest_ok {s : Solver} (ht : TrailInv s) (enough : Bool) {start : Nat} {c : List Nat}
    (h : start < c.length) :
    (s.moveSmallest enough start c).Perm c ∧
    (∀ i, i < start → (s.moveSmallest enough start c)[i]? = c[i]?) ∧
    ∃ e, (s.moveSmallest enough start c)[start]? = some e ∧
      (s.values e < 0 → ∀ x ∈ c.drop start, s.values x < 0 ∧ s.lev x ≤ s.lev e) := by
  have ha := List.getElem?_eq_getElem h
  have hc : c.drop start = c[start] :: c.drop (start + 1) := by
    rw [List.drop_eq_getElem_cons h]
  unfold Solver.moveSmallest
  rw [ha]
  simp only
  split
  · rename_i h0
    exact ⟨.refl _, fun _ _ => rfl, c[start], ha, fun h' => by rcases h0 with h0 | h0 <;> omega⟩
  · rename_i h0
    obtain ⟨e, h1, h2, h3⟩ := findBest_ok ht enough c (c.drop (start + 1)) (start + 1) start c[start] ha rfl
      (Nat.le_succ _) (fun h' => h0 (.inl h'))
    generalize s.findBest enough (c.drop (start + 1)) (start + 1) start c[start] = pos at *
    have hg : c.getD pos 0 = e := by rw [List.getD_eq_getElem?_getD, h1]; rfl
    rw [hg]
    refine ⟨swap_perm ha h1, fun i hi => ?_, e, ?_, ?_⟩
    · rw [List.getElem?_set_ne (by omega), List.getElem?_set_ne (by omega)]
    · by_cases hp : pos = start
      · subst hp
        rw [ha] at h1
        cases h1
        rw [List.getElem?_set_self (by simpa using h)]
      · rw [List.getElem?_set_ne hp, List.getElem?_set_self h]
    · rw [hc]; exact h3

/-- `kissat_sort_literals` permutes the literals; the first one is false only if all are
false, the second one only if all but the first are; a false one has then the highest
level of those which are not before it. -/
theorem sortLiterals_ok {s : Solver} (ht : TrailInv s) {c : List Nat} (h : 2 < c.length) :
    ∃ a b rest, s.sortLiterals c = a :: b :: rest ∧ (a :: b :: rest).Perm c ∧
      (s.values a < 0 → ∀ x ∈ c, s.values x < 0 ∧ s.lev x ≤ s.lev a) ∧
      (s.values b < 0 → ∀ x ∈ b :: rest, s.values x < 0 ∧ s.lev x ≤ s.lev b) := by
  unfold Solver.sortLiterals
  simp only
  rw [if_pos h]
  obtain ⟨p1, _, e1, g1, f1⟩ := moveSmallest_ok ht false (start := 0) (c := c) (by omega)
  generalize s.moveSmallest false 0 c = d at *
  have hd : d.length = c.length := p1.length_eq
  generalize decide (0 ≤ s.values (d.getD 0 0)) = en
  obtain ⟨p2, q2, e2, g2, f2⟩ := moveSmallest_ok ht en (start := 1) (c := d) (by omega)
  generalize s.moveSmallest en 1 d = d2 at *
  have h0 := q2 0 (by omega)
  rw [g1] at h0
  have hl2 : d2.length = d.length := p2.length_eq
  match d2, h0, g2, p2 with
  | a :: b :: rest, h0, g2, p2 =>
    simp only [List.getElem?_cons_zero, Option.some.injEq, List.getElem?_cons_succ] at h0 g2
    subst h0 g2
    refine ⟨a, b, rest, rfl, p2.trans p1, by simpa using f1, fun hb x hx => f2 hb x ?_⟩
    match d, g1, p2 with
    | a' :: d', g1, p2 =>
      simp only [List.getElem?_cons_zero, Option.some.injEq] at g1
      subst g1
      have := (List.perm_cons _).1 p2
      simpa using this.mem_iff.1 hx

end Verif.Core
