import Verif.Model.Whole
import Verif.Proofs.Simp.Run
import Verif.Proofs.LuckyApi

/-!
# The proof between two simplifications

The search writes its lines on top of what has been written before, which may contain clauses added by
simplification that do not follow from the original clauses.
-/

namespace Verif.Whole

open Verif.Spec Verif.Model Verif.Core

theorem renameLine_eq (f : Nat → Nat) : renameLine f = Line.map f := by
  funext l; cases l <;> rfl

theorem count_pos {db : List (List Nat)} {X : List Nat} :
    0 < db.countP (sameLits X) ↔ ∃ d ∈ db, SameLits X d := by
  rw [List.countP_pos_iff]
  constructor <;> rintro ⟨d, h1, h2⟩
  · exact ⟨d, h1, sameLits_iff.1 h2⟩
  · exact ⟨d, h1, sameLits_iff.2 h2⟩

/-- Deleting a clause which is there. -/
theorem count_deleted (C X : List Nat) : ∀ db : List (List Nat), (∃ d ∈ db, SameLits C d) → sameLits X C = true →
    (deleteClause db C).countP (sameLits X) + 1 = db.countP (sameLits X)
  | [], h, _ => by obtain ⟨d, h, _⟩ := h; cases h
  | d :: db, h, hx => by
    unfold deleteClause
    rw [List.eraseP_cons]
    by_cases hd : sameLits C d = true
    · rw [hd, cond_true, List.countP_cons]
      have : sameLits X d = true := sameLits_iff.2 ((sameLits_iff.1 hx).trans (sameLits_iff.1 hd))
      rw [if_pos this]
    · rw [Bool.not_eq_true] at hd
      rw [hd, cond_false, List.countP_cons, List.countP_cons]
      have ih := count_deleted C X db ?_ hx
      · unfold deleteClause at ih
        omega
      · obtain ⟨e, h1, h2⟩ := h
        rcases List.mem_cons.1 h1 with rfl | h1
        · rw [sameLits_iff.2 h2] at hd; cases hd
        · exact ⟨e, h1, h2⟩

/-- Deleting another clause. -/
theorem count_other (C X : List Nat) (hx : sameLits X C = false) : ∀ db : List (List Nat),
    (deleteClause db C).countP (sameLits X) = db.countP (sameLits X)
  | [] => rfl
  | d :: db => by
    have ih := count_other C X hx db
    unfold deleteClause at ih ⊢
    rw [List.eraseP_cons]
    by_cases hd : sameLits C d = true
    · rw [hd, cond_true, List.countP_cons]
      have : sameLits X d = false := by
        cases h : sameLits X d with
        | false => rfl
        | true =>
          rw [← hx]
          exact (sameLits_iff.2 ((sameLits_iff.1 h).trans (sameLits_iff.1 hd).symm)).symm
      simp [this]
    · rw [Bool.not_eq_true] at hd
      rw [hd, cond_false, List.countP_cons, List.countP_cons]
      omega

/-- The clauses of the checker between two simplifications: `pre` are the lines written before, `F` the
irredundant clauses at the last simplification. -/
structure Phase (N : Nat) (ext : Nat → Nat) (orig : List (List Nat)) (pre : List Spec.Line) (F : Formula)
    (n : Nat) (lines : List Spec.Line) (db : List (List Nat)) : Prop where
  vars : n = N
  lits : ∀ x ∈ lines, ∀ l ∈ Line.lits x, l / 2 < N
  bound : ∀ c ∈ db, ∀ l ∈ c, l / 2 < N
  replay : ∃ D, Replay orig (pre ++ lines.map (Line.map ext)) D ∧
    ∀ X, (db.map (List.map ext)).countP (sameLits X) ≤ D.countP (sameLits X)
  implied : ∀ σ, SatFormula σ F → SatFormula σ (ofList db)

theorem snoc_lits {N : Nat} {lines : List Spec.Line} {x : Spec.Line} (h : ∀ x ∈ lines, ∀ l ∈ Line.lits x, l / 2 < N)
    (hx : ∀ l ∈ Line.lits x, l / 2 < N) : ∀ y ∈ lines ++ [x], ∀ l ∈ Line.lits y, l / 2 < N := by
  intro y hy
  rcases List.mem_append.1 hy with hy | hy
  · exact h y hy
  · rw [List.mem_singleton.1 hy]; exact hx

def phaseBase {N : Nat} {ext : Nat → Nat} (hext : Renaming N ext) (orig : List (List Nat)) (pre : List Spec.Line)
    (F : Formula) : Base where
  R := Phase N ext orig pre F
  add := by
    rintro n lines db c ⟨rfl, h2, h3, ⟨D, h4, h5⟩, h6⟩ hr hc
    refine ⟨rfl, snoc_lits h2 hc, ?_, ⟨c.map ext :: D, ?_, fun X => ?_⟩, fun σ hσ => ?_⟩
    · intro d hd
      rcases List.mem_cons.1 hd with rfl | hd
      · exact hc
      · exact h3 d hd
    · rw [List.map_append, ← List.append_assoc]
      refine .add h4 (.inl ?_)
      have := hr.map hext (F' := ofList (db.map (List.map ext)))
        (fun d hd => ⟨List.mem_map_of_mem hd, h3 d hd⟩) hc
      refine this.mono (fun d hd => ?_) fun _ h => h
      have h1 : 0 < (db.map (List.map ext)).countP (sameLits d) := count_pos.2 ⟨d, hd, .refl d⟩
      obtain ⟨e, he, hs⟩ := count_pos.1 (Nat.lt_of_lt_of_le h1 (h5 d))
      exact ⟨e, he, hs⟩
    · rw [List.map_cons, List.countP_cons, List.countP_cons]
      have := h5 X
      omega
    · intro d hd
      rcases List.mem_cons.1 hd with rfl | hd
      · exact hr.entails σ (h6 σ hσ)
      · exact h6 σ hσ d hd

instance {N : Nat} {ext : Nat → Nat} (hext : Renaming N ext) (orig : List (List Nat)) (pre : List Spec.Line)
    (F : Formula) : Deletes (phaseBase hext orig pre F) where
  delete := by
    rintro n lines db c ⟨rfl, h2, h3, ⟨D, h4, h5⟩, h6⟩ hc hd
    refine ⟨rfl, snoc_lits h2 hc, fun d hd => h3 d (mem_deleteClause hd), ⟨deleteClause D (c.map ext), ?_, fun X => ?_⟩,
      fun σ hσ d hd => h6 σ hσ d (mem_deleteClause hd)⟩
    · rw [List.map_append, ← List.append_assoc]
      exact .delete h4
    · rw [← deleteClause_map hext hc h3]
      have h7 := h5 X
      cases hx : sameLits X (c.map ext) with
      | false => rw [count_other _ _ hx, count_other _ _ hx]; exact h7
      | true =>
        have h8 : ∃ d ∈ db.map (List.map ext), SameLits (c.map ext) d := by
          obtain ⟨d, hd, hs⟩ := hd
          exact ⟨_, List.mem_map_of_mem hd, (SameLits.map hext hc (h3 d hd)).2 hs⟩
        have h9 : ∃ d ∈ D, SameLits (c.map ext) d := by
          rw [← count_pos] at h8 ⊢
          exact Nat.lt_of_lt_of_le h8 (h5 _)
        have := count_deleted _ X _ h8 hx
        have := count_deleted _ X _ h9 hx
        omega

end Verif.Whole
