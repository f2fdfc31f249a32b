import Verif.Proofs.Kitten.Run

/-! # The values after flipping a literal -/

namespace Verif.Kitten

open Verif.Spec
open Verif.Core (upd)

theorem flipVisit_values (lit : Nat) : ∀ (rest kept : List Katch) (k : Kitten) {k' : Kitten} {kept' : List Katch} {res : Bool},
    Kitten.flipVisit lit rest kept k = some (k', kept', res) →
    k'.values = k.values ∧ k'.imports = k.imports ∧ k'.status = k.status
  | [], kept, k, k', kept', res, h => by
    simp only [Kitten.flipVisit, Option.some.injEq, Prod.mk.injEq] at h
    rw [← h.1]; exact ⟨rfl, rfl, rfl⟩
  | w :: rest, kept, k, k', kept', res, h => by
    unfold Kitten.flipVisit at h
    split at h
    · exact flipVisit_values lit rest _ k h
    · split at h
      · dsimp only at h
        split at h
        · exact flipVisit_values lit rest _ k h
        · split at h
          · have := flipVisit_values lit rest _ _ h
            exact this
          · cases h; exact ⟨rfl, rfl, rfl⟩
      · cases h

theorem flipInternal_values {k k' : Kitten} {lit : Nat} {res : Bool} (hf : Flippable k)
    (he : k.flipInternal lit = some (k', res)) :
    k'.imports = k.imports ∧ k'.status = k.status ∧ (res = true → k.lev lit ≠ 0 ∧ k.values lit ≠ 0) ∧
    ∀ m, k'.values m = if res = true ∧ m / 2 = lit / 2 then - k.values m else k.values m := by
  unfold Kitten.flipInternal at he
  by_cases hv : k.values lit = 0
  · rw [if_pos hv] at he; cases he
  rw [if_neg hv] at he
  by_cases h0 : k.lev lit = 0
  · rw [if_pos h0] at he
    cases he
    exact ⟨rfl, rfl, fun h => absurd h (by decide), fun m => by simp⟩
  rw [if_neg h0] at he
  dsimp only at he
  generalize hl : (if k.values lit < 0 then neg lit else lit) = l at he
  have hl1 : k.values l = 1 ∧ l / 2 = lit / 2 := by
    rw [← hl]
    have := hf.dom lit
    split
    · rw [hf.anti]; exact ⟨by omega, Spec.neg_div lit⟩
    · exact ⟨by omega, rfl⟩
  cases hvis : Kitten.flipVisit l (k.watches l) [] k with
  | none => rw [hvis] at he; cases he
  | some p =>
    obtain ⟨k1, kept, r⟩ := p
    rw [hvis] at he
    simp only [Option.some.injEq, Prod.mk.injEq] at he
    obtain ⟨he, rfl⟩ := he
    obtain ⟨h1, h2, h3⟩ := flipVisit_values l _ _ _ hvis
    cases r with
    | false =>
      rw [if_neg (by decide)] at he
      subst he
      exact ⟨h2, h3, fun h => absurd h (by decide), fun m => by simp [h1]⟩
    | true =>
      rw [if_pos rfl] at he
      subst he
      refine ⟨h2, h3, fun _ => ⟨h0, hv⟩, fun m => ?_⟩
      show upd (upd k1.values l (-1)) (neg l) 1 m = _
      by_cases hm : m / 2 = lit / 2
      · rw [if_pos ⟨rfl, hm⟩]
        rcases Verif.Spec.eq_or_eq_neg (a := m) (b := l) (by omega) with e | e
        · subst e
          rw [upd_other _ _ (Ne.symm (Spec.neg_ne m)), upd_self, hl1.1]
        · subst e
          rw [upd_self, hf.anti, hl1.1]; rfl
      · rw [if_neg (fun h => hm h.2), upd_other _ _ (by rintro rfl; rw [Spec.neg_div] at hm; exact hm hl1.2),
          upd_other _ _ (by rintro rfl; exact hm hl1.2), h1]

end Verif.Kitten
