import Verif.Model.WholeWrite
import Verif.Proofs.WriteDimacs
import Verif.Proofs.Whole.Start

/-!
# The formula written by the whole solver
-/

namespace Verif.Spec

theorem Reduces.sat {F₀ : Formula} {S : List (Nat × List Nat)} {F : Formula} (h : Reduces F₀ S F) :
    Satisfiable F → Satisfiable F₀ := by
  induction h with
  | refl => exact id
  | restrict _ hi ih => exact fun ⟨σ, hσ⟩ => ih ⟨σ, hi σ hσ⟩
  | @weaken S F F' l C _ hl hr hi ih =>
    rintro ⟨σ, hσ⟩
    by_cases hc : SatClause σ C
    · exact ih ⟨σ, hi σ hσ hc⟩
    · exact ih ⟨_, hi _ (hr σ hσ hc) ⟨l, hl, by unfold litTrue assign; rw [if_pos rfl]⟩⟩

end Verif.Spec

namespace Verif.Whole

open Verif.Spec Verif.Model Verif.Core

variable {orig : List (List Nat)}

/-- The clauses kept: between two simplifications or with a model. -/
def Kept (orig : List (List Nat)) (w : State) : Prop :=
  ∃ F, ∃ h : Frame orig w F, h.Good w.t.s

theorem Answered.kept {w : State} {res : Nat} (h : Answered orig w res) (hr : res ≠ 20) : Kept orig w := by
  rcases h with ⟨_, F, h1, h2, _⟩ | ⟨h, _⟩ | ⟨_, F, h1, h2⟩
  · exact ⟨F, h1, h2⟩
  · exact absurd h hr
  · exact ⟨F, h1, h2.prop⟩

theorem irr_range {s : Core.Solver} (h : Core.Inv s) {c : List Nat} (hc : s.irr c) : ∀ l ∈ c, l / 2 < s.vars := by
  rcases hc with ⟨r, hr, -, rfl⟩ | ⟨a, b, hab, rfl⟩ | ⟨l, h1, h2, rfl⟩
  · exact fun l hl => (h.clause.valid r hr l hl).1
  · intro l hl
    obtain ⟨-, -, -, v1, v2⟩ := h.clause.bin a b hab
    simp at hl
    rcases hl with rfl | rfl
    · exact v1.1
    · exact v2.1
  · intro m hm
    rw [List.mem_singleton.1 hm]
    exact (h.trail.valid l (by omega)).1

/-- A checker holds every irredundant clause and every root level unit. -/
theorem irr_covered {s : Core.Solver} {db : List (List Nat)} (hcov : Core.Covers s db) {c : List Nat} (hc : s.irr c) :
    ∃ d ∈ db, SameLits c d := by
  rcases hc with ⟨r, hr, -, rfl⟩ | ⟨a, b, hab, rfl⟩ | ⟨l, h1, h2, rfl⟩
  · have h1 : 0 < s.copies (s.clause r).lits := by
      unfold Solver.copies
      rw [List.countP_pos_iff]
      refine ⟨s.clause r, Core.live_mem hr, ?_⟩
      rw [show (s.clause r).garbage = false from hr]; simpa using (sameLits_iff.2 (fun _ => Iff.rfl : SameLits _ _))
    obtain ⟨d, hd, hs⟩ := List.countP_pos_iff.1 (Nat.lt_of_lt_of_le h1 (hcov.large (s.clause r).lits))
    exact ⟨d, hd, sameLits_iff.1 hs⟩
  · exact hcov.binary hab
  · exact hcov.unit l h1 h2

/-- The irredundant clauses have a model if and only if the clauses given have. -/
theorem Kept.sat {w : State} (h : Kept orig w) :
    Satisfiable (ofList orig) ↔ ∃ σ, SatFormula σ (Simp.mapF w.tables.ext w.t.s.irr) := by
  obtain ⟨F, h1, h2⟩ := h
  have hnz := h1.tables.nonzero
  have hir : ∀ c, w.t.s.irr c → ∀ l ∈ c, l / 2 < w.tables.exports.length := by
    intro c hc l hl
    rw [← h1.vars]
    exact irr_range h2.ok.inv hc l hl
  constructor
  · intro hs
    obtain ⟨db, hR, hcov⟩ := h2.ok.proof
    obtain ⟨D, hD, hle⟩ := toSimp_replay h1 hR
    obtain ⟨σ, hσ⟩ := hD.sat hs
    refine ⟨σ, ?_⟩
    rintro c ⟨d, hd, rfl⟩
    obtain ⟨e, he, hse⟩ := irr_covered hcov hd
    have hm := (SameLits.map h1.tables.renaming (hir d hd) (hR.bound e he)).2 hse
    have h3 : 0 < (db.map (List.map w.tables.ext)).countP (sameLits (d.map w.tables.ext)) :=
      count_pos.2 ⟨_, List.mem_map_of_mem he, hm⟩
    obtain ⟨f, hf, hsf⟩ := count_pos.1 (Nat.lt_of_lt_of_le h3 (hle _))
    exact (Spec.satClause_same hsf).2 (hσ f hf)
  · rintro ⟨σ, hσ⟩
    have h3 := (Simp.pull_formula (s := bare w.tables) hnz hir).2 hσ
    have h4 := (Simp.pull_formula (s := bare w.tables) hnz h1.range).1 (h2.ok.irr _ h3)
    obtain ⟨T, hT⟩ := h1.hist.built
    exact hT.reduces.sat ⟨σ, h4⟩

theorem Kept.clauses {w : State} (h : Kept orig w) : ClauseInv w.t.s := by
  obtain ⟨F, _, h2⟩ := h
  exact h2.ok.inv.clause

theorem Kept.export {w : State} (h : Kept orig w) {l : Nat} (hl : l / 2 < w.t.s.vars) :
    w.tables.exportLiteral l ≠ 0 ∧ (w.tables.exportLiteral l).natAbs ≤ w.tables.imports.length - 1 := by
  obtain ⟨F, h1, h2⟩ := h
  have hr : l / 2 < w.tables.exports.length := by rw [← h1.vars]; exact hl
  refine ⟨Simp.exportLiteral_ne (s := bare w.tables) h1.tables.nonzero hr, ?_⟩
  have h6 : ((bare w.tables).exportLiteral l).natAbs = _ := Simp.exportLiteral_abs (bare w.tables) l
  have h7 : (w.tables.exportLiteral l).natAbs = (w.tables.exports.getD (l / 2) 0).natAbs := h6
  have := h1.tables.bound _ hr
  omega

/-- The literals assigned at the root level are those of variables. -/
theorem Kept.units {w : State} (h : Kept orig w) {l : Nat} (hl : w.t.s.values l = 1) : l / 2 < w.t.s.vars := by
  obtain ⟨F, h1, h2⟩ := h
  exact (h2.ok.inv.trail.valid l (by omega)).1

end Verif.Whole
