import Verif.Proofs.Whole.Write
import Verif.Props.Whole

/-!
# The formula written after solving, with preprocessing and inprocessing (C16)
-/

namespace Verif.Props

open Verif.Spec Verif.Core Verif.Whole

theorem whole_kept {options : Core.Options} {tumble : Bool} {p q : Nat} {calls : List Call} {a : Api} {o : LuckyOptions}
    {pre : Bool} {rs : List Bool} {w : Whole.State} {res : Nat} (hrun : Core.Run (Api.init options tumble p q) calls a)
    (hsolve : Solve o pre a rs w res) (hres : res ≠ 20) :
    Kept ((clausesOf (addedInts calls)).map fun c => c.map code) w := by
  obtain ⟨orig, h1, h2⟩ := whole_clauses hrun (whole_searches hsolve)
  have h3 := solve_answered h1 hsolve
  rw [h2] at h3
  exact h3.kept hres

/-- C16: what is written after the answers 0 and 10 is a file that is legal even in pedantic mode, whose header counts
match the body if the counter of clauses is right.  Extension variables are counted as variables; there are at most as
many as the solver can represent. -/
theorem C16_whole_text_partial {options : Core.Options} {tumble : Bool} {p q : Nat} {calls : List Call} {a : Api}
    {o : LuckyOptions} {pre : Bool} {rs : List Bool} {w : Whole.State} {res : Nat}
    (hrun : Core.Run (Api.init options tumble p q) calls a) (hsolve : Solve o pre a rs w res) (hres : res ≠ 20)
    (hmax : w.tables.imports.length ≤ 2 ^ 30) {n : Nat} (hn : n < 2 ^ 64)
    (hcount : n = w.t.s.writtenBinaries.length + w.t.s.writtenLarge.length) :
    ∃ v ls, Dimacs.Legal .pedantic (w.writeDimacs n) v n ls ∧
      clausesOf ls = (w.t.s.writtenBinaries ++ w.t.s.writtenLarge).map (List.map w.tables.exportLiteral) := by
  have hk := whole_kept hrun hsolve hres
  obtain ⟨ls, h1, h2⟩ := writeDimacs_legal (m := .pedantic) hmax hn
    (fun c hc l hl => hk.export (written_valid hk.clauses hc l hl))
    (by rw [hcount, Solver.written, List.length_append])
  exact ⟨_, ls, h1, h2⟩

/-- C16: after the answers 0 and 10 the clauses written together with the literals assigned at the root level are
satisfiable if and only if the clauses added are.  Eliminated variables do not occur any more, and so the models are
different in general. -/
theorem C16_whole_satisfiable_partial {options : Core.Options} {tumble : Bool} {p q : Nat} {calls : List Call} {a : Api}
    {o : LuckyOptions} {pre : Bool} {rs : List Bool} {w : Whole.State} {res : Nat}
    (hrun : Core.Run (Api.init options tumble p q) calls a) (hsolve : Solve o pre a rs w res) (hres : res ≠ 20) :
    ESatisfiable (clausesOf (addedInts calls)) ↔ ∃ σ : Nat → Bool,
      (∀ c ∈ (w.t.s.writtenBinaries ++ w.t.s.writtenLarge).map (List.map w.tables.exportLiteral), ESat σ c) ∧
      ∀ l, w.t.s.values l = 1 → w.t.s.lev l = 0 → ElitTrue σ (w.tables.exportLiteral l) := by
  have hk := whole_kept hrun hsolve hres
  rw [← esatisfiable_iff whole_nonzero, hk.sat]
  have hcode : ∀ (σ : Assignment) (c : List Nat), (∀ l ∈ c, l / 2 < w.t.s.vars) →
      (SatClause σ (c.map w.tables.ext) ↔ ESat σ (c.map w.tables.exportLiteral)) := by
    intro σ c hc
    rw [← esat_iff, List.map_map]
    · exact Iff.rfl
    · intro e he
      obtain ⟨l, hl, rfl⟩ := List.mem_map.1 he
      exact (hk.export (hc l hl)).1
  have hunit : ∀ (σ : Assignment) (l : Nat), ESat σ ([l].map w.tables.exportLiteral) ↔
      ElitTrue σ (w.tables.exportLiteral l) := fun σ l =>
    ⟨fun ⟨e, he, ht⟩ => by rw [← List.mem_singleton.1 he]; exact ht, fun h => ⟨_, List.mem_singleton.2 rfl, h⟩⟩
  constructor
  · rintro ⟨σ, hσ⟩
    refine ⟨σ, fun c hc => ?_, fun l h1 h2 => ?_⟩
    · obtain ⟨d, hd, rfl⟩ := List.mem_map.1 hc
      exact (hcode σ d (written_valid hk.clauses hd)).1 (hσ _ ⟨d, mem_written hd, rfl⟩)
    · exact (hunit σ l).1 ((hcode σ [l] fun m hm => by rw [List.mem_singleton.1 hm]; exact hk.units h1).1
        (hσ _ ⟨[l], .inr (.inr ⟨l, h1, h2, rfl⟩), rfl⟩))
  · rintro ⟨σ, h1, h2⟩
    refine ⟨σ, ?_⟩
    obtain ⟨F, hF, hP⟩ := hk
    have hir : ∀ c, w.t.s.irr c → ∀ l ∈ c, l / 2 < w.tables.exports.length := fun c hc l hl => by
      rw [← hF.vars]; exact irr_range hP.ok.inv hc l hl
    refine (Simp.pull_formula (s := bare w.tables) hF.tables.nonzero hir).1 (written_sat hP.ok.inv.clause ?_ ?_)
    · intro c hc
      have hv := written_valid hP.ok.inv.clause hc
      exact (Simp.pull_clause (s := bare w.tables) hF.tables.nonzero fun l hl => by
        show l / 2 < w.tables.exports.length
        rw [← hF.vars]; exact hv l hl).2 ((hcode σ c hv).2 (h1 _ (List.mem_map_of_mem hc)))
    · intro l hl1 hl2
      have hv := (hP.ok.inv.trail.valid l (by omega)).1
      have h3 := (hcode σ [l] fun m hm => by rw [List.mem_singleton.1 hm]; exact hv).2 ((hunit σ l).2 (h2 l hl1 hl2))
      obtain ⟨x, hx, ht⟩ := h3
      have hx : x = w.tables.ext l := List.mem_singleton.1 hx
      rw [hx] at ht
      exact (Simp.pull_true (s := bare w.tables) hF.tables.nonzero (by
        show l / 2 < w.tables.exports.length
        rw [← hF.vars]; exact hv)).2 ht

/-- What is written after elimination of variables: those eliminated do not occur any more. -/
def writtenAfter (r : Option (Whole.State × Nat)) (n : Nat) : Option (Nat × Bool × Nat × String) :=
  r.map fun p => (p.2, decide (p.1.tables.imports.length ≤ 2 ^ 30),
    p.1.t.s.writtenBinaries.length + p.1.t.s.writtenLarge.length, String.ofList ((p.1.writeDimacs n).map Char.ofNat))

theorem eliminatedSat_written : writtenAfter eliminatedSat 3 =
    some (10, true, 3, "p cnf 5 3\n2 -5 0\n3 -5 0\n5 -2 -3 0\n") := by decide +kernel

/-- The hypotheses of both theorems: two of the five variables have been eliminated. -/
example : ∃ a rs w, Core.Run (Api.init exOptions true 100 500) ((andCnf.flatMap (· ++ [0])).map Call.add) a ∧
    Solve ⟨false, false, false⟩ false a rs w 10 ∧ w.tables.imports.length ≤ 2 ^ 30 ∧
    w.t.s.writtenBinaries.length + w.t.s.writtenLarge.length = 3 ∧
    String.ofList ((w.writeDimacs 3).map Char.ofNat) = "p cnf 5 3\n2 -5 0\n3 -5 0\n5 -2 -3 0\n" := by
  have h := eliminatedSat_written
  unfold writtenAfter at h
  cases he : eliminatedSat with
  | none => rw [he] at h; cases h
  | some p =>
    rw [he] at h
    simp only [Option.map_some, Option.some.injEq, Prod.mk.injEq] at h
    obtain ⟨w, res⟩ := p
    obtain ⟨h1, h2, h3, h4⟩ := h
    obtain ⟨a, rs, g1, g2⟩ := actSolve_sound he
    dsimp only at h1
    subst h1
    exact ⟨a, rs, w, g1, g2, of_decide_eq_true h2, h3, h4⟩

end Verif.Props
