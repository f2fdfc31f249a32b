import Verif.Model.Simp.Closure
import Verif.Proofs.Simp.Root
import Verif.Proofs.Simp.Core
import Verif.Proofs.Congruence.Imp

/-!
# The invariant with clauses which are only in the proof
-/

namespace Verif.Congruence

open Verif.Spec Verif.Model Verif.Simp

/-- The clauses of the solver and those only in the proof. -/
def full (s : State) (E : List (List Nat)) : Formula := fun c => s.formula c ∨ c ∈ E

/-- The irredundant clauses and those only in the proof. -/
def base (s : State) (E : List (List Nat)) : Formula := fun c => s.irr c ∨ c ∈ E

/-- Copies of clauses. -/
def copiesE (s : State) (E : List (List Nat)) (X : List Nat) : Nat :=
  s.copies X + E.countP fun c => sameLits X (c.map s.ext)

/-- The invariant, where `E` are clauses only in the proof, and the clauses are implied by `F0`. -/
structure InvE (orig : List (List Nat)) (F0 : Formula) (E : List (List Nat)) (s : State) : Prop where
  inv : Inv orig none s
  range : ∀ c ∈ E, ∀ l ∈ c, s.InRange l
  proof : ∃ db, Replay orig s.proof db ∧ (∀ X, copiesE s E X ≤ db.countP (sameLits X)) ∧ (s.inconsistent = true → [] ∈ db)
  models : ∀ σ, SatFormula σ F0 → SatFormula σ (full s E)
  follow : ∀ σ, SatFormula σ s.irr → ∃ τ, SatFormula τ (full s E) ∧ ∀ v, s.removed v = false → τ v = σ v
  unsat : s.inconsistent = true → ∀ σ, ¬ SatFormula σ F0

variable {orig : List (List Nat)} {F0 : Formula} {E : List (List Nat)} {s : State}

theorem implied_of_full {s : State} (h : ∀ σ, SatFormula σ s.irr → ∃ τ, SatFormula τ (full s E) ∧
    ∀ v, s.removed v = false → τ v = σ v) : s.Implied none := fun σ hσ => by
  obtain ⟨τ, h1, h2⟩ := h σ hσ
  exact ⟨τ, fun c hc => h1 c (Or.inl hc), fun v hv _ => h2 v hv⟩

theorem full_step {s s' : State} {E' : List (List Nat)} (h : ∀ σ, SatFormula σ s.irr → ∃ τ, SatFormula τ (full s E) ∧
      ∀ v, s.removed v = false → τ v = σ v)
    (hrem : s'.removed = s.removed) (hi : ∀ σ, SatFormula σ s'.irr → SatFormula σ s.irr)
    (hf : ∀ τ, SatFormula τ (full s E) → SatFormula τ (full s' E')) :
    ∀ σ, SatFormula σ s'.irr → ∃ τ, SatFormula τ (full s' E') ∧ ∀ v, s'.removed v = false → τ v = σ v := by
  intro σ hσ
  obtain ⟨τ, h1, h2⟩ := h σ (hi σ hσ)
  exact ⟨τ, hf τ h1, by rw [hrem]; exact h2⟩

theorem InvE.start (h : Inv orig none s) (hc : s.inconsistent = false) : InvE orig s.formula [] s := by
  refine ⟨h, by simp, ?_, ?_, fun σ hσ => ?_, by rw [hc]; simp⟩
  · obtain ⟨db, h1, h2⟩ := h.struct.proof
    exact ⟨db, h1, by simpa [copiesE] using h2.copies, h2.empty⟩
  · intro σ hσ c hc
    rcases hc with hc | hc
    · exact hσ c hc
    · cases hc
  · obtain ⟨τ, h1, h2⟩ := h.implied σ hσ
    refine ⟨τ, fun c hc => ?_, fun v hv => h2 v hv (by simp)⟩
    rcases hc with hc | hc
    · exact h1 c hc
    · cases hc

theorem base_full {c : List Nat} (h : base s E c) : full s E c := h.imp State.irr_formula id

theorem rup_full {c : List Nat} (h : Bot (base s E) (c.map neg)) : RUP (full s E) c :=
  (rup_iff.2 h).mono_sub fun _ => base_full

theorem InvE.full_range (h : InvE orig F0 E s) : FRange s (full s E) := by
  rintro c (hc | hc)
  · exact h.inv.struct.formula_range c hc
  · exact h.range c hc

theorem InvE.rup (h : InvE orig F0 E s) {db : List (List Nat)} (hdb : ∀ X, copiesE s E X ≤ db.countP (sameLits X))
    {c : List Nat} (hc : ∀ l ∈ c, s.InRange l) (hr : RUP (full s E) c) : RUP (ofList db) (c.map s.ext) := by
  refine rup_covered h.inv.struct h.full_range ?_ hc hr
  intro d hd
  have h1 : 0 < copiesE s E (d.map s.ext) := by
    unfold copiesE
    rcases hd with hd | hd
    · apply Nat.add_pos_left
      unfold State.copies
      rcases hd with ⟨l, hl, rfl⟩ | ⟨r, hr, rfl⟩
      · apply Nat.add_pos_right
        rw [List.countP_pos_iff]
        exact ⟨l, hl, sameLits_iff.2 (SameLits.refl _)⟩
      · apply Nat.add_pos_left
        rw [List.countP_pos_iff]
        exact ⟨_, clause_mem (clause_lt hr), by simp [hr, sameLits_iff.2 (SameLits.refl _)]⟩
    · apply Nat.add_pos_right
      rw [List.countP_pos_iff]
      exact ⟨d, hd, sameLits_iff.2 (SameLits.refl _)⟩
  have h2 := Nat.lt_of_lt_of_le h1 (hdb _)
  rw [List.countP_pos_iff] at h2
  obtain ⟨d, hd, hs⟩ := h2
  exact ⟨d, hd, sameLits_iff.1 hs⟩

theorem Struct.reproof (h : Struct orig s) {p : List Line} (hln : ∀ ln ∈ p, ∀ x ∈ lineLits ln, x / 2 < s.imports.length)
    (hp : ∃ db, Replay orig p db ∧ Covers s db) : Struct orig { s with proof := p } := by
  obtain ⟨db, h1, h2⟩ := hp
  exact ⟨h.neg, h.range, h.trail, h.nonzero, h.inj, h.imported, h.back, h.clause, h.unit, h.nodup, h.taut, h.size, h.removed,
    h.bound, h.given, hln, db, h1, h2.copies, h2.empty⟩

theorem Inv.reproof (h : Inv orig none s) {p : List Line} (hln : ∀ ln ∈ p, ∀ x ∈ lineLits ln, x / 2 < s.imports.length)
    (hp : ∃ db, Replay orig p db ∧ Covers s db) : Inv orig none { s with proof := p } :=
  ⟨Struct.reproof h.struct hln hp, h.hist, h.witness, h.implied⟩

/-! ## Units -/

theorem InvE.learnedUnit (h : InvE orig F0 E s) {l : Nat} (hv : s.values l = 0) (hl : s.InRange l)
    (hrem : s.removed (l / 2) = false) (hr : RUP (full s E) [l]) : InvE orig F0 E (s.learnedUnit l) := by
  have hl' : ∀ m ∈ [l], s.InRange m := by simpa using hl
  obtain ⟨db, h1, h2, h3⟩ := h.proof
  have h4 := h.rup h2 hl' hr
  have hcop : ∀ X, (s.learnedUnit l).copies X + E.countP (fun c => sameLits X (c.map s.ext)) ≤
      ([s.ext l] :: db).countP (sameLits X) := by
    intro X
    have h5 := h2 X
    unfold copiesE State.copies at h5
    show (List.countP _ s.arena + List.countP _ (s.trail ++ [l])) + _ ≤ _
    rw [List.countP_append, List.countP_cons, List.countP_cons, List.countP_nil]
    have e : (if sameLits X [(s.learnedUnit l).ext l] = true then 1 else 0) =
      if sameLits X [s.ext l] = true then 1 else 0 := rfl
    have e1 : List.countP (fun c => !c.garbage && sameLits X (List.map (s.learnedUnit l).ext c.lits)) s.arena =
      List.countP (fun c => !c.garbage && sameLits X (List.map s.ext c.lits)) s.arena := rfl
    have e2 : List.countP (fun k => sameLits X [(s.learnedUnit l).ext k]) s.trail =
      List.countP (fun k => sameLits X [s.ext k]) s.trail := rfl
    rw [e, e1, e2]
    omega
  have hcov : Covers (s.learnedUnit l) ([s.ext l] :: db) :=
    ⟨fun X => by have := hcop X; omega, fun hi => List.mem_cons_of_mem _ (h3 hi)⟩
  have hrep : Replay orig (s.learnedUnit l).proof ([s.ext l] :: db) := .add h1 (Or.inl h4)
  have hs : Struct orig (s.learnedUnit l) := h.inv.struct.withUnit hv hl hrem
    (lines_snoc h.inv.struct.lines (h.inv.struct.line hl')) ⟨_, hrep, hcov⟩
  have hsat : ∀ σ, SatFormula σ (full s E) → SatFormula σ (full (s.learnedUnit l) E) := by
    rintro σ hσ c (hc | hc)
    · rcases formula_learnedUnit.1 hc with rfl | hc
      · exact hr.entails σ hσ
      · exact hσ c (Or.inl hc)
    · exact hσ c (Or.inr hc)
  have hfol := full_step (s' := s.learnedUnit l) h.follow rfl
    (fun σ hσ c hc => hσ c (irr_learnedUnit.2 (Or.inr hc))) hsat
  exact ⟨⟨hs, h.inv.hist.learnedUnit h.inv.struct h.inv.struct.irr_range hs.irr_range fun σ hσ c hc =>
    hσ c (irr_learnedUnit.2 (Or.inr hc)), h.inv.witness, implied_of_full hfol⟩, h.range, ⟨_, hrep, hcop, hcov.empty⟩,
    fun σ hσ => hsat σ (h.models σ hσ), hfol, h.unsat⟩

theorem InvE.learnedEmpty (h : InvE orig F0 E s) (hr : RUP (full s E) []) : InvE orig F0 E s.learnedEmpty := by
  obtain ⟨db, h1, h2, h3⟩ := h.proof
  have h4 := h.rup h2 (by simp) hr
  have hrep : Replay orig s.learnedEmpty.proof ([] :: db) := .add h1 (Or.inl h4)
  have hcop : ∀ X, copiesE s E X ≤ ([] :: db).countP (sameLits X) := by
    intro X
    rw [List.countP_cons]
    exact Nat.le_trans (h2 X) (Nat.le_add_right _ _)
  refine ⟨⟨?_, h.inv.hist, h.inv.witness, h.inv.implied⟩, h.range, ⟨_, hrep, hcop, fun _ => by simp⟩, h.models, h.follow, ?_⟩
  · exact { h.inv.struct with
      lines := lines_snoc h.inv.struct.lines (h.inv.struct.line (by simp))
      proof := ⟨_, hrep, fun X => by have := hcop X; unfold copiesE at this; exact Nat.le_trans (Nat.le_add_right _ _) this,
        fun _ => by simp⟩ }
  · intro _ σ hσ
    exact not_satClause_nil σ (hr.entails σ (h.models σ hσ))

/-! ## Clauses -/

theorem Struct.withClause (h : Struct orig s) {c : List Nat}
    {red : Bool} (hc : ∀ l ∈ c, s.InRange l) (hn : c.Nodup) (ht : ∀ l ∈ c, Spec.neg l ∉ c)
    (hsz : 2 ≤ c.length) (hrem : (red = false ∨ c.length = 2) → ∀ l ∈ c, s.removed (l / 2) = false)
    (hp : ∃ db, Replay orig (s.newClause c red).proof db ∧ Covers (s.newClause c red) db) : Struct orig (s.newClause c red) where
  neg := h.neg
  range := h.range
  trail := h.trail
  nonzero := h.nonzero
  inj := h.inj
  imported := h.imported
  back := h.back
  clause := by
    intro r
    rw [clause_new]
    split
    · exact fun _ => hc
    · exact h.clause r
  unit := h.unit
  nodup := by
    intro r
    rw [clause_new]
    split
    · exact fun _ => hn
    · exact h.nodup r
  taut := by
    intro r
    rw [clause_new]
    split
    · exact fun _ => ht
    · exact h.taut r
  size := by
    intro r
    rw [clause_new]
    split
    · exact fun _ => hsz
    · exact h.size r
  removed := by
    intro r
    rw [clause_new]
    split
    · intro _ h2
      apply hrem
      cases red
      · exact Or.inl rfl
      · simpa using h2
    · exact h.removed r
  bound := h.bound
  given := h.given
  lines := lines_snoc h.lines (h.line hc)
  proof := hp

theorem InvE.newClause (h : InvE orig F0 E s) {c : List Nat}
    {red : Bool} (hc : ∀ l ∈ c, s.InRange l) (hn : c.Nodup) (ht : ∀ l ∈ c, Spec.neg l ∉ c)
    (hsz : 2 ≤ c.length) (hrem : (red = false ∨ c.length = 2) → ∀ l ∈ c, s.removed (l / 2) = false)
    (hr : RUP (full s E) c) : InvE orig F0 E (s.newClause c red) := by
  obtain ⟨db, h1, h2, h3⟩ := h.proof
  have h4 := h.rup h2 hc hr
  have hrep : Replay orig (s.newClause c red).proof (c.map s.ext :: db) := .add h1 (Or.inl h4)
  have hcop : ∀ X, copiesE (s.newClause c red) E X ≤ (c.map s.ext :: db).countP (sameLits X) := by
    intro X
    unfold copiesE
    rw [copies_new, List.countP_cons]
    have h5 := h2 X
    unfold copiesE at h5
    have e : List.countP (fun c_1 => sameLits X (List.map (s.newClause c red).ext c_1)) E =
      List.countP (fun c => sameLits X (List.map s.ext c)) E := rfl
    rw [e]
    omega
  have hcov : Covers (s.newClause c red) (c.map s.ext :: db) :=
    ⟨fun X => Nat.le_trans (Nat.le_add_right _ _) (hcop X), fun hi => List.mem_cons_of_mem _ (h3 hi)⟩
  have hs := Struct.withClause h.inv.struct hc hn ht hsz hrem ⟨_, hrep, hcov⟩
  have hsat : ∀ σ, SatFormula σ (full s E) → SatFormula σ (full (s.newClause c red) E) := by
    rintro σ hσ d (hd | hd)
    · rcases formula_new.1 hd with rfl | hd
      · exact hr.entails σ hσ
      · exact hσ d (Or.inl hd)
    · exact hσ d (Or.inr hd)
  have hfol := full_step (s' := s.newClause c red) h.follow rfl (fun σ hσ d hd => hσ d (irr_new.2 (Or.inr hd))) hsat
  exact ⟨⟨hs, State.Hist.restrict hs h.inv.hist.newClause h.inv.struct.irr_range hs.irr_range
    fun σ hσ d hd => hσ d (irr_new.2 (Or.inr hd)), h.inv.witness, implied_of_full hfol⟩, h.range, ⟨_, hrep, hcop, hcov.empty⟩,
    fun σ hσ => hsat σ (h.models σ hσ), hfol, h.unsat⟩

theorem InvE.markGarbage (h : InvE orig F0 E s) {r : Nat} (hg : (s.clause r).garbage = false)
    (hi : (s.clause r).redundant = true ∨ Entails (s.markGarbage r).irr (s.clause r).lits) :
    InvE orig F0 E (s.markGarbage r) := by
  obtain ⟨db, h1, h2, h3⟩ := h.proof
  refine ⟨h.inv.markGarbage hg hi, h.range, ⟨_, .delete h1, ?_, ?_⟩, ?_, ?_, h.unsat⟩
  · intro X
    have a := copies_garbage hg X
    have b := Core.countP_delete db ((s.clause r).lits.map s.ext) X
    have c := h2 X
    unfold copiesE at c ⊢
    have e : List.countP (fun c_1 => sameLits X (List.map (s.markGarbage r).ext c_1)) E =
      List.countP (fun c => sameLits X (List.map s.ext c)) E := rfl
    rw [e]
    omega
  · intro hi
    refine mem_deleteClause_of_not (h3 hi) fun hs => ?_
    have := h.inv.struct.size r hg
    cases hl : (s.clause r).lits with
    | nil => rw [hl] at this; simp at this
    | cons a b =>
      rw [hl] at hs
      have := (hs (s.ext a)).1 (by simp)
      cases this
  · rintro σ hσ d (hd | hd)
    · exact h.models σ hσ d (Or.inl (formula_of_garbage (clause_lt hg) hd))
    · exact h.models σ hσ d (Or.inr hd)
  · refine full_step h.follow rfl (sat_of_garbage hg hi) ?_
    rintro τ hτ d (hd | hd)
    · exact hτ d (Or.inl (formula_of_garbage (clause_lt hg) hd))
    · exact hτ d (Or.inr hd)

/-! ## Lines of the proof -/

theorem InvE.emitAdd (h : InvE orig F0 E s) {c : List Nat} (hc : ∀ l ∈ c, s.InRange l) (hr : RUP (full s E) c) :
    InvE orig F0 (c :: E) (s.emitAdd c) := by
  obtain ⟨db, h1, h2, h3⟩ := h.proof
  have h4 := h.rup h2 hc hr
  have hrep : Replay orig (s.emitAdd c).proof (c.map s.ext :: db) := .add h1 (Or.inl h4)
  have hcop : ∀ X, copiesE s (c :: E) X ≤ (c.map s.ext :: db).countP (sameLits X) := by
    intro X
    have h5 := h2 X
    unfold copiesE at h5 ⊢
    rw [List.countP_cons, List.countP_cons]
    omega
  have hcov : Covers s (c.map s.ext :: db) :=
    ⟨fun X => Nat.le_trans (Nat.le_add_right _ _) (hcop X), fun hi => List.mem_cons_of_mem _ (h3 hi)⟩
  refine ⟨Inv.reproof h.inv (lines_snoc h.inv.struct.lines (h.inv.struct.line hc)) ⟨_, hrep, hcov⟩, ?_, ⟨_, hrep, hcop, hcov.empty⟩, ?_, ?_, h.unsat⟩
  · intro d hd
    rcases List.mem_cons.1 hd with rfl | hd
    · exact hc
    · exact h.range d hd
  · rintro σ hσ d (hd | hd)
    · exact h.models σ hσ d (Or.inl hd)
    · rcases List.mem_cons.1 hd with rfl | hd
      · exact hr.entails σ (h.models σ hσ)
      · exact h.models σ hσ d (Or.inr hd)
  · refine full_step h.follow rfl (fun _ h => h) ?_
    rintro τ hτ d (hd | hd)
    · exact hτ d (Or.inl hd)
    · rcases List.mem_cons.1 hd with rfl | hd
      · exact hr.entails τ hτ
      · exact hτ d (Or.inr hd)

theorem InvE.perm {E' : List (List Nat)} (h : InvE orig F0 E s) (hp : E.Perm E') : InvE orig F0 E' s := by
  obtain ⟨db, h1, h2, h3⟩ := h.proof
  refine ⟨h.inv, fun c hc => h.range c (hp.mem_iff.2 hc), ⟨db, h1, fun X => ?_, h3⟩, ?_, ?_, h.unsat⟩
  · have := h2 X
    unfold copiesE at this ⊢
    rw [← hp.countP_eq]; exact this
  · rintro σ hσ d (hd | hd)
    · exact h.models σ hσ d (Or.inl hd)
    · exact h.models σ hσ d (Or.inr (hp.mem_iff.2 hd))
  · refine full_step h.follow rfl (fun _ h => h) ?_
    rintro τ hτ d (hd | hd)
    · exact hτ d (Or.inl hd)
    · exact hτ d (Or.inr (hp.mem_iff.2 hd))

theorem InvE.emitDelete {c : List Nat} (h : InvE orig F0 (c :: E) s) (hi : s.inconsistent = false) :
    InvE orig F0 E (s.emitDelete c) := by
  obtain ⟨db, h1, h2, h3⟩ := h.proof
  have hrep : Replay orig (s.emitDelete c).proof (deleteClause db (c.map s.ext)) := .delete h1
  have hcop : ∀ X, copiesE s E X ≤ (deleteClause db (c.map s.ext)).countP (sameLits X) := by
    intro X
    have h5 := h2 X
    have b := Core.countP_delete db (c.map s.ext) X
    unfold copiesE at h5 ⊢
    rw [List.countP_cons] at h5
    omega
  have hcov : Covers s (deleteClause db (c.map s.ext)) :=
    ⟨fun X => Nat.le_trans (Nat.le_add_right _ _) (hcop X), fun h => by rw [hi] at h; cases h⟩
  refine ⟨Inv.reproof h.inv (lines_snoc h.inv.struct.lines (h.inv.struct.line (h.range c (by simp)))) ⟨_, hrep, hcov⟩,
    fun d hd => h.range d (List.mem_cons_of_mem _ hd), ⟨_, hrep, hcop, hcov.empty⟩, ?_, ?_, h.unsat⟩
  · rintro σ hσ d (hd | hd)
    · exact h.models σ hσ d (Or.inl hd)
    · exact h.models σ hσ d (Or.inr (List.mem_cons_of_mem _ hd))
  · refine full_step h.follow rfl (fun _ h => h) ?_
    rintro τ hτ d (hd | hd)
    · exact hτ d (Or.inl hd)
    · exact hτ d (Or.inr (List.mem_cons_of_mem _ hd))

theorem emitDeletes_eq : ∀ (cs : List (List Nat)) (s : State), ∃ p, emitDeletes s cs = { s with proof := p }
  | [], s => ⟨s.proof, rfl⟩
  | c :: cs, s => by
    obtain ⟨p, hp⟩ := emitDeletes_eq cs (s.emitDelete c)
    exact ⟨p, hp⟩

theorem emitAdds_eq : ∀ (cs : List (List Nat)) (s : State), ∃ p, emitAdds s cs = { s with proof := p }
  | [], s => ⟨s.proof, rfl⟩
  | c :: cs, s => by
    obtain ⟨p, hp⟩ := emitAdds_eq cs (s.emitAdd c)
    exact ⟨p, hp⟩

theorem InvE.emitDeletes : ∀ (cs : List (List Nat)) {s : State}, InvE orig F0 (cs ++ E) s → s.inconsistent = false →
    InvE orig F0 E (emitDeletes s cs)
  | [], s, h, _ => h
  | c :: cs, s, h, hi => InvE.emitDeletes cs (InvE.emitDelete h hi) hi

theorem InvE.drop {c : List Nat} (h : InvE orig F0 (c :: E) s) : InvE orig F0 E s := by
  obtain ⟨db, h1, h2, h3⟩ := h.proof
  refine ⟨h.inv, fun d hd => h.range d (List.mem_cons_of_mem _ hd), ⟨db, h1, fun X => ?_, h3⟩, ?_, ?_, h.unsat⟩
  · have h5 := h2 X
    unfold copiesE at h5 ⊢
    rw [List.countP_cons] at h5
    omega
  · rintro σ hσ d (hd | hd)
    · exact h.models σ hσ d (Or.inl hd)
    · exact h.models σ hσ d (Or.inr (List.mem_cons_of_mem _ hd))
  · refine full_step h.follow rfl (fun _ h => h) ?_
    rintro τ hτ d (hd | hd)
    · exact hτ d (Or.inl hd)
    · exact hτ d (Or.inr (List.mem_cons_of_mem _ hd))

theorem InvE.drops : ∀ (cs : List (List Nat)), InvE orig F0 (cs ++ E) s → InvE orig F0 E s
  | [], h => h
  | _ :: cs, h => InvE.drops cs (InvE.drop h)

/-! ## Propagation -/

theorem InvE.visit (h : InvE orig F0 E s) (r : Nat) : InvE orig F0 E (s.visit r) := by
  unfold State.visit
  by_cases c1 : ((s.clause r).garbage || (s.clause r).lits.any (fun l => decide (s.values l > 0))) = true
  · rw [if_pos c1]; exact h
  · rw [if_neg c1]
    simp only [Bool.or_eq_true, not_or, List.any_eq_true, decide_eq_true_eq, not_exists, not_and] at c1
    obtain ⟨hg, hle⟩ := c1
    have hg : (s.clause r).garbage = false := by simpa using hg
    have hmem : ∀ m : Nat, m ∈ (s.clause r).lits.filter (fun l => decide (s.values l = 0)) ↔
        m ∈ (s.clause r).lits ∧ s.values m = 0 := by
      intro m; rw [List.mem_filter]; simp
    generalize (s.clause r).lits.filter (fun l => decide (s.values l = 0)) = c at hmem ⊢
    have hrup : RUP s.formula c := rup_of (Struct.clause_formula hg) fun m hm => by
      have h1 := hle m hm
      by_cases e : s.values m = 0
      · exact Or.inl ((hmem m).2 ⟨hm, e⟩)
      · exact Or.inr (h.inv.struct.neg_unit (by omega))
    have hrup : RUP (full s E) c := hrup.mono_sub fun _ h => Or.inl h
    match c, hmem, hrup with
    | [], _, hrup => exact h.learnedEmpty hrup
    | [u], hmem, hrup =>
      dsimp only
      obtain ⟨u1, u2⟩ := (hmem u).1 (by simp)
      by_cases c2 : s.removed (u / 2) = true
      · rw [if_pos c2]; exact h
      · rw [if_neg c2]
        exact h.learnedUnit u2 (h.inv.struct.clause r hg u u1) (by simpa using c2) hrup
    | _ :: _ :: _, _, _ => exact h

theorem InvE.visits {w : Nat → Bool} : ∀ (rs : List Nat) {s : State}, InvE orig F0 E s → InvE orig F0 E (s.visits w rs)
  | [], s, h => h
  | r :: rs, s, h => by
    unfold State.visits
    split
    · exact h
    · split
      · exact InvE.visits rs (h.visit r)
      · exact InvE.visits rs h

theorem InvE.complete {w : Nat → Bool} : ∀ (fuel : Nat) {s : State}, InvE orig F0 E s → InvE orig F0 E (s.complete w fuel)
  | 0, s, h => h
  | fuel + 1, s, h => by
    unfold State.complete
    split
    · exact h
    · split
      · exact h
      · exact InvE.complete fuel (h.visit _)

theorem InvE.propagateRoot (h : InvE orig F0 E s) (w : Nat → Bool) (order : List Nat) :
    InvE orig F0 E (s.propagateRoot w order) := by
  unfold State.propagateRoot
  exact InvE.complete _ (InvE.visits order h)

end Verif.Congruence
