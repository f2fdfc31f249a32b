import Verif.Model.Simp.State
import Verif.Proofs.ExtendHistory
import Verif.Proofs.Core.Edit
import Verif.Proofs.External

/-!
# Invariant of the simplification techniques
-/

namespace Verif.Simp

open Verif.Spec Verif.Model Verif.Model.Extend

/-! ## Clauses of the solver -/

theorem State.irr_formula {s : State} {c : List Nat} (h : s.irr c) : s.formula c := by
  rcases h with h | ⟨r, h1, _, h3⟩
  · exact Or.inl h
  · exact Or.inr ⟨r, h1, h3⟩

/-- A formula with renamed literals. -/
def mapF (f : Nat → Nat) (F : Formula) : Formula := fun c => ∃ d, F d ∧ c = d.map f

/-- Number of clauses and units which look like `X` from outside. -/
def State.copies (s : State) (X : List Nat) : Nat :=
  (s.arena.countP fun c => !c.garbage && sameLits X (c.lits.map s.ext)) +
    s.trail.countP fun l => sameLits X [s.ext l]

/-- The checker's clauses cover those of the solver. -/
structure Covers (s : State) (db : List (List Nat)) : Prop where
  copies : ∀ X, s.copies X ≤ db.countP (sameLits X)
  empty : s.inconsistent = true → [] ∈ db

/-- A literal of a variable of the solver. -/
def State.InRange (s : State) (l : Nat) : Prop := l / 2 < s.exports.length

/-- The literals of a proof line. -/
def lineLits : Line → List Nat
  | .add c => c
  | .delete c => c

/-- Everything but the history. -/
structure Struct (orig : List (List Nat)) (s : State) : Prop where
  neg : ∀ l, s.values (neg l) = - s.values l
  range : ∀ l, s.values l = 1 ∨ s.values l = 0 ∨ s.values l = -1
  trail : ∀ l, l ∈ s.trail ↔ 0 < s.values l
  /-- exported variables are different ones -/
  nonzero : ∀ v, v < s.exports.length → s.exports.getD v 0 ≠ 0
  inj : ∀ v w, v < s.exports.length → w < s.exports.length →
    (s.exports.getD v 0).natAbs = (s.exports.getD w 0).natAbs → v = w
  imported : ∀ v, v < s.exports.length → s.removed v = false →
    ∃ i, s.imports[(s.exports.getD v 0).natAbs]? = some i ∧ i.imported = true ∧ i.eliminated = false
  /-- importing and exporting -/
  back : ∀ (u : Nat) (i : Import), s.imports[u]? = some i → i.imported = true →
    i.eliminated = false → s.InRange i.lit ∧ s.exportLiteral i.lit = u
  /-- literals in clauses -/
  clause : ∀ r, (s.clause r).garbage = false → ∀ l ∈ (s.clause r).lits, s.InRange l
  unit : ∀ l ∈ s.trail, s.InRange l ∧ s.removed (l / 2) = false
  nodup : ∀ r, (s.clause r).garbage = false → (s.clause r).lits.Nodup
  taut : ∀ r, (s.clause r).garbage = false → ∀ l ∈ (s.clause r).lits, Spec.neg l ∉ (s.clause r).lits
  size : ∀ r, (s.clause r).garbage = false → 2 ≤ (s.clause r).lits.length
  removed : ∀ r, (s.clause r).garbage = false → (s.clause r).redundant = false →
    ∀ l ∈ (s.clause r).lits, s.removed (l / 2) = false
  /-- external variables are known -/
  bound : ∀ v, v < s.exports.length → (s.exports.getD v 0).natAbs < s.imports.length
  given : ∀ c ∈ orig, ∀ x ∈ c, x / 2 < s.imports.length
  lines : ∀ ln ∈ s.proof, ∀ x ∈ lineLits ln, x / 2 < s.imports.length
  proof : ∃ db, Replay orig s.proof db ∧ Covers s db

/-- The history up to the clauses `F`. -/
def State.Hist (s : State) (orig : List (List Nat)) (F : Formula) : Prop :=
  History (ofList orig) s.toState (mapF s.ext F)

/-- Witnesses are eliminated, or about to be.  The other literals on the extension stack are
eliminated or in use. -/
def State.Witnesses (s : State) (x : Option Nat) : Prop :=
  ∀ e ∈ s.extend, ∀ i, s.imports[e.lit.natAbs]? = some i →
    i.eliminated = true ∨ (e.blocking = false ∧ i.imported = true ∧ s.removed (i.lit / 2) = false) ∨
      ∃ v ∈ x, v < s.exports.length ∧ e.lit.natAbs = (s.exports.getD v 0).natAbs

/-- The redundant clauses follow from the irredundant ones, up to the values of variables which are eliminated. -/
def State.Implied (s : State) (x : Option Nat) : Prop :=
  ∀ σ, SatFormula σ s.irr → ∃ τ, SatFormula τ s.formula ∧ ∀ v, s.removed v = false → x ≠ some v → τ v = σ v

theorem State.Implied.step {s s' : State} {x : Option Nat} (h : s.Implied x)
    (hrem : ∀ v, s'.removed v = false → s.removed v = false)
    (hi : ∀ σ, SatFormula σ s'.irr → SatFormula σ s.irr)
    (hf : ∀ σ τ, SatFormula σ s'.irr → SatFormula τ s.formula →
      (∀ v, s.removed v = false → x ≠ some v → τ v = σ v) → SatFormula τ s'.formula) : s'.Implied x := by
  intro σ hσ
  obtain ⟨τ, h1, h2⟩ := h σ (hi σ hσ)
  exact ⟨τ, hf σ τ hσ h1 h2, fun v hv => h2 v (hrem v hv)⟩

/-- The invariant between steps, while the variable `x` gets eliminated. -/
structure Inv (orig : List (List Nat)) (x : Option Nat) (s : State) : Prop where
  struct : Struct orig s
  hist : s.Hist orig s.irr
  witness : s.Witnesses x
  implied : s.Implied x

theorem Inv.start {orig : List (List Nat)} {s : State} (h : Inv orig none s) (v : Nat) :
    Inv orig (some v) s := by
  refine ⟨h.struct, h.hist, fun e he i hi => ?_, fun σ hσ => ?_⟩
  · rcases h.witness e he i hi with h1 | h1 | ⟨v, h1, _⟩
    · exact Or.inl h1
    · exact Or.inr (Or.inl h1)
    · cases h1
  · obtain ⟨τ, h1, h2⟩ := h.implied σ hσ
    exact ⟨τ, h1, fun u hu _ => h2 u hu (by simp)⟩

/-! ## Exported literals -/

theorem code_neg {e : Int} (h : e ≠ 0) : code (- e) = Spec.neg (code e) := by
  unfold code Spec.neg
  split <;> split <;> split <;> omega

theorem code_inj {a b : Int} (ha : a ≠ 0) (hb : b ≠ 0) (h : code a = code b) : a = b := by
  unfold code at h
  split at h <;> split at h <;> omega

theorem exportLiteral_abs (s : State) (l : Nat) :
    (s.exportLiteral l).natAbs = (s.exports.getD (l / 2) 0).natAbs := by
  unfold Extend.State.exportLiteral
  simp only
  split <;> omega

theorem ext_div (s : State) (l : Nat) : s.ext l / 2 = (s.exports.getD (l / 2) 0).natAbs := by
  unfold State.ext
  rw [code_div, exportLiteral_abs]

theorem exportLiteral_ne {s : State} (h : ∀ v, v < s.exports.length → s.exports.getD v 0 ≠ 0)
    {l : Nat} (hl : s.InRange l) : s.exportLiteral l ≠ 0 := by
  have := h (l / 2) hl
  have h2 := exportLiteral_abs s l
  omega

theorem ext_neg {s : State} (h : ∀ v, v < s.exports.length → s.exports.getD v 0 ≠ 0) {l : Nat}
    (hl : s.InRange l) : s.ext (Spec.neg l) = Spec.neg (s.ext l) := by
  have hne := exportLiteral_ne h hl
  have : s.exportLiteral (Spec.neg l) = - s.exportLiteral l := by
    unfold Extend.State.exportLiteral
    simp only [neg_div]
    unfold Spec.neg
    split <;> split <;> split <;> omega
  unfold State.ext
  rw [this, code_neg hne]

theorem Struct.renaming {orig : List (List Nat)} {s : State} (h : Struct orig s) :
    Renaming s.exports.length s.ext where
  neg := fun l hl => ext_neg h.nonzero hl
  inj := by
    intro l m hl hm e
    have hd : l / 2 = m / 2 := by
      apply h.inj _ _ hl hm
      rw [← ext_div, ← ext_div, e]
    rcases eq_or_eq_neg hd with h1 | h1
    · exact h1
    · rw [h1, ext_neg h.nonzero hm] at e
      exact absurd e (neg_ne _)

theorem inRange_neg {s : State} {l : Nat} : s.InRange (Spec.neg l) ↔ s.InRange l := by
  unfold State.InRange; rw [neg_div]

/-- The internal view of an assignment of external variables. -/
noncomputable def pull (s : State) (σ : Assignment) : Assignment := fun v =>
  @decide (litTrue σ (s.ext (2 * v))) (Classical.propDecidable _)

theorem litTrue_two (σ : Assignment) (v : Nat) : litTrue σ (2 * v) ↔ σ v = true := by
  unfold litTrue
  rw [Nat.mul_div_cancel_left v (by omega)]
  simp

theorem pull_true {s : State} (h : ∀ v, v < s.exports.length → s.exports.getD v 0 ≠ 0)
    {σ : Assignment} {l : Nat} (hl : s.InRange l) :
    litTrue (pull s σ) l ↔ litTrue σ (s.ext l) := by
  have key : litTrue (pull s σ) (2 * (l / 2)) ↔ litTrue σ (s.ext (2 * (l / 2))) := by
    rw [litTrue_two]
    unfold pull
    simp
  rcases Nat.mod_two_eq_zero_or_one l with h2 | h2
  · rw [show l = 2 * (l / 2) by omega]; exact key
  · have e : l = Spec.neg (2 * (l / 2)) := by unfold Spec.neg; split <;> omega
    have hr : s.InRange (2 * (l / 2)) := by
      unfold State.InRange at hl ⊢
      rw [Nat.mul_div_cancel_left _ (by omega)]; exact hl
    rw [e, litTrue_neg, ext_neg h hr, litTrue_neg, key]

theorem pull_clause {s : State} (h : ∀ v, v < s.exports.length → s.exports.getD v 0 ≠ 0)
    {σ : Assignment} {c : List Nat} (hc : ∀ l ∈ c, s.InRange l) :
    SatClause (pull s σ) c ↔ SatClause σ (c.map s.ext) := by
  constructor
  · rintro ⟨l, h1, h2⟩
    exact ⟨s.ext l, List.mem_map_of_mem h1, (pull_true h (hc l h1)).1 h2⟩
  · rintro ⟨x, h1, h2⟩
    obtain ⟨l, hl, rfl⟩ := List.mem_map.1 h1
    exact ⟨l, hl, (pull_true h (hc l hl)).2 h2⟩

/-- All literals of a formula are in range. -/
def FRange (s : State) (F : Formula) : Prop := ∀ c, F c → ∀ l ∈ c, s.InRange l

theorem pull_formula {s : State} (h : ∀ v, v < s.exports.length → s.exports.getD v 0 ≠ 0)
    {σ : Assignment} {F : Formula} (hF : FRange s F) :
    SatFormula (pull s σ) F ↔ SatFormula σ (mapF s.ext F) := by
  constructor
  · rintro hs c ⟨d, hd, rfl⟩
    exact (pull_clause h (hF d hd)).1 (hs d hd)
  · intro hs c hc
    exact (pull_clause h (hF c hc)).2 (hs _ ⟨c, hc, rfl⟩)

/-- Consequences between formulas seen from outside. -/
theorem map_implies {orig : List (List Nat)} {s : State} (h : Struct orig s) {F F' : Formula}
    (hF : FRange s F) (hF' : FRange s F') (hi : ∀ σ, SatFormula σ F' → SatFormula σ F) :
    ∀ σ, SatFormula σ (mapF s.ext F') → SatFormula σ (mapF s.ext F) := by
  intro σ hσ
  rw [← pull_formula h.nonzero hF]
  exact hi _ ((pull_formula h.nonzero hF').2 hσ)

theorem assign_eq_flip (σ : Assignment) (l : Nat) : Spec.assign σ l = flip σ l := rfl

theorem litTrue_congr {σ τ : Assignment} {l : Nat} (h : σ (l / 2) = τ (l / 2)) :
    litTrue σ l ↔ litTrue τ l := by
  unfold litTrue; rw [h]

/-- Setting a literal inside and outside. -/
theorem pull_assign {orig : List (List Nat)} {s : State} (h : Struct orig s) {σ : Assignment}
    {w l : Nat} (hw : s.InRange w) (hl : s.InRange l) :
    litTrue (pull s (Spec.assign σ (s.ext w))) l ↔ litTrue (Spec.assign (pull s σ) w) l := by
  rw [pull_true h.nonzero hl, assign_eq_flip, assign_eq_flip]
  by_cases e : l / 2 = w / 2
  · rcases eq_or_eq_neg e with rfl | rfl
    · exact iff_of_true (flip_true _ _) (flip_true _ _)
    · rw [ext_neg h.nonzero hw, litTrue_neg, litTrue_neg]
      exact iff_of_false (fun h => h (flip_true _ _)) (fun h => h (flip_true _ _))
  · have e' : s.ext l / 2 ≠ s.ext w / 2 := by
      rw [ext_div, ext_div]
      exact fun hh => e (h.inj _ _ hl hw hh)
    rw [flip_other e, flip_other e', pull_true h.nonzero hl]

theorem pull_assign_formula {orig : List (List Nat)} {s : State} (h : Struct orig s)
    {σ : Assignment} {w : Nat} (hw : s.InRange w) {F : Formula} (hF : FRange s F) :
    SatFormula (pull s (Spec.assign σ (s.ext w))) F ↔
      SatFormula (Spec.assign (pull s σ) w) F := by
  constructor
  · intro hs c hc
    obtain ⟨l, h1, h2⟩ := hs c hc
    exact ⟨l, h1, (pull_assign h hw (hF c hc l h1)).1 h2⟩
  · intro hs c hc
    obtain ⟨l, h1, h2⟩ := hs c hc
    exact ⟨l, h1, (pull_assign h hw (hF c hc l h1)).2 h2⟩

/-- Redundancy seen from outside. -/
theorem map_redundant {orig : List (List Nat)} {s : State} (h : Struct orig s) {F : Formula}
    (hF : FRange s F) {c : List Nat} (hc : ∀ l ∈ c, s.InRange l) {w : Nat} (hw : s.InRange w)
    (hr : Redundant F c w) : Redundant (mapF s.ext F) (c.map s.ext) (s.ext w) := by
  intro σ hσ hnc
  rw [← pull_formula h.nonzero hF, pull_assign_formula h hw hF]
  refine hr _ ((pull_formula h.nonzero hF).2 hσ) ?_
  rwa [pull_clause h.nonzero hc]

/-! ## Clauses in the arena -/

theorem clause_lt {s : State} {r : Nat} (h : (s.clause r).garbage = false) :
    r < s.arena.length := by
  by_cases hr : r < s.arena.length
  · exact hr
  · unfold State.clause at h
    rw [List.getD_eq_getElem?_getD, List.getElem?_eq_none (by omega)] at h
    cases h

theorem clause_get {s : State} {r : Nat} (h : r < s.arena.length) :
    s.arena[r]? = some (s.clause r) := by
  unfold State.clause
  rw [List.getD_eq_getElem?_getD, List.getElem?_eq_getElem h]; rfl

theorem clause_mem {s : State} {r : Nat} (h : r < s.arena.length) : s.clause r ∈ s.arena :=
  List.mem_iff_getElem?.2 ⟨r, clause_get h⟩

theorem clause_set {s s' : State} {r : Nat} {c : Clause} (h : s'.arena = s.arena.set r c)
    (hr : r < s.arena.length) (k : Nat) : s'.clause k = if k = r then c else s.clause k := by
  unfold State.clause
  rw [h, List.getD_eq_getElem?_getD, List.getD_eq_getElem?_getD, List.getElem?_set]
  by_cases hk : k = r
  · subst hk; simp [hr]
  · have : ¬ r = k := fun hh => hk hh.symm
    simp [this, hk]

theorem clause_append {s s' : State} {c : Clause} (h : s'.arena = s.arena ++ [c]) (k : Nat) :
    s'.clause k = if k = s.arena.length then c else s.clause k := by
  unfold State.clause
  rw [h, List.getD_eq_getElem?_getD, List.getD_eq_getElem?_getD]
  by_cases hk : k < s.arena.length
  · rw [List.getElem?_append_left hk, if_neg (by omega)]
  · by_cases hk' : k = s.arena.length
    · subst hk'; simp
    · rw [if_neg hk', List.getElem?_append_right (by omega), List.getElem?_eq_none (by simp; omega),
        List.getElem?_eq_none (by omega)]

theorem Covers.mem {s : State} {db : List (List Nat)} (h : Covers s db) {c : List Nat}
    (hc : s.formula c) : ∃ d, ofList db d ∧ SameLits (c.map s.ext) d := by
  have h1 : 0 < s.copies (c.map s.ext) := by
    unfold State.copies
    rcases hc with ⟨l, hl, rfl⟩ | ⟨r, hr, rfl⟩
    · apply Nat.add_pos_right
      rw [List.countP_pos_iff]
      exact ⟨l, hl, sameLits_iff.2 (SameLits.refl _)⟩
    · apply Nat.add_pos_left
      rw [List.countP_pos_iff]
      exact ⟨_, clause_mem (clause_lt hr), by simp [hr, sameLits_iff.2 (SameLits.refl _)]⟩
  have h2 := Nat.lt_of_lt_of_le h1 (h.copies _)
  rw [List.countP_pos_iff] at h2
  obtain ⟨d, hd, hs⟩ := h2
  exact ⟨d, hd, sameLits_iff.1 hs⟩

theorem Struct.formula_range {orig : List (List Nat)} {s : State} (h : Struct orig s) :
    FRange s s.formula := by
  rintro c (⟨l, hl, rfl⟩ | ⟨r, hr, rfl⟩) m hm
  · rw [List.mem_singleton.1 hm]; exact (h.unit l hl).1
  · exact h.clause r hr m hm

theorem Struct.irr_range {orig : List (List Nat)} {s : State} (h : Struct orig s) :
    FRange s s.irr := fun c hc => h.formula_range c (State.irr_formula hc)

/-- RUP inside means RUP for the checker. -/
theorem Struct.rup {orig : List (List Nat)} {s : State} (h : Struct orig s) {db : List (List Nat)}
    (hdb : Covers s db) {c : List Nat} (hc : ∀ l ∈ c, s.InRange l) (hr : RUP s.formula c) :
    RUP (ofList db) (c.map s.ext) := by
  have h1 : RUP (mapF s.ext s.formula) (c.map s.ext) :=
    hr.map h.renaming (fun d hd => ⟨⟨d, hd, rfl⟩, h.formula_range d hd⟩) hc
  refine h1.mono ?_ fun _ h => h
  rintro d ⟨d, hd, rfl⟩
  exact hdb.mem hd

theorem Struct.line {orig : List (List Nat)} {s : State} (h : Struct orig s) {c : List Nat} (hc : ∀ l ∈ c, s.InRange l) :
    ∀ x ∈ c.map s.ext, x / 2 < s.imports.length := by
  intro x hx
  obtain ⟨l, hl, rfl⟩ := List.mem_map.1 hx
  rw [ext_div]
  exact h.bound _ (hc l hl)

theorem lines_snoc {n : Nat} {p : List Line} {ln : Line} (h : ∀ ln ∈ p, ∀ x ∈ lineLits ln, x / 2 < n)
    (hl : ∀ x ∈ lineLits ln, x / 2 < n) : ∀ l ∈ p ++ [ln], ∀ x ∈ lineLits l, x / 2 < n := by
  intro l hm
  rcases List.mem_append.1 hm with hm | hm
  · exact h l hm
  · rw [List.mem_singleton.1 hm]; exact hl

/-- The checker knows no other variables. -/
theorem replay_bound {orig db : List (List Nat)} {p : List Line} {n : Nat} (hr : Replay orig p db)
    (ho : ∀ c ∈ orig, ∀ x ∈ c, x / 2 < n) (hl : ∀ ln ∈ p, ∀ x ∈ lineLits ln, x / 2 < n) :
    ∀ c ∈ db, ∀ x ∈ c, x / 2 < n := by
  induction hr with
  | nil => exact ho
  | @add lines db c _ _ ih =>
    intro d hd
    rcases List.mem_cons.1 hd with rfl | hd
    · exact hl _ (List.mem_append.2 (Or.inr (List.mem_singleton.2 rfl)))
    · exact ih (fun ln h => hl ln (List.mem_append.2 (Or.inl h))) d hd
  | @delete lines db c _ ih =>
    intro d hd
    exact ih (fun ln h => hl ln (List.mem_append.2 (Or.inl h))) d (List.mem_of_mem_eraseP hd)

/-- Weaker formulas need less. -/
theorem State.Hist.restrict {orig : List (List Nat)} {s : State} (h : Struct orig s)
    {F F' : Formula} (hh : s.Hist orig F) (hF : FRange s F) (hF' : FRange s F')
    (hi : ∀ σ, SatFormula σ F' → SatFormula σ F) : s.Hist orig F' :=
  .change hh ⟨rfl, rfl, rfl, rfl, fun _ i h => ⟨i, h, id, fun _ => rfl⟩, fun _ _ h _ => h⟩
    (map_implies h hF hF' hi)

/-! ## Emitting lines -/

theorem replay_add {orig : List (List Nat)} {s : State} (h : Struct orig s) {c : List Nat}
    (hc : ∀ l ∈ c, s.InRange l) (hr : RUP s.formula c) :
    ∃ db, Replay orig (s.emitAdd c).proof (c.map s.ext :: db) ∧ Covers s db := by
  obtain ⟨db, h1, h2⟩ := h.proof
  exact ⟨db, .add h1 (Or.inl (h.rup h2 hc hr)), h2⟩

/-! ## Units -/

theorem ext_eq {s s' : State} (h : s'.exports = s.exports) : s'.ext = s.ext := by
  funext l
  unfold State.ext Extend.State.exportLiteral
  rw [h]

theorem Struct.withUnit {orig : List (List Nat)} {s : State} (h : Struct orig s) {l : Nat}
    (hv : s.values l = 0) (hl : s.InRange l) (hrem : s.removed (l / 2) = false) {p : List Line}
    (hln : ∀ ln ∈ p, ∀ x ∈ lineLits ln, x / 2 < s.imports.length)
    (hp : ∃ db, Replay orig p db ∧ Covers (s.learnedUnit l) db) :
    Struct orig { s.learnedUnit l with proof := p } where
  neg := by
    intro k
    show (if Spec.neg k = l then (1 : Int) else if Spec.neg k = Spec.neg l then -1 else s.values (Spec.neg k)) =
      - (if k = l then (1 : Int) else if k = Spec.neg l then -1 else s.values k)
    by_cases h1 : k = l
    · subst h1
      rw [if_neg (neg_ne k), if_pos rfl, if_pos rfl]
    · by_cases h2 : k = Spec.neg l
      · subst h2
        rw [neg_neg, if_pos rfl, if_neg (neg_ne l), if_pos rfl]; rfl
      · rw [if_neg h1, if_neg h2, if_neg (fun hh => h2 (neg_eq_iff.1 hh)),
          if_neg (fun hh => h1 (neg_inj hh)), h.neg]
  range := by
    intro k
    show (if k = l then (1 : Int) else if k = Spec.neg l then -1 else s.values k) = 1 ∨
      (if k = l then (1 : Int) else if k = Spec.neg l then -1 else s.values k) = 0 ∨
      (if k = l then (1 : Int) else if k = Spec.neg l then -1 else s.values k) = -1
    have := h.range k
    split
    · simp
    · split
      · simp
      · exact this
  trail := by
    intro k
    show k ∈ s.trail ++ [l] ↔ 0 < (if k = l then (1 : Int) else if k = Spec.neg l then -1 else s.values k)
    rw [List.mem_append, List.mem_singleton, h.trail]
    by_cases h1 : k = l
    · simp [h1]
    · by_cases h2 : k = Spec.neg l
      · subst h2
        rw [if_neg (neg_ne l), if_pos rfl, h.neg, hv]
        simp [neg_ne]
      · simp [h1, h2]
  nonzero := h.nonzero
  inj := h.inj
  imported := h.imported
  back := h.back
  clause := h.clause
  unit := by
    intro k hk
    rcases List.mem_append.1 (show k ∈ s.trail ++ [l] from hk) with hk | hk
    · exact h.unit k hk
    · rw [List.mem_singleton.1 hk]; exact ⟨hl, hrem⟩
  nodup := h.nodup
  taut := h.taut
  size := h.size
  removed := h.removed
  bound := h.bound
  given := h.given
  lines := hln
  proof := by
    obtain ⟨db, h1, h2⟩ := hp
    exact ⟨db, h1, h2.copies, h2.empty⟩

theorem Covers.unit {s : State} {db : List (List Nat)} (h2 : Covers s db) (l : Nat) :
    Covers (s.learnedUnit l) ([s.ext l] :: db) := by
  refine ⟨?_, ?_⟩
  · intro X
    have := h2.copies X
    show _ + List.countP _ (s.trail ++ [l]) ≤ _
    rw [List.countP_append, List.countP_cons, List.countP_cons]
    unfold State.copies at this
    have e : (if sameLits X [(s.learnedUnit l).ext l] = true then 1 else 0) =
      if sameLits X [s.ext l] = true then 1 else 0 := rfl
    rw [← e]
    have e1 : List.countP (fun c => !c.garbage && sameLits X (List.map (s.learnedUnit l).ext c.lits))
      (s.learnedUnit l).arena = List.countP (fun c => !c.garbage && sameLits X (List.map s.ext c.lits)) s.arena := rfl
    have e2 : List.countP (fun k => sameLits X [(s.learnedUnit l).ext k]) s.trail =
      List.countP (fun k => sameLits X [s.ext k]) s.trail := rfl
    rw [e1, e2, List.countP_nil]
    omega
  · intro hi
    exact List.mem_cons_of_mem _ (h2.empty hi)

theorem Struct.learnedUnit {orig : List (List Nat)} {s : State} (h : Struct orig s) {l : Nat}
    (hv : s.values l = 0) (hl : s.InRange l) (hrem : s.removed (l / 2) = false)
    (hr : RUP s.formula [l]) : Struct orig (s.learnedUnit l) := by
  obtain ⟨db, h1, h2⟩ := replay_add h (c := [l]) (by simpa using hl) hr
  exact h.withUnit hv hl hrem (lines_snoc h.lines (h.line (by simpa using hl))) ⟨_, h1, h2.unit l⟩

theorem irr_learnedUnit {s : State} {l : Nat} {c : List Nat} :
    (s.learnedUnit l).irr c ↔ (c = [l] ∨ s.irr c) := by
  constructor
  · rintro (⟨k, hk, rfl⟩ | h)
    · rcases List.mem_append.1 (show k ∈ s.trail ++ [l] from hk) with hk | hk
      · exact Or.inr (Or.inl ⟨k, hk, rfl⟩)
      · rw [List.mem_singleton.1 hk]; exact Or.inl rfl
    · exact Or.inr (Or.inr h)
  · rintro (rfl | ⟨k, hk, rfl⟩ | h)
    · exact Or.inl ⟨l, List.mem_append.2 (Or.inr (by simp)), rfl⟩
    · exact Or.inl ⟨k, List.mem_append.2 (Or.inl hk), rfl⟩
    · exact Or.inr h

theorem formula_learnedUnit {s : State} {l : Nat} {c : List Nat} :
    (s.learnedUnit l).formula c ↔ (c = [l] ∨ s.formula c) := by
  constructor
  · rintro (⟨k, hk, rfl⟩ | h)
    · rcases List.mem_append.1 (show k ∈ s.trail ++ [l] from hk) with hk | hk
      · exact Or.inr (Or.inl ⟨k, hk, rfl⟩)
      · rw [List.mem_singleton.1 hk]; exact Or.inl rfl
    · exact Or.inr (Or.inr h)
  · rintro (rfl | ⟨k, hk, rfl⟩ | h)
    · exact Or.inl ⟨l, List.mem_append.2 (Or.inr (by simp)), rfl⟩
    · exact Or.inl ⟨k, List.mem_append.2 (Or.inl hk), rfl⟩
    · exact Or.inr h

theorem sat_learnedUnit {s : State} {l : Nat} {τ : Assignment} (h : SatFormula τ s.formula) (hl : SatClause τ [l]) :
    SatFormula τ (s.learnedUnit l).formula := by
  intro c hc
  rcases formula_learnedUnit.1 hc with rfl | hc
  · exact hl
  · exact h c hc

theorem State.Hist.learnedUnit {orig : List (List Nat)} {s : State} (h : Struct orig s)
    {F F' : Formula} (hh : s.Hist orig F) (hF : FRange s F) (hF' : FRange s F') {l : Nat}
    (hi : ∀ σ, SatFormula σ F' → SatFormula σ F) : (s.learnedUnit l).Hist orig F' :=
  .change hh ⟨rfl, rfl, rfl, rfl, fun _ i h => ⟨i, h, id, fun _ => rfl⟩, fun _ _ h _ => h⟩
    (map_implies h hF hF' hi)

theorem Inv.learnedUnit {orig : List (List Nat)} {x : Option Nat} {s : State} (h : Inv orig x s) {l : Nat}
    (hv : s.values l = 0) (hl : s.InRange l) (hrem : s.removed (l / 2) = false)
    (hr : RUP s.formula [l]) : Inv orig x (s.learnedUnit l) := by
  have hs := h.struct.learnedUnit hv hl hrem hr
  exact ⟨hs, h.hist.learnedUnit h.struct h.struct.irr_range hs.irr_range fun σ hσ c hc =>
    hσ c (irr_learnedUnit.2 (Or.inr hc)), h.witness,
    h.implied.step (fun _ hv => hv) (fun σ hσ c hc => hσ c (irr_learnedUnit.2 (Or.inr hc)))
      fun σ τ _ hτ _ => sat_learnedUnit hτ (hr.entails τ hτ)⟩

/-! ## The empty clause -/

theorem Struct.learnedEmpty {orig : List (List Nat)} {s : State} (h : Struct orig s)
    (hr : RUP s.formula []) : Struct orig s.learnedEmpty :=
  { h with
    lines := lines_snoc h.lines (h.line (by simp))
    proof := by
      obtain ⟨db, h1, h2⟩ := replay_add h (c := []) (by simp) hr
      refine ⟨_, h1, ?_, fun _ => by simp⟩
      intro X
      rw [List.countP_cons]
      exact Nat.le_trans (h2.copies X) (Nat.le_add_right _ _) }

theorem Inv.learnedEmpty {orig : List (List Nat)} {x : Option Nat} {s : State} (h : Inv orig x s)
    (hr : RUP s.formula []) : Inv orig x s.learnedEmpty :=
  ⟨h.struct.learnedEmpty hr, h.hist, h.witness, h.implied⟩

/-! ## New clauses -/

theorem clause_new {s : State} (c : List Nat) (red : Bool) (k : Nat) :
    (s.newClause c red).clause k =
      if k = s.arena.length then ⟨c, false, red && c.length ≠ 2⟩ else s.clause k :=
  clause_append rfl k

theorem clause_length {s : State} : (s.clause s.arena.length).garbage = true := by
  unfold State.clause
  rw [List.getD_eq_getElem?_getD, List.getElem?_eq_none (Nat.le_refl _)]; rfl

theorem irr_new {s : State} {c d : List Nat} {red : Bool} :
    (s.newClause c red).irr d ↔ ((d = c ∧ (red = false ∨ c.length = 2)) ∨ s.irr d) := by
  constructor
  · rintro (h | ⟨r, h1, h2, rfl⟩)
    · exact Or.inr (Or.inl h)
    · rw [clause_new] at h1 h2 ⊢
      split at h1
      · rename_i e
        rw [if_pos e] at h2 ⊢
        refine Or.inl ⟨rfl, ?_⟩
        cases red
        · exact Or.inl rfl
        · simpa using h2
      · rename_i e
        rw [if_neg e] at h2 ⊢
        exact Or.inr (Or.inr ⟨r, h1, h2, rfl⟩)
  · rintro (⟨rfl, h⟩ | h | ⟨r, h1, h2, rfl⟩)
    · refine Or.inr ⟨s.arena.length, ?_⟩
      rw [clause_new, if_pos rfl]
      refine ⟨rfl, ?_, rfl⟩
      rcases h with rfl | h
      · rfl
      · simp [h]
    · exact Or.inl h
    · refine Or.inr ⟨r, ?_⟩
      have : r ≠ s.arena.length := by have := clause_lt h1; omega
      rw [clause_new, if_neg this]
      exact ⟨h1, h2, rfl⟩

theorem formula_new {s : State} {c d : List Nat} {red : Bool} :
    (s.newClause c red).formula d ↔ (d = c ∨ s.formula d) := by
  constructor
  · rintro (h | ⟨r, h1, rfl⟩)
    · exact Or.inr (Or.inl h)
    · rw [clause_new] at h1 ⊢
      split at h1
      · rename_i e
        rw [if_pos e]
        exact Or.inl rfl
      · rename_i e
        rw [if_neg e]
        exact Or.inr (Or.inr ⟨r, h1, rfl⟩)
  · rintro (rfl | h | ⟨r, h1, rfl⟩)
    · refine Or.inr ⟨s.arena.length, ?_⟩
      rw [clause_new, if_pos rfl]
      exact ⟨rfl, rfl⟩
    · exact Or.inl h
    · refine Or.inr ⟨r, ?_⟩
      have : r ≠ s.arena.length := by have := clause_lt h1; omega
      rw [clause_new, if_neg this]
      exact ⟨h1, rfl⟩

theorem copies_new {s : State} {c : List Nat} {red : Bool} (X : List Nat) :
    (s.newClause c red).copies X = s.copies X + if sameLits X (c.map s.ext) then 1 else 0 := by
  unfold State.copies
  show List.countP _ (s.arena ++ [_]) + _ = _
  rw [List.countP_append, List.countP_cons, List.countP_nil]
  have e1 : List.countP (fun d => !d.garbage && sameLits X (List.map (s.newClause c red).ext d.lits))
    s.arena = List.countP (fun d => !d.garbage && sameLits X (List.map s.ext d.lits)) s.arena := rfl
  have e2 : List.countP (fun k => sameLits X [(s.newClause c red).ext k]) (s.newClause c red).trail =
    List.countP (fun k => sameLits X [s.ext k]) s.trail := rfl
  rw [e1, e2]
  simp only [Bool.not_false, Bool.true_and]
  have e3 : sameLits X (List.map (s.newClause c red).ext c) = sameLits X (List.map s.ext c) := rfl
  rw [e3]
  omega

theorem Struct.newClause {orig : List (List Nat)} {s : State} (h : Struct orig s) {c : List Nat}
    {red : Bool} (hc : ∀ l ∈ c, s.InRange l) (hn : c.Nodup) (ht : ∀ l ∈ c, Spec.neg l ∉ c)
    (hsz : 2 ≤ c.length) (hrem : (red = false ∨ c.length = 2) → ∀ l ∈ c, s.removed (l / 2) = false)
    (hr : RUP s.formula c) : Struct orig (s.newClause c red) where
  neg := h.neg
  range := h.range
  trail := h.trail
  nonzero := h.nonzero
  inj := h.inj
  imported := h.imported
  back := h.back
  clause := by
    intro r
    rw [clause_new]
    split
    · exact fun _ => hc
    · exact h.clause r
  unit := h.unit
  nodup := by
    intro r
    rw [clause_new]
    split
    · exact fun _ => hn
    · exact h.nodup r
  taut := by
    intro r
    rw [clause_new]
    split
    · exact fun _ => ht
    · exact h.taut r
  size := by
    intro r
    rw [clause_new]
    split
    · exact fun _ => hsz
    · exact h.size r
  removed := by
    intro r
    rw [clause_new]
    split
    · intro _ h2
      apply hrem
      cases red
      · exact Or.inl rfl
      · simpa using h2
    · exact h.removed r
  bound := h.bound
  given := h.given
  lines := lines_snoc h.lines (h.line hc)
  proof := by
    obtain ⟨db, h1, h2⟩ := replay_add h hc hr
    refine ⟨_, h1, ?_, fun hi => List.mem_cons_of_mem _ (h2.empty hi)⟩
    intro X
    rw [copies_new, List.countP_cons]
    have := h2.copies X
    omega

theorem sat_new {s : State} {c : List Nat} {red : Bool} {τ : Assignment} (h : SatFormula τ s.formula) (hc : SatClause τ c) :
    SatFormula τ (s.newClause c red).formula := by
  intro d hd
  rcases formula_new.1 hd with rfl | hd
  · exact hc
  · exact h d hd

theorem State.Hist.newClause {orig : List (List Nat)} {s : State} {F : Formula}
    (hh : s.Hist orig F) {c : List Nat} {red : Bool} : (s.newClause c red).Hist orig F := hh

theorem Inv.newClause {orig : List (List Nat)} {x : Option Nat} {s : State} (h : Inv orig x s) {c : List Nat}
    {red : Bool} (hc : ∀ l ∈ c, s.InRange l) (hn : c.Nodup) (ht : ∀ l ∈ c, Spec.neg l ∉ c)
    (hsz : 2 ≤ c.length) (hrem : (red = false ∨ c.length = 2) → ∀ l ∈ c, s.removed (l / 2) = false)
    (hr : RUP s.formula c) : Inv orig x (s.newClause c red) := by
  have hs := h.struct.newClause hc hn ht hsz hrem hr
  exact ⟨hs, State.Hist.restrict hs h.hist.newClause h.struct.irr_range hs.irr_range
    fun σ hσ d hd => hσ d (irr_new.2 (Or.inr hd)), h.witness,
    h.implied.step (fun _ hv => hv) (fun σ hσ d hd => hσ d (irr_new.2 (Or.inr hd)))
      fun σ τ _ hτ _ => sat_new hτ (hr.entails τ hτ)⟩

/-! ## Removed clauses -/

theorem clause_garbage {s : State} {r : Nat} (hr : r < s.arena.length) (k : Nat) :
    (s.markGarbage r).clause k =
      if k = r then { s.clause r with garbage := true } else s.clause k :=
  clause_set rfl hr k

theorem irr_garbage {s : State} {r : Nat} (hr : r < s.arena.length) {d : List Nat} :
    (s.markGarbage r).irr d ↔ ((∃ l ∈ s.trail, d = [l]) ∨
      ∃ k, k ≠ r ∧ (s.clause k).garbage = false ∧ (s.clause k).redundant = false ∧
        d = (s.clause k).lits) := by
  constructor
  · rintro (h | ⟨k, h1, h2, rfl⟩)
    · exact Or.inl h
    · rw [clause_garbage hr] at h1 h2 ⊢
      split at h1
      · cases h1
      · rename_i e
        rw [if_neg e] at h2 ⊢
        exact Or.inr ⟨k, e, h1, h2, rfl⟩
  · rintro (h | ⟨k, e, h1, h2, rfl⟩)
    · exact Or.inl h
    · refine Or.inr ⟨k, ?_⟩
      rw [clause_garbage hr, if_neg e]
      exact ⟨h1, h2, rfl⟩

theorem irr_of_garbage {s : State} {r : Nat} (hr : r < s.arena.length) {d : List Nat}
    (h : (s.markGarbage r).irr d) : s.irr d := by
  rcases (irr_garbage hr).1 h with h | ⟨k, _, h⟩
  · exact Or.inl h
  · exact Or.inr ⟨k, h⟩

theorem formula_of_garbage {s : State} {r : Nat} (hr : r < s.arena.length) {d : List Nat}
    (h : (s.markGarbage r).formula d) : s.formula d := by
  rcases h with h | ⟨k, h1, rfl⟩
  · exact Or.inl h
  · rw [clause_garbage hr] at h1 ⊢
    split at h1
    · cases h1
    · rename_i e
      rw [if_neg e]
      exact Or.inr ⟨k, h1, rfl⟩

theorem irr_or_garbage {s : State} {r : Nat} (hr : r < s.arena.length) {d : List Nat}
    (h : s.irr d) : (s.markGarbage r).irr d ∨ d = (s.clause r).lits := by
  rcases h with h | ⟨k, h1, h2, rfl⟩
  · exact Or.inl ((irr_garbage hr).2 (Or.inl h))
  · by_cases e : k = r
    · rw [e]; exact Or.inr rfl
    · exact Or.inl ((irr_garbage hr).2 (Or.inr ⟨k, e, h1, h2, rfl⟩))

theorem countP_set {p : Clause → Bool} : ∀ {l : List Clause} {r : Nat} {c d : Clause},
    l[r]? = some d → (l.set r c).countP p + (if p d then 1 else 0) =
      l.countP p + (if p c then 1 else 0)
  | [], r, c, d, h => by simp at h
  | x :: l, 0, c, d, h => by
    simp at h; subst h
    rw [List.set_cons_zero, List.countP_cons, List.countP_cons]; omega
  | x :: l, r + 1, c, d, h => by
    have ih := countP_set (p := p) (c := c) (show l[r]? = some d by simpa using h)
    rw [List.set_cons_succ, List.countP_cons, List.countP_cons]; omega

theorem copies_garbage {s : State} {r : Nat} (hg : (s.clause r).garbage = false) (X : List Nat) :
    (s.markGarbage r).copies X + (if sameLits X ((s.clause r).lits.map s.ext) then 1 else 0) =
      s.copies X := by
  have hr := clause_lt hg
  unfold State.copies
  show List.countP _ (s.arena.set r _) + List.countP _ s.trail + _ = _
  have h := countP_set (p := fun c => !c.garbage && sameLits X (c.lits.map s.ext))
    (c := { s.clause r with garbage := true }) (clause_get hr)
  simp only [hg, Bool.not_false, Bool.true_and, Bool.not_true, Bool.false_and,
    Bool.false_eq_true, if_false, Nat.add_zero] at h
  have e1 : List.countP (fun c => !c.garbage && sameLits X (List.map (s.markGarbage r).ext c.lits))
    (s.arena.set r { s.clause r with garbage := true }) =
    List.countP (fun c => !c.garbage && sameLits X (List.map s.ext c.lits))
    (s.arena.set r { s.clause r with garbage := true }) := rfl
  have e2 : List.countP (fun k => sameLits X [(s.markGarbage r).ext k]) s.trail =
    List.countP (fun k => sameLits X [s.ext k]) s.trail := rfl
  rw [e1, e2]
  generalize hx : List.countP (fun c => !c.garbage && sameLits X (List.map s.ext c.lits))
    (s.arena.set r { s.clause r with garbage := true }) = x at h ⊢
  rw [← h]
  omega

theorem Struct.markGarbage {orig : List (List Nat)} {s : State} (h : Struct orig s) {r : Nat}
    (hg : (s.clause r).garbage = false) : Struct orig (s.markGarbage r) where
  neg := h.neg
  range := h.range
  trail := h.trail
  nonzero := h.nonzero
  inj := h.inj
  imported := h.imported
  back := h.back
  clause := by
    intro k
    rw [clause_garbage (clause_lt hg)]
    split
    · intro h; cases h
    · exact h.clause k
  unit := h.unit
  nodup := by
    intro k
    rw [clause_garbage (clause_lt hg)]
    split
    · intro h; cases h
    · exact h.nodup k
  taut := by
    intro k
    rw [clause_garbage (clause_lt hg)]
    split
    · intro h; cases h
    · exact h.taut k
  size := by
    intro k
    rw [clause_garbage (clause_lt hg)]
    split
    · intro h; cases h
    · exact h.size k
  removed := by
    intro k
    rw [clause_garbage (clause_lt hg)]
    split
    · intro h; cases h
    · exact h.removed k
  bound := h.bound
  given := h.given
  lines := lines_snoc h.lines (h.line (h.clause r hg))
  proof := by
    obtain ⟨db, h1, h2⟩ := h.proof
    refine ⟨_, .delete h1, ?_, ?_⟩
    · intro X
      have a := copies_garbage hg X
      have b := Core.countP_delete db ((s.clause r).lits.map s.ext) X
      have c := h2.copies X
      omega
    · intro hi
      refine mem_deleteClause_of_not (h2.empty hi) fun hs => ?_
      have := h.size r hg
      cases hl : (s.clause r).lits with
      | nil => rw [hl] at this; simp at this
      | cons a b =>
        rw [hl] at hs
        have := (hs (s.ext a)).1 (by simp)
        cases this

theorem sat_of_garbage {s : State} {r : Nat} (hg : (s.clause r).garbage = false)
    (hi : (s.clause r).redundant = true ∨ Entails (s.markGarbage r).irr (s.clause r).lits) (σ : Assignment)
    (hσ : SatFormula σ (s.markGarbage r).irr) : SatFormula σ s.irr := by
  intro d hd
  rcases hi with hi | hi
  · rcases hd with hd | ⟨k, h1, h2, rfl⟩
    · exact hσ d (Or.inl hd)
    · refine hσ _ ((irr_garbage (clause_lt hg)).2 (Or.inr ⟨k, ?_, h1, h2, rfl⟩))
      intro e
      rw [e, hi] at h2
      cases h2
  · rcases irr_or_garbage (clause_lt hg) hd with h1 | rfl
    · exact hσ d h1
    · exact hi σ hσ

/-- Removing a clause implied by the remaining irredundant clauses. -/
theorem Inv.markGarbage {orig : List (List Nat)} {x : Option Nat} {s : State} (h : Inv orig x s) {r : Nat}
    (hg : (s.clause r).garbage = false)
    (hi : (s.clause r).redundant = true ∨ Entails (s.markGarbage r).irr (s.clause r).lits) :
    Inv orig x (s.markGarbage r) := by
  have hs := h.struct.markGarbage hg
  have hsat := sat_of_garbage hg hi
  exact ⟨hs, State.Hist.restrict (s := s.markGarbage r) hs h.hist h.struct.irr_range hs.irr_range hsat, h.witness,
    h.implied.step (fun _ hv => hv) hsat fun σ τ _ hτ _ d hd => hτ d (formula_of_garbage (clause_lt hg) hd)⟩

/-! ## Weakening -/

theorem weaken_eq (s : State) (w : Nat) (c : List Nat) :
    s.weaken w c = { s with
      extend := s.extend ++ entry (s.toState.pushed w c) } := by
  unfold State.weaken
  rw [weakenClause_eq]

theorem Struct.weaken {orig : List (List Nat)} {s : State} (h : Struct orig s) (w : Nat)
    (c : List Nat) : Struct orig (s.weaken w c) := by
  rw [weaken_eq]
  obtain ⟨db, h1, h2⟩ := h.proof
  exact ⟨h.neg, h.range, h.trail, h.nonzero, h.inj, h.imported, h.back, h.clause, h.unit, h.nodup, h.taut,
    h.size, h.removed, h.bound, h.given, h.lines, db, h1, h2.copies, h2.empty⟩

theorem weaken_irr (s : State) (w : Nat) (c : List Nat) : (s.weaken w c).irr = s.irr := by
  rw [weaken_eq]; rfl

theorem weaken_formula (s : State) (w : Nat) (c : List Nat) :
    (s.weaken w c).formula = s.formula := by
  rw [weaken_eq]; rfl

theorem weaken_ext (s : State) (w : Nat) (c : List Nat) : (s.weaken w c).ext = s.ext := by
  rw [weaken_eq]; rfl

theorem Struct.known {orig : List (List Nat)} {s : State} (h : Struct orig s) {l : Nat}
    (hl : s.InRange l) (hr : s.removed (l / 2) = false) : s.toState.Known l := by
  refine ⟨exportLiteral_ne h.nonzero hl, ?_⟩
  obtain ⟨i, h1, h2, _⟩ := h.imported (l / 2) hl hr
  refine ⟨i, ?_, h2⟩
  rw [exportLiteral_abs]; exact h1

/-- The history after `kissat_weaken_clause`, where `F'` are the clauses without `c`. -/
theorem State.Hist.weaken {orig : List (List Nat)} {s : State} (h : Struct orig s)
    {F F' : Formula} (hh : s.Hist orig F) (hF : FRange s F) (hF' : FRange s F') {w : Nat}
    {c : List Nat} (hw : w ∈ c) (hc : ∀ l ∈ c, s.InRange l ∧ s.removed (l / 2) = false)
    (hv : s.values w = 0) (hunit : ∀ l, 0 < s.values l → F' [l])
    (hred : Redundant F' c w)
    (hi : ∀ σ, SatFormula σ F' → SatClause σ c → SatFormula σ F) :
    (s.weaken w c).Hist orig F' := by
  unfold State.Hist
  rw [weaken_ext]
  refine History.weaken (F := mapF s.ext F) w c hh hw (h.known (hc w hw).1 (hc w hw).2)
    (fun l hl _ => h.known (hc l hl).1 (hc l hl).2) ?_ hv ?_ ?_
  · intro l hl hneg σ hσ ht
    have hp : 0 < s.values (Spec.neg l) := by rw [h.neg]; omega
    obtain ⟨x, hx, hx'⟩ := hσ _ ⟨[Spec.neg l], hunit _ hp, rfl⟩
    simp only [List.map_cons, List.map_nil, List.mem_singleton] at hx
    rw [hx, ext_neg h.nonzero (hc l hl).1, litTrue_neg] at hx'
    exact hx' ht
  · exact map_redundant h hF' (fun l hl => (hc l hl).1) (hc w hw).1 hred
  · intro σ hσ hcl
    rw [← pull_formula h.nonzero hF]
    refine hi _ ((pull_formula h.nonzero hF').2 hσ) ?_
    rw [pull_clause h.nonzero fun l hl => (hc l hl).1]
    exact hcl

theorem State.Witnesses.weaken {orig : List (List Nat)} {x : Option Nat} {s : State}
    (h : s.Witnesses x) (hs : Struct orig s) {w : Nat} (hw : s.InRange w) (hx : x = some (w / 2))
    (c : List Nat) (hc : ∀ l ∈ c, s.InRange l ∧ s.removed (l / 2) = false) : (s.weaken w c).Witnesses x := by
  rw [weaken_eq]
  intro e he i hi
  rcases List.mem_append.1 (show e ∈ s.extend ++ entry (s.toState.pushed w c) from he) with he | he
  · exact h e he i hi
  · unfold entry at he
    rcases List.mem_cons.1 he with rfl | he
    · exact Or.inr (Or.inr ⟨w / 2, by rw [hx]; rfl, hw, exportLiteral_abs s w⟩)
    · obtain ⟨k, hk, rfl⟩ := List.mem_map.1 he
      obtain ⟨o, ho, rfl⟩ := List.mem_map.1 hk
      obtain ⟨c1, c2⟩ := hc o (List.mem_filter.1 ho).1
      obtain ⟨j, j1, j2, j3⟩ := hs.imported _ c1 c2
      have hi' : s.imports[(s.exportLiteral o).natAbs]? = some i := hi
      rw [exportLiteral_abs, j1] at hi'
      injection hi' with hi'
      subst hi'
      obtain ⟨b1, b2⟩ := hs.back _ j j1 j2 j3
      have : j.lit / 2 = o / 2 := by
        apply hs.inj _ _ b1 c1
        rw [← exportLiteral_abs, b2]
        rfl
      exact Or.inr (Or.inl ⟨rfl, j2, by rw [this]; exact c2⟩)

theorem assign_lit (σ : Assignment) (l : Nat) : litTrue (assign σ l) l := by
  simp [litTrue, assign]

theorem State.Implied.weaken {s : State} {x : Option Nat} (h : s.Implied x) {F F' : Formula} {c : List Nat} {w : Nat}
    (hx : x = some (w / 2)) (hred : Redundant F c w)
    (hi : ∀ σ, SatFormula σ F → SatClause σ c → SatFormula σ s.irr) (hf : ∀ d, F' d → s.formula d)
    (hw : w ∈ c := by assumption) (σ : Assignment) (hσ : SatFormula σ F) :
    ∃ τ, SatFormula τ F' ∧ ∀ v, s.removed v = false → x ≠ some v → τ v = σ v := by
  by_cases hc : SatClause σ c
  · obtain ⟨τ, h1, h2⟩ := h σ (hi σ hσ hc)
    exact ⟨τ, fun d hd => h1 d (hf d hd), h2⟩
  · obtain ⟨τ, h1, h2⟩ := h (assign σ w) (hi _ (hred σ hσ hc) ⟨w, hw, assign_lit σ w⟩)
    refine ⟨τ, fun d hd => h1 d (hf d hd), fun v hv hne => ?_⟩
    rw [h2 v hv hne]
    unfold assign
    rw [if_neg]
    rintro rfl
    exact hne hx

/-- Weakening a clause and removing it. -/
theorem Inv.weakenGarbage {orig : List (List Nat)} {x : Option Nat} {s : State} (h : Inv orig x s) {r w : Nat}
    (hg : (s.clause r).garbage = false) (hirr : (s.clause r).redundant = false)
    (hw : w ∈ (s.clause r).lits) (hv : s.values w = 0) (hx : x = some (w / 2))
    (hred : Redundant (s.markGarbage r).irr (s.clause r).lits w) :
    Inv orig x ((s.weaken w (s.clause r).lits).markGarbage r) := by
  have hs0 := h.struct.weaken w (s.clause r).lits
  have e : (s.weaken w (s.clause r).lits).clause = s.clause := by rw [weaken_eq]; rfl
  have hg' : ((s.weaken w (s.clause r).lits).clause r).garbage = false := by rw [e]; exact hg
  have hs := hs0.markGarbage hg'
  have eirr : ((s.weaken w (s.clause r).lits).markGarbage r).irr = (s.markGarbage r).irr := by
    rw [weaken_eq]; rfl
  have efor : ((s.weaken w (s.clause r).lits).markGarbage r).formula = (s.markGarbage r).formula := by
    rw [weaken_eq]; rfl
  have erem : ((s.weaken w (s.clause r).lits).markGarbage r).removed = s.removed := by
    rw [weaken_eq]; rfl
  refine ⟨hs, ?_, h.witness.weaken h.struct (h.struct.clause r hg w hw) hx _ fun l hl =>
    ⟨h.struct.clause r hg l hl, h.struct.removed r hg hirr l hl⟩, ?_⟩
  rotate_left
  · unfold State.Implied
    rw [eirr, efor, erem]
    refine h.implied.weaken hx hred (fun σ h1 h2 d hd => ?_) fun d hd => formula_of_garbage (clause_lt hg) hd
    rcases irr_or_garbage (clause_lt hg) hd with h3 | rfl
    · exact h1 d h3
    · exact h2
  rw [eirr]
  have hs1 := h.struct.markGarbage hg
  exact State.Hist.weaken h.struct h.hist h.struct.irr_range hs1.irr_range hw
    (fun l hl => ⟨h.struct.clause r hg l hl, h.struct.removed r hg hirr l hl⟩) hv
    (fun l hl => Or.inl ⟨l, (h.struct.trail l).2 hl, rfl⟩) hred (fun σ hσ hc d hd => by
      rcases irr_or_garbage (clause_lt hg) hd with h1 | rfl
      · exact hσ d h1
      · exact hc)

/-! ## Marking variables as eliminated -/

theorem Inv.markEliminated {orig : List (List Nat)} {s : State} {v : Nat}
    (h : Inv orig (some v) s)
    (hv : v < s.exports.length) (hrem : s.removed v = false)
    (hvar : ∀ r, (s.clause r).garbage = false → (s.clause r).redundant = false →
      ∀ l ∈ (s.clause r).lits, l / 2 ≠ v)
    (hval : s.values (2 * v) = 0) : Inv orig none (s.markEliminated v) := by
  obtain ⟨i, h1, h2, h3⟩ := h.struct.imported v hv hrem
  have hexp : s.exportLiteral (2 * v) = s.exports.getD v 0 := by
    unfold Extend.State.exportLiteral
    have e1 : 2 * v / 2 = v := by omega
    have e2 : ¬ 2 * v % 2 = 1 := by omega
    simp only [e1, if_neg e2]
  have himp : ∀ (u : Nat), (s.markEliminated v).imports[u]? =
      if u = (s.exports.getD v 0).natAbs
      then some { i with lit := s.eliminated.length, eliminated := true }
      else s.imports[u]? := by
    intro u
    show (s.toState.markEliminated v).imports[u]? = _
    simp only [Extend.State.markEliminated, List.getElem?_modify, hexp]
    generalize hx : (s.exports.getD v 0).natAbs = x at h1 ⊢
    by_cases hu : u = x
    · subst hu; simp [h1]
    · have : ¬ x = u := fun hh => hu hh.symm
      rw [if_neg hu]
      cases s.imports[u]? <;> simp [this]
  obtain ⟨db, p1, p2⟩ := h.struct.proof
  have hlen : (s.markEliminated v).imports.length = s.imports.length := List.length_modify _ _ _
  refine ⟨⟨h.struct.neg, h.struct.range, h.struct.trail, h.struct.nonzero, h.struct.inj, ?_, ?_,
    h.struct.clause, ?_, h.struct.nodup, h.struct.taut, h.struct.size, ?_,
    by rw [hlen]; exact h.struct.bound, by rw [hlen]; exact h.struct.given, by rw [hlen]; exact h.struct.lines, db, p1, p2.copies, p2.empty⟩, ?_, ?_, ?_⟩
  · intro u hu hr
    have hr' : (if u = v then true else s.removed u) = false := hr
    have huv : u ≠ v := by rintro rfl; simp at hr'
    rw [if_neg huv] at hr'
    obtain ⟨j, j1, j2, j3⟩ := h.struct.imported u hu hr'
    refine ⟨j, ?_, j2, j3⟩
    rw [himp, if_neg]
    · exact j1
    · exact fun e => huv (h.struct.inj _ _ hu hv e)
  · intro u j hj j1 j2
    rw [himp] at hj
    split at hj
    · cases hj; cases j2
    · rename_i hne
      exact h.struct.back u j hj j1 j2
  · intro l hl
    obtain ⟨u1, u2⟩ := h.struct.unit l hl
    refine ⟨u1, ?_⟩
    show (if l / 2 = v then true else s.removed (l / 2)) = false
    rw [if_neg]
    · exact u2
    · rintro rfl
      have hpos := (h.struct.trail l).1 hl
      rcases eq_or_eq_neg (show l / 2 = 2 * (l / 2) / 2 by omega) with e | e
      · rw [e, hval] at hpos; omega
      · rw [e, h.struct.neg, hval] at hpos; omega
  · intro r g1 g2 l hl
    show (if l / 2 = v then true else s.removed (l / 2)) = false
    rw [if_neg (hvar r g1 g2 l hl)]
    exact h.struct.removed r g1 g2 l hl
  · refine History.eliminate (F := mapF s.ext s.irr) v h.hist ?_ ?_
    · refine h.struct.known ?_ ?_
      · unfold State.InRange
        have e1 : 2 * v / 2 = v := by omega
        rw [e1]; exact hv
      · have e1 : 2 * v / 2 = v := by omega
        rw [e1]; exact hrem
    · intro j hj
      rw [hexp, h1] at hj
      cases hj
      exact h3
  · intro e he j hj
    rw [himp] at hj
    split at hj
    · cases hj; exact Or.inl rfl
    · rename_i hne
      rcases h.witness e he j hj with h4 | ⟨h4, h5, h6⟩ | ⟨u, hu, _, h5⟩
      · exact Or.inl h4
      · cases hel : j.eliminated with
        | true => exact Or.inl rfl
        | false =>
          refine Or.inr (Or.inl ⟨h4, h5, ?_⟩)
          show (if j.lit / 2 = v then true else s.removed (j.lit / 2)) = false
          rw [if_neg, h6]
          intro e
          apply hne
          have := exportLiteral_abs s j.lit
          rw [e, (h.struct.back _ j hj h5 hel).2] at this
          simpa using this
      · cases hu
        exact absurd h5 hne
  · intro σ hσ
    obtain ⟨τ, h4, h5⟩ := h.implied σ hσ
    refine ⟨τ, h4, fun u hu _ => ?_⟩
    have hu : (if u = v then true else s.removed u) = false := hu
    have huv : u ≠ v := by rintro rfl; simp at hu
    rw [if_neg huv] at hu
    exact h5 u hu fun e => huv (by injection e with e; exact e.symm)

end Verif.Simp
