import Verif.Proofs.Whole.Base

/-!
# From search to simplification
-/

namespace Verif.Whole

open Verif.Spec Verif.Model Verif.Core
open Verif.Model.Extend (History)

/-- A solver for simplification with the given tables and nothing else. -/
def bare (T : Extend.State) : Simp.State :=
  { toState := T, trail := [], propagate := 0, arena := [], inconsistent := false, removed := fun _ => false, proof := [] }

/-- The import and export tables and the extension stack. -/
structure Tables (orig : List (List Nat)) (T : Extend.State) (removed : Nat → Bool) : Prop where
  nonzero : ∀ v, v < T.exports.length → T.exports.getD v 0 ≠ 0
  inj : ∀ v w, v < T.exports.length → w < T.exports.length →
    (T.exports.getD v 0).natAbs = (T.exports.getD w 0).natAbs → v = w
  imported : ∀ v, v < T.exports.length → removed v = false →
    ∃ i, T.imports[(T.exports.getD v 0).natAbs]? = some i ∧ i.imported = true ∧ i.eliminated = false
  back : ∀ (u : Nat) (i : Extend.Import), T.imports[u]? = some i → i.imported = true →
    i.eliminated = false → i.lit / 2 < T.exports.length ∧ T.exportLiteral i.lit = u
  bound : ∀ v, v < T.exports.length → (T.exports.getD v 0).natAbs < T.imports.length
  given : ∀ c ∈ orig, ∀ x ∈ c, x / 2 < T.imports.length
  witness : ∀ e ∈ T.extend, ∀ i, T.imports[e.lit.natAbs]? = some i →
    i.eliminated = true ∨ (e.blocking = false ∧ i.imported = true ∧ removed (i.lit / 2) = false)

theorem Tables.renaming {orig : List (List Nat)} {T : Extend.State} {removed : Nat → Bool} (h : Tables orig T removed) :
    Renaming T.exports.length T.ext where
  neg := fun l hl => Simp.ext_neg (s := bare T) h.nonzero hl
  inj := by
    intro l m hl hm e
    have hd : l / 2 = m / 2 := by
      apply h.inj _ _ hl hm
      have h1 := Simp.ext_div (bare T) l
      have h2 := Simp.ext_div (bare T) m
      have e : (bare T).ext l = (bare T).ext m := e
      rw [e] at h1
      exact h1.symm.trans h2
    rcases eq_or_eq_neg hd with h1 | h1
    · exact h1
    · have h2 := Simp.ext_neg (s := bare T) h.nonzero hm
      rw [h1] at e
      exact absurd (e.symm.trans h2).symm (neg_ne _)

/-- What holds of a solver between two simplifications, besides the state of the search.  `F` are the irredundant clauses at
the last one. -/
structure Frame (orig : List (List Nat)) (w : State) (F : Formula) : Prop where
  tables : Tables orig w.tables w.t.s.removed
  vars : w.t.s.vars = w.tables.exports.length
  lines : ∀ ln ∈ w.lines, ∀ x ∈ Simp.lineLits ln, x / 2 < w.tables.imports.length
  hist : History (ofList orig) w.tables (Simp.mapF w.tables.ext F)
  range : ∀ c, F c → ∀ l ∈ c, l / 2 < w.tables.exports.length

/-- How lines are accepted. -/
def Frame.base {orig : List (List Nat)} {w : State} {F : Formula} (h : Frame orig w F) : Base :=
  phaseBase h.tables.renaming orig w.lines F

instance {orig : List (List Nat)} {w : State} {F : Formula} (h : Frame orig w F) : Deletes h.base :=
  inferInstanceAs (Deletes (phaseBase h.tables.renaming orig w.lines F))

/-- The invariant of the search in terms of the clauses at the last simplification. -/
abbrev Frame.Good {orig : List (List Nat)} {w : State} {F : Formula} (h : Frame orig w F) (s : Core.Solver) : Prop :=
  PropInv h.base (fun σ => SatFormula σ F) s

theorem Frame.with {orig : List (List Nat)} {w : State} {F : Formula} (h : Frame orig w F) {t : Search}
    (hv : t.s.vars = w.t.s.vars) (hr : t.s.removed = w.t.s.removed) : Frame orig { w with t := t } F :=
  ⟨by rw [show ({ w with t := t } : State).t.s.removed = t.s.removed from rfl, hr]; exact h.tables,
   hv.trans h.vars, h.lines, h.hist, h.range⟩

/-! ## Lists of clauses -/

theorem mem_trueLits {n : Nat} {values : Nat → Int} {l : Nat} : l ∈ trueLits n values ↔ l / 2 < n ∧ values l = 1 := by
  unfold trueLits
  rw [List.mem_filter, List.mem_range]
  simp only [beq_iff_eq]
  constructor <;> rintro ⟨h1, h2⟩ <;> exact ⟨by omega, h2⟩

theorem trueLits_nodup (n : Nat) (values : Nat → Int) : (trueLits n values).Nodup :=
  List.Pairwise.filter _ List.nodup_range

theorem mem_binaries {s : Core.Solver} {c : List Nat} : c ∈ binaries s ↔
    ∃ a b, c = [a, b] ∧ a < b ∧ a < 2 * s.vars ∧ b < 2 * s.vars ∧ Watch.binary b ∈ s.watches a := by
  unfold binaries
  simp only [List.mem_flatMap, List.mem_map, List.mem_filter, List.mem_range, Bool.and_eq_true, decide_eq_true_eq,
    List.contains_iff_mem]
  constructor
  · rintro ⟨a, ha, b, ⟨hb, h1, h2⟩, rfl⟩
    exact ⟨a, b, rfl, h1, ha, hb, h2⟩
  · rintro ⟨a, b, rfl, h1, ha, hb, h2⟩
    exact ⟨a, ha, b, ⟨hb, h1, h2⟩, rfl⟩

theorem binaries_nodup (s : Core.Solver) : (binaries s).Nodup := by
  unfold binaries
  rw [List.Nodup, List.pairwise_flatMap]
  refine ⟨fun a _ => ?_, ?_⟩
  · refine Simp.nodup_map (List.Pairwise.filter _ List.nodup_range) ?_
    intro b _ c _ e
    simpa using e
  · refine List.Pairwise.imp ?_ (List.nodup_range (n := 2 * s.vars))
    intro a b hne x hx y hy e
    obtain ⟨u, _, rfl⟩ := List.mem_map.1 hx
    obtain ⟨v, _, rfl⟩ := List.mem_map.1 hy
    simp at e
    exact hne e.1

theorem countP_le_one {α : Type} {p : α → Bool} {x : α} : ∀ {l : List α}, l.Nodup → (∀ y ∈ l, p y = true → y = x) →
    l.countP p ≤ 1
  | [], _, _ => by simp
  | a :: l, hn, h => by
    rw [List.nodup_cons] at hn
    rw [List.countP_cons]
    by_cases ha : p a = true
    · have : l.countP p = 0 := by
        rw [List.countP_eq_zero]
        intro y hy hp
        have h1 := h y (List.mem_cons_of_mem _ hy) hp
        have h2 := h a List.mem_cons_self ha
        exact hn.1 (h2 ▸ h1 ▸ hy)
      rw [if_pos ha]; omega
    · rw [if_neg ha]
      exact countP_le_one hn.2 fun y hy => h y (List.mem_cons_of_mem _ hy)

/-- The clauses of the solver, each at most as often as the checker has them. -/
def clauseList (s : Core.Solver) : List (List Nat) :=
  (s.arena.filter fun c => !c.garbage).map (·.lits) ++ binaries s ++ (trueLits s.vars s.values).map fun l => [l]

theorem live_mem {s : Core.Solver} {c : Core.Clause} (h : c ∈ s.arena) (hg : c.garbage = false) :
    ∃ r, s.Live r ∧ s.clause r = c := by
  obtain ⟨r, hr, rfl⟩ := List.mem_iff_getElem.1 h
  have : s.clause r = s.arena[r] := by
    unfold Solver.clause
    rw [List.getD_eq_getElem?_getD, List.getElem?_eq_getElem hr]; rfl
  exact ⟨r, by unfold Solver.Live; rw [this]; exact hg, this⟩

theorem mem_live {s : Core.Solver} {c : List Nat} : c ∈ (s.arena.filter fun c => !c.garbage).map (·.lits) ↔
    ∃ r, s.Live r ∧ c = (s.clause r).lits := by
  rw [List.mem_map]
  constructor
  · rintro ⟨d, hd, rfl⟩
    rw [List.mem_filter] at hd
    obtain ⟨r, h1, h2⟩ := live_mem hd.1 (by simpa using hd.2)
    exact ⟨r, h1, by rw [h2]⟩
  · rintro ⟨r, h1, rfl⟩
    have h1' : (s.clause r).garbage = false := h1
    exact ⟨s.clause r, List.mem_filter.2 ⟨clause_mem (clause_lt h1), by simp [h1']⟩, rfl⟩

theorem root_level {s : Core.Solver} (h : TrailInv s) (h0 : s.level = 0) {l : Nat} (hv : s.values l = 1) : s.lev l = 0 := by
  have := h.levle l hv
  omega

/-- Up to the order of literals the clauses are those of the solver. -/
theorem clauseList_formula {s : Core.Solver} (h : Core.Inv s) (h0 : s.level = 0) {c : List Nat} (hc : c ∈ clauseList s) :
    s.formula c := by
  unfold clauseList at hc
  rcases List.mem_append.1 hc with hc | hc
  · rcases List.mem_append.1 hc with hc | hc
    · exact Or.inl (mem_live.1 hc)
    · obtain ⟨a, b, rfl, _, _, _, hw⟩ := mem_binaries.1 hc
      exact Or.inr (Or.inl ⟨a, b, hw, rfl⟩)
  · obtain ⟨l, hl, rfl⟩ := List.mem_map.1 hc
    have := (mem_trueLits.1 hl).2
    exact Or.inr (Or.inr ⟨l, this, root_level h.trail h0 this, rfl⟩)

theorem two_mem {a b : Nat} {x y : Nat} (h : SameLits [a, b] [x, y]) (hab : a < b) (hxy : x < y) : [x, y] = [a, b] := by
  have h1 := (h a).1 (by simp)
  have h2 := (h b).1 (by simp)
  have h3 := (h x).2 (by simp)
  have h4 := (h y).2 (by simp)
  simp only [List.mem_cons, List.not_mem_nil, or_false] at h1 h2 h3 h4
  have : a = x ∧ b = y := by omega
  rw [this.1, this.2]

theorem length_same {c d : List Nat} (h : SameLits c d) (hc : c.Nodup) : c.length ≤ d.length :=
  nodup_length_le hc fun x hx => (h x).1 hx

theorem clauseList_covers {s : Core.Solver} {db : List (List Nat)} (h : Core.Inv s) (h0 : s.level = 0)
    (hc : Core.Covers s db) {C : List Nat} (hC : C ∈ clauseList s) :
    (clauseList s).countP (sameLits C) ≤ db.countP (sameLits C) := by
  have hnd : C.Nodup := by
    unfold clauseList at hC
    rcases List.mem_append.1 hC with hC | hC
    · rcases List.mem_append.1 hC with hC | hC
      · obtain ⟨r, h1, rfl⟩ := mem_live.1 hC
        exact h.clause.nodup r h1
      · obtain ⟨a, b, rfl, h1, _⟩ := mem_binaries.1 hC
        simp; omega
    · obtain ⟨l, _, rfl⟩ := List.mem_map.1 hC
      simp
  have large0 : C.length ≤ 2 → ((s.arena.filter fun c => !c.garbage).map (·.lits)).countP (sameLits C) = 0 := by
    intro hl
    rw [List.countP_eq_zero]
    intro D hD hs
    obtain ⟨r, h1, rfl⟩ := mem_live.1 hD
    have := length_same (sameLits_iff.1 hs).symm (h.clause.nodup r h1)
    have := h.clause.size r h1
    omega
  have bin0 : C.length ≠ 2 → (binaries s).countP (sameLits C) = 0 := by
    intro hl
    rw [List.countP_eq_zero]
    intro D hD hs
    obtain ⟨a, b, rfl, h1, _⟩ := mem_binaries.1 hD
    have h2 := length_same (sameLits_iff.1 hs).symm (by simp; omega)
    have h3 := length_same (sameLits_iff.1 hs) hnd
    simp only [List.length_cons, List.length_nil] at h2 h3
    omega
  have unit0 : C.length ≠ 1 → ((trueLits s.vars s.values).map fun l => [l]).countP (sameLits C) = 0 := by
    intro hl
    rw [List.countP_eq_zero]
    intro D hD hs
    obtain ⟨l, _, rfl⟩ := List.mem_map.1 hD
    have h2 := length_same (sameLits_iff.1 hs).symm (by simp)
    have h3 := length_same (sameLits_iff.1 hs) hnd
    simp only [List.length_cons, List.length_nil] at h2 h3
    omega
  unfold clauseList
  rw [List.countP_append, List.countP_append]
  unfold clauseList at hC
  rcases List.mem_append.1 hC with hC | hC
  · rcases List.mem_append.1 hC with hC | hC
    · obtain ⟨r, h1, rfl⟩ := mem_live.1 hC
      have hsz := h.clause.size r h1
      rw [bin0 (by omega), unit0 (by omega)]
      have := hc.large (s.clause r).lits
      unfold Solver.copies at this
      rw [List.countP_map, List.countP_filter]
      refine Nat.le_trans (Nat.le_of_eq ?_) this
      exact List.countP_congr fun x _ => by simp [Bool.and_comm, and_comm]
    · obtain ⟨a, b, rfl, h1, _, _, hw⟩ := mem_binaries.1 hC
      rw [large0 (by simp), unit0 (by simp)]
      have h2 : 0 < db.countP (sameLits [a, b]) := count_pos.2 (hc.binary hw)
      have h3 : (binaries s).countP (sameLits [a, b]) ≤ 1 := by
        refine countP_le_one (x := [a, b]) (binaries_nodup s) fun D hD hs => ?_
        obtain ⟨x, y, rfl, h5, _⟩ := mem_binaries.1 hD
        exact two_mem (sameLits_iff.1 hs) h1 h5
      omega
  · obtain ⟨l, hl, rfl⟩ := List.mem_map.1 hC
    rw [large0 (by simp), bin0 (by simp)]
    have hv := (mem_trueLits.1 hl).2
    have h2 : 0 < db.countP (sameLits [l]) := count_pos.2 (hc.unit l hv (root_level h.trail h0 hv))
    have h3 : ((trueLits s.vars s.values).map fun l => [l]).countP (sameLits [l]) ≤ 1 := by
      refine countP_le_one (x := [l]) (Simp.nodup_map (trueLits_nodup _ _) fun a _ b _ e => by simpa using e)
        fun D hD hs => ?_
      obtain ⟨m, _, rfl⟩ := List.mem_map.1 hD
      have := (sameLits_iff.1 hs m).2 (by simp)
      simp at this
      rw [this]
    omega

/-- Counting renamed clauses. -/
theorem count_map {N : Nat} {ext : Nat → Nat} (hext : Renaming N ext) {C : List Nat} (hC : ∀ l ∈ C, l / 2 < N)
    {L : List (List Nat)} (hL : ∀ c ∈ L, ∀ l ∈ c, l / 2 < N) {X : List Nat} (hX : SameLits X (C.map ext)) :
    (L.map (List.map ext)).countP (sameLits X) = L.countP (sameLits C) := by
  rw [List.countP_map]
  refine List.countP_congr fun d hd => ?_
  simp only [Function.comp]
  rw [sameLits_iff, sameLits_iff, ← SameLits.map hext hC (hL d hd)]
  exact ⟨fun h => hX.symm.trans h, fun h => hX.trans h⟩

theorem count_le_of {N : Nat} {ext : Nat → Nat} (hext : Renaming N ext) {L db : List (List Nat)}
    (hL : ∀ c ∈ L, ∀ l ∈ c, l / 2 < N) (hdb : ∀ c ∈ db, ∀ l ∈ c, l / 2 < N)
    (h : ∀ C ∈ L, L.countP (sameLits C) ≤ db.countP (sameLits C)) (X : List Nat) :
    (L.map (List.map ext)).countP (sameLits X) ≤ (db.map (List.map ext)).countP (sameLits X) := by
  by_cases h0 : 0 < (L.map (List.map ext)).countP (sameLits X)
  · obtain ⟨D, hD, hs⟩ := count_pos.1 h0
    obtain ⟨C, hC, rfl⟩ := List.mem_map.1 hD
    rw [count_map hext (hL C hC) hL hs, count_map hext (hL C hC) hdb hs]
    exact h C hC
  · omega

/-! ## The simplification state -/

section
variable {orig : List (List Nat)} {w : State} {F : Formula}

theorem toSimp_live {r : Nat} (h : (w.toSimp.clause r).garbage = false) :
    (∃ k, w.t.s.Live k ∧ (w.toSimp.clause r).lits = (w.t.s.clause k).lits ∧
      (w.toSimp.clause r).redundant = (w.t.s.clause k).redundant) ∨
    ((w.toSimp.clause r).lits ∈ binaries w.t.s ∧ (w.toSimp.clause r).redundant = false) := by
  have hm := Simp.clause_mem (Simp.clause_lt h)
  generalize w.toSimp.clause r = c at hm
  rcases List.mem_append.1 hm with hm | hm
  · left
    obtain ⟨d, hd, rfl⟩ := List.mem_map.1 hm
    rw [List.mem_filter] at hd
    obtain ⟨k, h1, rfl⟩ := live_mem hd.1 (by simpa using hd.2)
    exact ⟨k, h1, rfl, rfl⟩
  · right
    obtain ⟨d, hd, rfl⟩ := List.mem_map.1 hm
    exact ⟨hd, rfl⟩

theorem clause_of_mem {x : Simp.State} {c : Simp.Clause} (h : c ∈ x.arena) : ∃ r, x.clause r = c := by
  obtain ⟨r, hr, rfl⟩ := List.mem_iff_getElem.1 h
  exact ⟨r, by unfold Simp.State.clause; rw [List.getD_eq_getElem?_getD, List.getElem?_eq_getElem hr]; rfl⟩

/-- The clauses are the same. -/
theorem toSimp_irr (h : Core.Inv w.t.s) (h0 : w.t.s.level = 0) {σ : Assignment} (hσ : SatFormula σ w.toSimp.irr) :
    SatFormula σ w.t.s.irr := by
  rintro c (⟨r, h1, h2, rfl⟩ | ⟨a, b, hw, rfl⟩ | ⟨l, h1, h2, rfl⟩)
  · have hm : (⟨(w.t.s.clause r).lits, false, (w.t.s.clause r).redundant⟩ : Simp.Clause) ∈ w.toSimp.arena := by
      refine List.mem_append_left _ (List.mem_map.2 ⟨w.t.s.clause r, List.mem_filter.2 ⟨clause_mem (clause_lt h1), ?_⟩, rfl⟩)
      have : (w.t.s.clause r).garbage = false := h1
      simp [this]
    obtain ⟨k, hk⟩ := clause_of_mem hm
    exact hσ _ (Or.inr ⟨k, by rw [hk], by rw [hk]; exact h2, by rw [hk]⟩)
  · obtain ⟨h1, h2, h3, h4, h5⟩ := h.clause.bin a b hw
    have key : ∀ a b, Watch.binary b ∈ w.t.s.watches a → w.t.s.Valid a → w.t.s.Valid b → a < b → SatClause σ [a, b] := by
      intro a b hw ha hb hab
      have hm : (⟨[a, b], false, false⟩ : Simp.Clause) ∈ w.toSimp.arena := by
        refine List.mem_append_right _ (List.mem_map.2 ⟨[a, b], mem_binaries.2 ⟨a, b, rfl, hab, ?_, ?_, hw⟩, rfl⟩)
        · have := ha.1; omega
        · have := hb.1; omega
      obtain ⟨k, hk⟩ := clause_of_mem hm
      exact hσ _ (Or.inr ⟨k, by rw [hk], by rw [hk], by rw [hk]⟩)
    by_cases hab : a < b
    · exact key a b hw h4 h5 hab
    · obtain ⟨l, hl, ht⟩ := key b a h1 h5 h4 (by omega)
      exact ⟨l, by simp at hl ⊢; omega, ht⟩
  · exact hσ _ (Or.inl ⟨l, mem_trueLits.2 ⟨(h.trail.valid l (by omega)).1, h1⟩, rfl⟩)

theorem toSimp_formula (h : Core.Inv w.t.s) (h0 : w.t.s.level = 0) {c : List Nat} (hc : w.toSimp.formula c) :
    w.t.s.formula c := by
  rcases hc with ⟨l, hl, rfl⟩ | ⟨r, hr, rfl⟩
  · have := (mem_trueLits.1 hl).2
    exact Or.inr (Or.inr ⟨l, this, root_level h.trail h0 this, rfl⟩)
  · rcases toSimp_live hr with ⟨k, h1, h2, _⟩ | ⟨h1, _⟩
    · exact Or.inl ⟨k, h1, h2⟩
    · obtain ⟨a, b, e, _, _, _, hw⟩ := mem_binaries.1 h1
      exact Or.inr (Or.inl ⟨a, b, hw, e⟩)

theorem toSimp_copies (X : List Nat) :
    w.toSimp.copies X = ((clauseList w.t.s).map (List.map w.tables.ext)).countP (sameLits X) := by
  unfold Simp.State.copies clauseList
  have e : ∀ l, w.toSimp.ext l = w.tables.ext l := fun _ => rfl
  have e' : w.toSimp.ext = w.tables.ext := funext e
  rw [List.map_append, List.map_append, List.countP_append, List.countP_append, e']
  show (List.countP _ (_ ++ _)) + List.countP _ (trueLits _ _) = _
  rw [List.countP_append]
  simp only [List.countP_map, List.map_map]
  rfl

theorem toSimp_lines (h : Frame orig w F) {db : List (List Nat)} (hp : h.base.R w.t.s.vars w.t.s.proof db) :
    ∀ ln ∈ w.proof, ∀ x ∈ Simp.lineLits ln, x / 2 < w.tables.imports.length := by
  intro ln hln
  unfold State.proof at hln
  rcases List.mem_append.1 hln with hln | hln
  · exact h.lines ln hln
  · obtain ⟨m, hm, rfl⟩ := List.mem_map.1 hln
    intro x hx
    have : ∃ l ∈ Line.lits m, x = w.tables.ext l := by
      cases m with
      | add c =>
        obtain ⟨l, hl, rfl⟩ := List.mem_map.1 (show x ∈ c.map w.tables.ext from hx)
        exact ⟨l, hl, rfl⟩
      | delete c =>
        obtain ⟨l, hl, rfl⟩ := List.mem_map.1 (show x ∈ c.map w.tables.ext from hx)
        exact ⟨l, hl, rfl⟩
    obtain ⟨l, hl, rfl⟩ := this
    have h1 := hp.lits m hm l hl
    have h2 := Simp.ext_div (bare w.tables) l
    have h3 := h.tables.bound _ h1
    show (bare w.tables).ext l / 2 < _
    rw [h2]; exact h3

theorem toSimp_replay (h : Frame orig w F) {db : List (List Nat)} (hp : h.base.R w.t.s.vars w.t.s.proof db) :
    ∃ D, Replay orig w.proof D ∧
      ∀ X, (db.map (List.map w.tables.ext)).countP (sameLits X) ≤ D.countP (sameLits X) := by
  have := hp.replay
  unfold State.proof
  rw [renameLine_eq]
  exact this

theorem toSimp_inv (h : Frame orig w F) (hp : h.Good w.t.s) (h0 : w.t.s.level = 0) : Simp.Inv orig none w.toSimp := by
  have hi := hp.ok.inv
  obtain ⟨db, hR, hc⟩ := hp.ok.proof
  have htr : ∀ l, l ∈ trueLits w.t.s.vars w.t.s.values ↔ 0 < w.t.s.values l := by
    intro l
    rw [mem_trueLits]
    constructor
    · rintro ⟨_, h⟩; omega
    · intro hl
      refine ⟨(hi.trail.valid l (by omega)).1, ?_⟩
      rcases hi.trail.dom l with h | h | h <;> omega
  have hval : ∀ r, (w.toSimp.clause r).garbage = false → ∀ l ∈ (w.toSimp.clause r).lits, w.t.s.Valid l := by
    intro r hr l hl
    rcases toSimp_live hr with ⟨k, h1, h2, _⟩ | ⟨h1, _⟩
    · rw [h2] at hl; exact hi.clause.valid k h1 l hl
    · obtain ⟨a, b, e, _, _, _, hw⟩ := mem_binaries.1 h1
      rw [e] at hl
      obtain ⟨_, _, _, h4, h5⟩ := hi.clause.bin a b hw
      simp only [List.mem_cons, List.not_mem_nil, or_false] at hl
      rcases hl with rfl | rfl
      · exact h4
      · exact h5
  have hS : Simp.Struct orig w.toSimp := by
    refine ⟨hi.trail.anti, hi.trail.dom, htr, h.tables.nonzero, h.tables.inj, h.tables.imported, h.tables.back, ?_, ?_, ?_, ?_,
      ?_, ?_, h.tables.bound, h.tables.given, toSimp_lines h hR, ?_⟩
    · intro r hr l hl
      have := (hval r hr l hl).1
      rw [h.vars] at this
      exact this
    · intro l hl
      have hl := (htr l).1 hl
      have := hi.trail.valid l (by omega)
      exact ⟨by have := this.1; rw [h.vars] at this; exact this, this.2⟩
    · intro r hr
      rcases toSimp_live hr with ⟨k, h1, h2, _⟩ | ⟨h1, _⟩
      · rw [h2]; exact hi.clause.nodup k h1
      · obtain ⟨a, b, e, hab, _⟩ := mem_binaries.1 h1
        rw [e]; simp; omega
    · intro r hr l hl hl'
      rcases toSimp_live hr with ⟨k, h1, h2, _⟩ | ⟨h1, _⟩
      · rw [h2] at hl hl'; exact hi.clause.taut k h1 l hl hl'
      · obtain ⟨a, b, e, _, _, _, hw⟩ := mem_binaries.1 h1
        rw [e] at hl hl'
        obtain ⟨_, _, h3, _, _⟩ := hi.clause.bin a b hw
        simp only [List.mem_cons, List.not_mem_nil, or_false] at hl hl'
        have hne := neg_ne l
        rcases hl with rfl | rfl <;> rcases hl' with h4 | h4
        · exact hne h4
        · exact h3 (by rw [← h4, neg_neg])
        · exact h3 h4.symm
        · exact hne h4
    · intro r hr
      rcases toSimp_live hr with ⟨k, h1, h2, _⟩ | ⟨h1, _⟩
      · rw [h2]; have := hi.clause.size k h1; omega
      · obtain ⟨a, b, e, _⟩ := mem_binaries.1 h1
        rw [e]; simp
    · intro r hr _ l hl
      exact (hval r hr l hl).2
    · obtain ⟨D, hD, hcount⟩ := toSimp_replay h hR
      refine ⟨D, hD, fun X => ?_, fun hinc => ?_⟩
      · rw [toSimp_copies]
        refine Nat.le_trans (count_le_of h.tables.renaming ?_ hR.bound (fun C hC => clauseList_covers hi h0 hc hC) X) (hcount X)
        intro c hcl l hl
        rw [← h.vars]
        rcases clauseList_formula hi h0 hcl with ⟨r, h1, rfl⟩ | ⟨a, b, hw, rfl⟩ | ⟨m, h1, _, rfl⟩
        · exact (hi.clause.valid r h1 l hl).1
        · obtain ⟨_, _, _, h4, h5⟩ := hi.clause.bin a b hw
          simp only [List.mem_cons, List.not_mem_nil, or_false] at hl
          rcases hl with rfl | rfl
          · exact h4.1
          · exact h5.1
        · rw [List.mem_singleton.1 hl]
          exact (hi.trail.valid m (by omega)).1
      · have h1 := hc.empty hinc
        have h2 : 0 < (db.map (List.map w.tables.ext)).countP (sameLits []) :=
          count_pos.2 ⟨[], List.mem_map.2 ⟨[], h1, rfl⟩, .refl _⟩
        obtain ⟨d, hd, hs⟩ := count_pos.1 (Nat.lt_of_lt_of_le h2 (hcount []))
        rwa [sameLits_nil hs] at hd
  have hirr : ∀ σ, SatFormula σ w.toSimp.irr → SatFormula σ F := fun σ hσ => hp.ok.irr σ (toSimp_irr hi h0 hσ)
  refine ⟨hS, ?_, ?_, ?_⟩
  · refine .change h.hist ⟨rfl, rfl, rfl, rfl, fun _ i h => ⟨i, h, id, fun _ => rfl⟩, fun _ _ h _ => h⟩ ?_
    exact Simp.map_implies hS h.range hS.irr_range hirr
  · intro e he i hi
    rcases h.tables.witness e he i hi with h1 | h1
    · exact Or.inl h1
    · exact Or.inr (Or.inl h1)
  · intro σ hσ
    refine ⟨σ, fun c hcc => ?_, fun _ _ _ => rfl⟩
    obtain ⟨d, hd, hs⟩ := hc.mem (toSimp_formula hi h0 hcc)
    exact satClause_same hs (hR.implied σ (hirr σ hσ) d hd)

end

end Verif.Whole
