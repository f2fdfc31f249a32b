import Verif.Proofs.Whole.FromSimp

/-!
# Runs of the whole solver
-/

namespace Verif.Whole

open Verif.Spec Verif.Model Verif.Core
open Verif.Model.Extend (History)

variable {orig : List (List Nat)}

/-- Between two iterations of the search loop. -/
def Running (orig : List (List Nat)) (w : State) : Prop :=
  ∃ F, ∃ h : Frame orig w F, Between h.base (fun σ => SatFormula σ F) w.t.s

/-- At the root level, completely propagated. -/
def Root (orig : List (List Nat)) (w : State) : Prop :=
  ∃ F, ∃ h : Frame orig w F, Between h.base (fun σ => SatFormula σ F) w.t.s ∧
    w.t.s.propagate = w.t.s.trail.length ∧ w.t.s.level = 0

/-- All variables assigned. -/
def Found (orig : List (List Nat)) (w : State) : Prop :=
  ∃ F, ∃ h : Frame orig w F, h.Good w.t.s ∧ w.t.s.propagate = w.t.s.trail.length ∧ w.t.s.unassigned = 0

/-- The proof refutes the clauses. -/
def Refuted (orig : List (List Nat)) (w : State) : Prop := ∃ D, Replay orig w.proof D ∧ [] ∈ D

theorem Root.running {w : State} (h : Root orig w) : Running orig w := by
  obtain ⟨F, h1, h2, _⟩ := h
  exact ⟨F, h1, h2⟩

/-- What is known after an answer. -/
def Answered (orig : List (List Nat)) (w : State) (res : Nat) : Prop :=
  (res = 10 ∧ Found orig w) ∨ (res = 20 ∧ Refuted orig w) ∨ (res = 0 ∧ Running orig w)

theorem refuted_of {w : State} {F : Formula} (h : Frame orig w F) {t : Search} {db : List (List Nat)}
    (hR : h.base.R t.s.vars t.s.proof db) (he : [] ∈ db) : Refuted orig { w with t := t } := by
  obtain ⟨D, h1, h2⟩ := hR.replay
  refine ⟨D, ?_, ?_⟩
  · unfold State.proof
    rw [renameLine_eq]
    exact h1
  · have h3 : 0 < (db.map (List.map w.tables.ext)).countP (sameLits []) :=
      count_pos.2 ⟨[], List.mem_map.2 ⟨[], he, rfl⟩, .refl _⟩
    obtain ⟨d, hd, hs⟩ := count_pos.1 (Nat.lt_of_lt_of_le h3 (h2 []))
    rwa [sameLits_nil hs] at hd

theorem Frame.step {w : State} {F : Formula} (h : Frame orig w F) {t : Search} {db : List (List Nat)}
    (hR : h.base.R t.s.vars t.s.proof db) (hr : t.s.removed = w.t.s.removed) : Frame orig { w with t := t } F :=
  h.with (hR.vars.trans h.vars.symm) hr

theorem Running.accepted {w : State} (h : Running orig w) : ∃ D, Replay orig w.proof D := by
  obtain ⟨F, h1, h2⟩ := h
  obtain ⟨db, hR, _⟩ := h2.prop.ok.proof
  obtain ⟨D, hD, _⟩ := toSimp_replay h1 hR
  exact ⟨D, hD⟩

theorem Found.accepted {w : State} (h : Found orig w) : ∃ D, Replay orig w.proof D := by
  obtain ⟨F, h1, h2, _⟩ := h
  obtain ⟨db, hR, _⟩ := h2.ok.proof
  obtain ⟨D, hD, _⟩ := toSimp_replay h1 hR
  exact ⟨D, hD⟩

theorem Answered.accepted {w : State} {res : Nat} (h : Answered orig w res) : ∃ D, Replay orig w.proof D := by
  rcases h with ⟨_, h⟩ | ⟨_, D, h, _⟩ | ⟨_, h⟩
  · exact h.accepted
  · exact ⟨D, h⟩
  · exact h.accepted

/-! ## Simplification -/

theorem flushEliminated_inconsistent : ∀ (rs : List Nat) (x : Simp.State),
    (x.flushEliminated rs).inconsistent = x.inconsistent
  | [], _ => rfl
  | r :: rs, x => by
    unfold Simp.State.flushEliminated
    split
    · exact flushEliminated_inconsistent rs x
    · split
      · rw [flushEliminated_inconsistent rs]; rfl
      · exact flushEliminated_inconsistent rs x

theorem resume_ok {w w' : State} {x : Simp.State} {bigbig : Bool} {c : Option Conflict} (hx : Simp.Inv orig none x)
    (hi : x.inconsistent = false) (hr : w.resume bigbig x = (w', c)) :
    (c = none → Root orig w' ∧ w'.t.s.loose = false) ∧ (c ≠ none → Refuted orig w') := by
  have hy := Simp.Inv.flushEliminated (List.range x.arena.length) hx
  have hyi : (x.flushEliminated (List.range x.arena.length)).inconsistent = false := by
    rw [flushEliminated_inconsistent]; exact hi
  unfold State.resume at hr
  simp only at hr
  generalize x.flushEliminated (List.range x.arena.length) = y at hy hyi hr
  have hF := Frame.of_struct (s := w.t.s) (bigbig := bigbig) hy w.t
  have hg := fromSimp_good (s := w.t.s) (bigbig := bigbig) hy hyi w.t
  have hp := searchPropagate_ok hg
  cases hs : searchPropagate (fromSimp w.t.s bigbig y) with
  | mk s d =>
    rw [hs] at hr hp
    simp only [Prod.mk.injEq] at hr
    obtain ⟨rfl, rfl⟩ := hr
    obtain ⟨hsame, hok, hlev, hp⟩ := hp
    simp only at hsame hok hlev hp
    obtain ⟨db, hR, hcov⟩ := hok.proof
    cases d with
    | none =>
      obtain ⟨h1, h2, h3⟩ := hp
      have hF' := Frame.step (t := { w.t with s := s }) hF hR hsame.removed
      exact ⟨fun _ => ⟨⟨_, hF', ⟨h1, h3.trans hyi⟩, h2, hlev⟩, hsame.loose⟩, fun h => absurd rfl h⟩
    | some d =>
      simp only at hp
      rw [if_pos (show (fromSimp w.t.s bigbig y).level = 0 from rfl)] at hp
      exact ⟨fun h => (by cases h), fun _ => refuted_of (t := { w.t with s := s }) hF hR (hcov.empty hp)⟩

theorem simplify_ok {w w' : State} {res : Nat} (h : Root orig w) (hs : Simplify w w' res) :
    (res = 20 ∧ Refuted orig w') ∨ (res = 0 ∧ Root orig w' ∧ w'.t.s.loose = false) := by
  obtain ⟨F, hF, hb, hfull, h0⟩ := h
  have hfine : ∀ {x : Simp.State}, Simp.Reach (· = w.toSimp) x → Simp.Fine orig x := fun hx =>
    hx.fine fun s hs => by rw [hs]; exact (toSimp_inv hF hb.prop h0).fine
  cases hs with
  | unsat hx hi =>
    obtain ⟨D, h1, h2⟩ := (hfine hx).unsat hi
    refine Or.inl ⟨rfl, D, ?_, h2⟩
    show Replay orig (_ ++ []) D
    rw [List.append_nil]; exact h1
  | conflict hx hi hr => exact Or.inl ⟨rfl, (resume_ok ((hfine hx).inv hi) hi hr).2 (by simp)⟩
  | done hx hi hr => exact Or.inr ⟨rfl, (resume_ok ((hfine hx).inv hi) hi hr).1 rfl⟩

/-! ## The loop -/

theorem iteration_step {w : State} {F : Formula} (hF : Frame orig w F) (hb : Between hF.base (fun σ => SatFormula σ F) w.t.s)
    {o : Oracle} (ho : o.Fair w.t.s) :
    match iteration o w.t with
    | .next t => Running orig { w with t := t }
    | .done t res => Answered orig { w with t := t } res
    | .stuck => w.t.s.loose = true ∧ o.localSearch = true := by
  have hi := iteration_ok hb ho
  cases hit : iteration o w.t with
  | stuck => rw [hit] at hi; exact hi
  | next t =>
    rw [hit] at hi
    obtain ⟨h1, h2, _⟩ := hi
    obtain ⟨db, hR, _⟩ := h1.prop.ok.proof
    exact ⟨F, hF.step hR h2.removed, h1⟩
  | done t res =>
    rw [hit] at hi
    obtain ⟨h1, _, _, hrem⟩ := hi
    rcases h1 with ⟨rfl, h1, h2, h3⟩ | ⟨rfl, ⟨L, k, h1⟩, h2⟩ | ⟨rfl, h1, _⟩
    · obtain ⟨db, hR, _⟩ := h1.ok.proof
      exact Or.inl ⟨rfl, F, hF.step hR hrem, h1, h2, h3⟩
    · obtain ⟨db, hR, hcov⟩ := h1.proof
      exact Or.inr (Or.inl ⟨rfl, refuted_of hF hR (hcov.empty h2)⟩)
    · obtain ⟨db, hR, _⟩ := h1.prop.ok.proof
      exact Or.inr (Or.inr ⟨rfl, F, hF.step hR hrem, h1⟩)

/-- Before simplification the solver goes to the root level. -/
theorem root_of_propagated {w : State} (h : Running orig w) {s : Core.Solver} (hp : searchPropagate w.t.s = (s, none))
    (hn : s.rootConflict = false) : Root orig { w with t := { w.t with s := s.flushToRoot } } := by
  obtain ⟨F, hF, hb⟩ := h
  have h1 := searchPropagate_ok hb.prop
  rw [hp] at h1
  obtain ⟨hsame, hok, _, hP, hfull, hinc⟩ := h1
  simp only at hsame hok hP hfull hinc
  obtain ⟨h2, h3, h4, h5⟩ := flushToRoot_ok hP hfull hn
  obtain ⟨db, hR, _⟩ := h2.ok.proof
  refine ⟨F, hF.step (t := { w.t with s := s.flushToRoot }) hR (h4.removed.trans hsame.removed), ⟨h2, ?_⟩, h3, h5⟩
  exact h4.inconsistent.trans (hinc.trans hb.consistent)

theorem step_ok {w w' : State} {r : Bool} {a : Option Nat} (h : Running orig w) (hs : Step w r w' a) :
    match a with
    | none => Running orig w'
    | some res => Answered orig w' res := by
  cases hs with
  | next ho hit =>
    obtain ⟨F, hF, hb⟩ := h
    have := iteration_step hF hb ho
    rw [hit] at this
    exact this
  | done ho hit =>
    obtain ⟨F, hF, hb⟩ := h
    have := iteration_step hF hb ho
    rw [hit] at this
    exact this
  | inprocess hp _ _ _ hn hsimp =>
    rcases simplify_ok (root_of_propagated h hp hn) hsimp with ⟨rfl, h1⟩ | ⟨rfl, h1⟩
    · exact Or.inr (Or.inl ⟨rfl, h1⟩)
    · exact h1.1.running
  | conflict hp _ _ _ hn =>
    obtain ⟨F, hF, hb⟩ := h
    have h1 := searchPropagate_ok hb.prop
    rw [hp] at h1
    obtain ⟨g1, g2, _, _⟩ := flushToRoot_refuted h1.2.2.2.1 hn
    obtain ⟨db, hR, hcov⟩ := g1.proof
    exact Or.inr (Or.inl ⟨rfl, refuted_of hF hR (hcov.empty g2)⟩)

theorem loop_ok {w w' : State} {rs : List Bool} {res : Nat} (hs : Loop w rs w' res) : Running orig w → Answered orig w' res := by
  induction hs with
  | done hs => exact fun h => step_ok h hs
  | next hs _ ih => exact fun h => ih (step_ok h hs)

theorem Answered.stop {w : State} {res : Nat} (h : Answered orig w res) : Answered orig w.stop res := by
  rcases h with ⟨e, F, hF, h⟩ | ⟨e, h⟩ | ⟨e, F, hF, h⟩
  · exact Or.inl ⟨e, F, hF.with (t := stopSearch w.t) rfl rfl, h⟩
  · exact Or.inr (Or.inl ⟨e, h⟩)
  · exact Or.inr (Or.inr ⟨e, F, hF.with (t := stopSearch w.t) rfl rfl, h⟩)

/-! ## Lucky phases -/

theorem lucky_outcome {w : State} (h : Root orig w) (hlo : w.t.s.loose = false) (on enabled : Bool) :
    ∃ w' res, w.lucky on enabled = some (w', res) ∧ Answered orig w' res ∧
      (res = 0 → Root orig w' ∧ w'.t.s.loose = false) := by
  obtain ⟨F, hF, hb, hfull, h0⟩ := h
  unfold State.lucky
  cases on with
  | false =>
    rw [if_neg (by simp)]
    exact ⟨_, _, rfl, Or.inr (Or.inr ⟨rfl, F, hF, hb⟩), fun _ => ⟨⟨F, hF, hb, hfull, h0⟩, hlo⟩⟩
  | true =>
    rw [if_pos rfl]
    have hP := hb.prop
    have ht := hP.ok.inv.trail
    have hfr : w.t.s.frames = [] := List.eq_nil_of_length_eq_zero (by rw [ht.frames, h0])
    have hst : Steady hF.base (fun σ => SatFormula σ F) w.t.s := ⟨hP, hb.consistent, hfull, by
      intro j f hj; rw [hfr] at hj; simp at hj, hlo⟩
    have hG : ∀ σ, SatFormula σ F → SatFormula σ w.t.s.formula := by
      intro σ hσ c hc
      obtain ⟨db, hR, hcov⟩ := hP.ok.proof
      obtain ⟨d, hd, hs⟩ := hcov.mem hc
      exact satClause_same hs (hR.implied σ hσ d hd)
    have hok := lucky_ok hst h0 hG (imports := w.tables.imports.map fun i => ⟨i.lit, i.imported && !i.eliminated⟩) ?_ ?_ enabled
    · cases hr : Core.lucky enabled (w.tables.imports.map fun i => ⟨i.lit, i.imported && !i.eliminated⟩) w.t.s with
      | none => rw [hr] at hok; exact hok.elim
      | some p =>
        obtain ⟨s, r⟩ := p
        rw [hr] at hok
        refine ⟨_, _, rfl, ?_⟩
        unfold LuckyOk at hok
        split at hok
        · rename_i heq
          simp only [Option.some.injEq, Prod.mk.injEq] at heq
          obtain ⟨rfl, rfl⟩ := heq
          obtain ⟨h1, h2, h3⟩ := hok
          exact ⟨Or.inl ⟨rfl, F, hF.with (t := { w.t with s := s }) h2.vars h2.removed, h1.prop, h1.full,
            h3.unassigned h1.prop.ok.inv.trail⟩, fun h => absurd h (by omega)⟩
        · rename_i heq
          simp only [Option.some.injEq, Prod.mk.injEq] at heq
          obtain ⟨rfl, rfl⟩ := heq
          obtain ⟨h1, ⟨L, k, h2⟩, h3⟩ := hok
          obtain ⟨db, h4, h5⟩ := h2.proof
          exact ⟨Or.inr (Or.inl ⟨rfl, refuted_of (t := { w.t with s := s }) hF h4 (h5.empty h3)⟩), fun h => absurd h (by omega)⟩
        · rename_i heq
          simp only [Option.some.injEq, Prod.mk.injEq] at heq
          obtain ⟨rfl, rfl⟩ := heq
          obtain ⟨h1, h2, h3, h4⟩ := hok
          have hR : Root orig { w with t := { w.t with s := s } } :=
            ⟨F, hF.with (t := { w.t with s := s }) h2.vars h2.removed, ⟨h1.prop, h1.consistent⟩, h1.full, h4⟩
          exact ⟨Or.inr (Or.inr ⟨rfl, hR.running⟩), fun _ => ⟨hR, h1.loose⟩⟩
        · exact hok.elim
    · intro i hi him
      obtain ⟨j, hj, rfl⟩ := List.mem_map.1 hi
      simp only [Bool.and_eq_true, Bool.not_eq_true'] at him
      obtain ⟨u, hu⟩ := List.mem_iff_getElem?.1 hj
      rw [hF.vars]
      exact (hF.tables.back u j hu him.1 him.2).1
    · intro v hv hr
      rw [hF.vars] at hv
      obtain ⟨i, h1, h2, h3⟩ := hF.tables.imported v hv hr
      obtain ⟨h4, h5⟩ := hF.tables.back _ i h1 h2 h3
      refine ⟨_, List.mem_map.2 ⟨i, List.mem_of_getElem? h1, rfl⟩, by simp [h2, h3], ?_⟩
      apply hF.tables.inj _ _ h4 hv
      have h6 : ((bare w.tables).exportLiteral i.lit).natAbs = _ := Simp.exportLiteral_abs (bare w.tables) i.lit
      have h5 : (bare w.tables).exportLiteral i.lit = _ := h5
      rw [h5] at h6
      exact h6.symm

theorem lucky_phase {w w' : State} {on enabled : Bool} {res : Nat} (h : Root orig w) (hlo : w.t.s.loose = false)
    (hl : w.lucky on enabled = some (w', res)) :
    Answered orig w' res ∧ (res = 0 → Root orig w' ∧ w'.t.s.loose = false) := by
  obtain ⟨v, r, h1, h2⟩ := lucky_outcome h hlo on enabled
  rw [hl] at h1
  simp only [Option.some.injEq, Prod.mk.injEq] at h1
  obtain ⟨rfl, rfl⟩ := h1
  exact h2

end Verif.Whole
