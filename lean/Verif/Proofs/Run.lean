import Verif.Proofs.AddZero
import Verif.Proofs.Core.Search

/-! # Runs of the library interface -/

namespace Verif.Core

open Verif.Spec

/-- The same checker for a fixed number of variables. -/
def atVars (b : Base) (n0 : Nat) : Base where
  R n lines db := n = n0 ∧ b.R n lines db
  add := fun h hr hc => ⟨h.1, b.add h.2 hr hc⟩

instance (b : Base) [Deletes b] (n0 : Nat) : Deletes (atVars b n0) where
  delete := fun h hc hd => ⟨h.1, Deletes.delete h.2 hc hd⟩

theorem PropInv.rebase {b b' : Base} {G : Assignment → Prop} {s : Solver} (h : PropInv b G s)
    (hb : ∀ db, b.R s.vars s.proof db → b'.R s.vars s.proof db) : PropInv b' G s := by
  obtain ⟨db, h1, h2⟩ := h.ok.proof
  exact h.pstate.prop ⟨db, hb db h1, h2⟩ h.ok.irr

/-- What `kissat_solve` returns. -/
inductive SolveOk (orig : List (List Nat)) (a : Api) (os : List Oracle) (a' : Api) : Nat → Prop
  | sat (h : PropInv (apiBase orig) (Models orig) a'.s)
      (full : a'.s.propagate = a'.s.trail.length) (all : a'.s.unassigned = 0)
      (searched : a'.searches = a.searches + 1) :
      SolveOk orig a os a' 10
  | unsat {db} (h : (apiBase orig).R a'.s.vars a'.s.proof db) (he : [] ∈ db) :
      SolveOk orig a os a' 20
  | unknown {db} (h : (apiBase orig).R a'.s.vars a'.s.proof db)
      (limit : limitHit a.conflictLimit a'.s.conflicts = true ∨ a.flagged = true ∨
        (∃ o ∈ os, o.request = true) ∨ limitHit a.decisionLimit a'.s.decisions = true) :
      SolveOk orig a os a' 0

/-- The interface is unchanged by a search. -/
def Kept' (a a' : Api) : Prop :=
  a'.imports = a.imports ∧ a'.exports = a.exports ∧ a'.s.vars = a.s.vars

theorem solve_ok {orig : List (List Nat)} {a a' : Api} {os : List Oracle} {res : Nat}
    (h : ApiInv orig a) (ho : ∀ o ∈ os, o.Fair a.s) (hs : a.solve os = .done a' res) :
    SolveOk orig a os a' res ∧ Kept' a a' ∧
      (a' = a ∨ a'.searches = a.searches + 1 ∧ a'.s.removed = a.s.removed ∧
        (∀ l, a'.s.values l ≠ 0 → a'.s.Valid l) ∧ a'.conflictLimit = none ∧
        a'.decisionLimit = none ∧ a'.flagged = false) := by
  unfold Api.solve at hs
  split at hs
  · cases hs
  · split at hs
    · cases hs
    · split at hs
      · rename_i hi
        injection hs with e1 e2
        subst e1 e2
        obtain ⟨db, h1, h2⟩ := h.loaded.proof
        exact ⟨.unsat h1 (h2 hi), ⟨rfl, rfl, rfl⟩, .inl rfl⟩
      · rename_i hi
        have hi : a.s.inconsistent = false := by simpa using hi
        split at hs
        · rename_i hse
          injection hs with e1 e2
          subst e1 e2
          obtain ⟨db, h1, h2⟩ := h.loaded.proof
          refine ⟨.unknown h1 (.inl ?_), ⟨rfl, rfl, rfl⟩, .inl rfl⟩
          unfold Api.searching at hse
          repeat' split at hse
          all_goals first | exact absurd hse (by decide) | assumption
        · have hP := (h.loaded.state hi).1.rebase (b' := atVars (apiBase orig) a.s.vars)
            fun db hdb => ⟨rfl, hdb⟩
          have hl := searchLoop_ok os
            (t := ⟨a.s, a.conflictLimit, a.decisionLimit, a.flagged⟩) ⟨hP, hi⟩ ho
          split at hs
          · cases hs
          · cases hs
          · cases hs
          · rename_i t r heq
            rw [heq] at hl
            injection hs with e1 e2
            subst e1 e2
            obtain ⟨hA, h1, h2, h3⟩ := hl
            simp only at h1 h2 h3
            have hfl := searchLoop_flag os heq
            simp only at hfl
            have key : ∀ {db}, (atVars (apiBase orig) a.s.vars).R t.s.vars t.s.proof db →
              (apiBase orig).R t.s.vars t.s.proof db := fun h => h.2
            refine ⟨?_, ⟨rfl, rfl, ?_⟩, .inr ⟨rfl, h3, ?_, rfl, rfl, rfl⟩⟩
            · rcases hA with ⟨rfl, g1, g2, g3⟩ | ⟨rfl, ⟨L, k, g1⟩, g2⟩ | ⟨rfl, g1, g2, g3⟩
              · exact .sat (g1.rebase fun db => key) g2 g3 rfl
              · obtain ⟨db, g3, g4⟩ := g1.proof
                exact .unsat (key g3) (g4.empty g2)
              · obtain ⟨db, g4, _⟩ := g1.prop.ok.proof
                refine .unknown (key g4) ?_
                rcases g3 with g3 | g3 | g3
                · rcases hfl g3 with h | h
                  · exact .inr (.inl h)
                  · exact .inr (.inr (.inl h))
                · rw [h1] at g3; exact .inl g3
                · rw [h2] at g3; exact .inr (.inr (.inr g3))
            · show t.s.vars = a.s.vars
              rcases hA with ⟨_, g1, _⟩ | ⟨_, ⟨L, k, g1⟩, _⟩ | ⟨_, g1, _⟩
              · obtain ⟨db, g3, _⟩ := g1.ok.proof; exact g3.1
              · obtain ⟨db, g3, _⟩ := g1.proof; exact g3.1
              · obtain ⟨db, g3, _⟩ := g1.prop.ok.proof; exact g3.1
            · show ∀ l, t.s.values l ≠ 0 → t.s.Valid l
              rcases hA with ⟨_, g1, _⟩ | ⟨_, ⟨L, k, g1⟩, _⟩ | ⟨_, g1, _⟩
              · exact g1.ok.inv.trail.valid
              · exact g1.inv.trail.valid
              · exact g1.prop.ok.inv.trail.valid

/-- `kissat_solve` only runs into undefined behaviour if garbage is collected and local search is
used. -/
theorem solve_stuck {orig : List (List Nat)} {a : Api} {os : List Oracle}
    (h : ApiInv orig a) (ho : ∀ o ∈ os, o.Fair a.s) (hs : a.solve os = .stuck) :
    (∃ o ∈ os, o.collecting ≠ none) ∧ ∃ o ∈ os, o.localSearch = true := by
  unfold Api.solve at hs
  split at hs
  · cases hs
  · split at hs
    · cases hs
    · split at hs
      · cases hs
      · rename_i hi
        have hi : a.s.inconsistent = false := by simpa using hi
        split at hs
        · cases hs
        · have hl := searchLoop_ok os
            (t := ⟨a.s, a.conflictLimit, a.decisionLimit, a.flagged⟩)
            ⟨(h.loaded.state hi).1, hi⟩ ho
          split at hs <;> rename_i heq
          · cases hs
          · rw [heq] at hl; exact hl.elim
          · rw [heq] at hl
            refine ⟨?_, hl.2⟩
            rcases hl.1 with hl | ⟨o, h1, h2⟩
            · have hl : a.s.loose = true := hl
              rw [h.loaded.loose] at hl; cases hl
            · exact ⟨o, h1, h2⟩
          · cases hs

theorem activateAll_eq : ∀ (lits : List Nat) (s : Solver),
    ∃ rem ua, s.activateAll lits = { s with removed := rem, unassigned := ua } ∧
      ∀ v, rem v = false ↔ s.removed v = false ∨ ∃ l ∈ lits, l / 2 = v
  | [], s => ⟨s.removed, s.unassigned, rfl, fun v => by simp⟩
  | l :: lits, s => by
    obtain ⟨rem, ua, e, h⟩ := activateAll_eq lits (s.activate l)
    have hst : s.activateAll (l :: lits) = (s.activate l).activateAll lits := rfl
    rw [hst, e]
    unfold Solver.activate at h ⊢
    split
    · rename_i hr
      rw [if_pos hr] at h
      refine ⟨rem, ua, rfl, fun v => ?_⟩
      rw [h v]
      simp only [upd_apply, List.mem_cons]
      constructor
      · rintro (h1 | ⟨m, hm, h1⟩)
        · split at h1
          · rename_i h2; exact .inr ⟨l, .inl rfl, h2.symm⟩
          · exact .inl h1
        · exact .inr ⟨m, .inr hm, h1⟩
      · rintro (h1 | ⟨m, rfl | hm, h1⟩)
        · left; split
          · rfl
          · exact h1
        · left; rw [if_pos h1.symm]
        · exact .inr ⟨m, hm, h1⟩
    · rename_i hr
      rw [if_neg hr] at h
      refine ⟨rem, ua, rfl, fun v => ?_⟩
      rw [h v]
      constructor
      · rintro (h1 | ⟨m, hm, h1⟩)
        · exact .inl h1
        · exact .inr ⟨m, by simp [hm], h1⟩
      · rintro (h1 | ⟨m, hm, h1⟩)
        · exact .inl h1
        · rcases List.mem_cons.1 hm with rfl | hm
          · left; rw [← h1]; simpa using hr
          · exact .inr ⟨m, hm, h1⟩

theorem Loaded.activateAll {orig : List (List Nat)} {s : Solver} (h : Loaded orig s)
    {lits : List Nat} (hl : ∀ l ∈ lits, l / 2 < s.vars) : Loaded orig (s.activateAll lits) := by
  obtain ⟨h1, h2, h3, h4, h5, h6⟩ := h
  obtain ⟨rem, ua, e, hrem⟩ := activateAll_eq lits s
  have hps := fun hi => PState.activateAll lits (h2 hi).1.pstate hl
  rw [e] at hps ⊢
  refine ⟨h1, fun hi => ?_, h3, fun v hv => ?_, fun l hl =>
    ⟨(h5 l hl).1, (hrem _).2 (.inl (h5 l hl).2)⟩, h6⟩
  · obtain ⟨g1, g2⟩ := h2 hi
    obtain ⟨db, g3, g4⟩ := g1.ok.proof
    obtain ⟨_, _, _, g5, _⟩ := hps hi
    exact ⟨g5.prop ⟨db, g3, g4.resize s.vars rem ua⟩ g1.ok.irr, g2⟩
  · show rem v = true
    cases e' : rem v with
    | true => rfl
    | false =>
      rcases (hrem v).1 e' with e | ⟨l, hl', e⟩
      · rw [h4 v hv] at e; cases e
      · have := hl l hl'
        have hv : s.vars ≤ v := hv
        omega

/-- Importing many variables. -/
theorem importAll_ok : ∀ (l : List Nat) {a : Api}, ImportInv a →
    ImportInv (l.foldl (fun a (idx : Nat) => (a.importLiteral ((idx : Int) + 1)).1) a) ∧
    Grown a (l.foldl (fun a (idx : Nat) => (a.importLiteral ((idx : Int) + 1)).1) a) ∧
    ∀ idx ∈ l, idx + 1 ∈
      (l.foldl (fun a (idx : Nat) => (a.importLiteral ((idx : Int) + 1)).1) a).exports
  | [], a, h => ⟨h, .refl a, by simp⟩
  | x :: l, a, h => by
    obtain ⟨h1, h2, h3, h4⟩ := importLiteral_ok h (e := (x : Int) + 1) (by omega)
    obtain ⟨g1, g2, g3⟩ := importAll_ok l h1
    refine ⟨g1, h2.trans g2, fun idx hidx => ?_⟩
    rcases List.mem_cons.1 hidx with rfl | hidx
    · have hmem : idx + 1 ∈ (a.importLiteral ((idx : Int) + 1)).1.exports := by
        generalize a.importLiteral ((idx : Int) + 1) = p at *
        have hlt : p.2 / 2 < p.1.exports.length := by rw [h1.len]; exact h3
        have hx := List.getElem?_eq_getElem hlt
        have : p.1.exports[p.2 / 2] = idx + 1 := by
          unfold Api.exportLiteral at h4
          simp only [List.getD_eq_getElem?_getD, hx, Option.getD_some] at h4
          split at h4
          · omega
          · split at h4 <;> omega
        rw [← this]
        exact List.getElem_mem hlt
      obtain ⟨n, i, e, hn, hb⟩ := g2
      show idx + 1 ∈ (List.foldl _ (a.importLiteral ((idx : Int) + 1)).1 l).exports
      rw [hb]
      exact List.mem_append.2 (.inl hmem)
    · exact g3 idx hidx

theorem reserve_ok {a b : Api} {n : Int} (h : ImportInv a) (hr : a.reserve n = .ok b) :
    ImportInv b ∧ b.searches = a.searches ∧ b.original = a.original ∧ b.conflictLimit = a.conflictLimit ∧
    (∀ l, l / 2 < a.s.vars → b.exportLiteral l = a.exportLiteral l) ∧
    ∀ orig, ApiInv orig a → ApiInv orig b := by
  unfold Api.reserve at hr
  split at hr
  · cases hr
  · split at hr
    · cases hr
    · split at hr
      · injection hr with e; subst e
        exact ⟨h, rfl, rfl, rfl, fun _ _ => rfl, fun _ h => h⟩
      · obtain ⟨h1, h2, h3⟩ := importAll_ok (List.range n.natAbs) h
        simp only at hr
        generalize List.foldl _ a (List.range n.natAbs) = c at *
        split at hr
        · cases hr
        · injection hr with e; subst e
          have hx := fun l (hl : l / 2 < a.s.vars) => h2.export h hl
          have hvars : n.natAbs ≤ c.s.vars := by
            have := nodup_length_le (l := (List.range n.natAbs).map (· + 1)) (m := c.exports)
              (by
                refine List.Pairwise.map _ (fun a b h => ?_) List.nodup_range
                simpa using h) (by
                intro x hx
                obtain ⟨y, hy, rfl⟩ := List.mem_map.1 hx
                exact h3 y hy)
            rw [← h1.len]
            simpa using this
          have hb : ∀ l ∈ (List.range n.natAbs).map (2 * ·), l / 2 < c.s.vars := by
            intro l hl
            obtain ⟨y, hy, rfl⟩ := List.mem_map.1 hl
            have := List.mem_range.1 hy
            omega
          obtain ⟨rem, ua, e, hrem⟩ := activateAll_eq ((List.range n.natAbs).map (2 * ·)) c.s
          have hflds : c.searches = a.searches ∧ c.original = a.original ∧
              c.conflictLimit = a.conflictLimit := by
            obtain ⟨n, i, e, hn, rfl⟩ := h2; exact ⟨rfl, rfl, rfl⟩
          refine ⟨?_, hflds.1, hflds.2.1, hflds.2.2, hx, fun orig hA => ?_⟩
          · rw [e]; exact ⟨h1.1, h1.2, h1.3⟩
          · obtain ⟨k1, k2, k3⟩ := hA.grow h2 h1
            refine ⟨k1.activateAll hb, ?_, ?_⟩
            · rw [e]; exact ⟨h1.1, h1.2, h1.3⟩
            · rw [e]
              exact ⟨k3.1, k3.2, k3.3, k3.4, k3.5, k3.6, k3.7, k3.8, k3.9, k3.10⟩

/-- Invariant of runs. -/
structure RunInv (cs : List Call) (a : Api) : Prop where
  imports : ImportInv a
  valid : ∀ e ∈ addedInts cs, validExternal e = true
  loaded : a.searches = 0 → ∃ orig, ApiInv orig a ∧
    orig.map (List.map a.exportLiteral) = clausesOf (addedInts cs) ∧
    a.original.map a.exportLiteral = pendingOf (addedInts cs)

theorem init_loaded (o : Options) (t : Bool) (p e : Nat) : ApiInv [] (Api.init o t p e) := by
  have ht : TrailInv (Api.init o t p e).s := by
    refine ⟨fun l => .inr (.inl rfl), fun l => rfl, fun l h => absurd rfl h, rfl, List.nodup_nil,
      ?_, ?_, ?_, ?_, rfl, ?_, ?_, rfl⟩
    · intro l h; cases h
    · intro p l h; simp [Api.init] at h
    · intro l h; cases h
    · intro l h; cases h
    · intro j f h; simp [Api.init] at h
    · intro j f h; simp [Api.init] at h
  have hn : ∀ r, ¬ (Api.init o t p e).s.Live r := by
    intro r h
    have := clause_lt h
    simp [Api.init] at this
  have hinv : Inv (Api.init o t p e).s := by
    refine ⟨ht, ⟨?_, ?_, ?_, ?_, ?_⟩, ⟨?_, ?_, ?_, ?_, ?_, ?_, ?_⟩, ⟨?_, ?_, ?_, ?_⟩⟩
    · intro l h; cases h
    · intro l h; cases h
    · intro l h; cases h
    · intro l o h; cases h
    · intro l r h; cases h
    · intro r h; exact absurd h (hn r)
    · intro r h; exact absurd h (hn r)
    · intro r h; exact absurd h (hn r)
    · intro r h; exact absurd h (hn r)
    · intro r h; exact absurd h (hn r)
    · intro a b h; cases h
    · intro r h; simp [Api.init] at h
    · intro r h; exact absurd h (hn r)
    · intro w b r h; cases h
    · intro w b r h; cases h
    · intro w; exact List.nodup_nil
  have hP : PropInv (apiBase []) (Models []) (Api.init o t p e).s := by
    refine ⟨⟨hinv, ⟨[], ⟨by simp [Api.init], by simp, .nil⟩, ?_⟩, fun σ _ c hc => by cases hc⟩,
      ⟨fun r h => absurd h (hn r), fun w o h => by cases h⟩, by simp [Api.init], Nat.le_refl _⟩
    refine ⟨fun X => ?_, fun a b => Nat.le_refl _, fun l h => (by cases h), fun h => (by cases h)⟩
    simp [Solver.copies, Api.init]
  refine ⟨Loaded.of_prop hP rfl rfl (fun _ _ => rfl) rfl, ⟨rfl, ?_, ?_⟩, ⟨?_, List.nodup_nil, ?_, ?_, ?_, ?_, ?_, ?_, ?_, ?_⟩⟩
  all_goals simp [Api.init]

theorem addedInts_append (cs : List Call) (c : Call) :
    addedInts (cs ++ [c]) = addedInts cs ++ addedInts [c] := by
  unfold addedInts; rw [List.filterMap_append]

theorem map_export_congr {a b : Api} {n : Nat} {c : List Nat} (hc : ∀ l ∈ c, l / 2 < n)
    (h : ∀ l, l / 2 < n → b.exportLiteral l = a.exportLiteral l) :
    c.map b.exportLiteral = c.map a.exportLiteral :=
  List.map_congr_left fun l hl => h l (hc l hl)

theorem ApiInv.bound {orig : List (List Nat)} {a : Api} (h : ApiInv orig a) :
    ∀ c ∈ orig, ∀ l ∈ c, l / 2 < a.s.vars := by
  obtain ⟨db, h1, _⟩ := h.loaded.proof
  exact h1.2.1

theorem run_inv {o : Options} {t : Bool} {p e : Nat} {cs : List Call} {a : Api}
    (h : Run (Api.init o t p e) cs a) : RunInv cs a := by
  induction h with
  | nil =>
    exact ⟨(init_loaded o t p e).imports, by simp [addedInts], fun _ =>
      ⟨[], init_loaded o t p e, rfl, rfl⟩⟩
  | @snoc cs b c b' ret _ hfair hstep ih =>
    obtain ⟨h1, h2, h3⟩ := ih
    cases hstep with
    | @add e _ ha =>
      have hsplit : addedInts (cs ++ [.add e]) = addedInts cs ++ [e] := addedInts_append cs _
      unfold Api.add at ha
      split at ha
      · cases ha
      · rename_i h0
        have h0 : b.searches = 0 := by simpa using h0
        obtain ⟨orig, hA, hcl, hpe⟩ := h3 h0
        split at ha
        · rename_i hne
          split at ha
          · rename_i hv
            injection ha with e1; subst e1
            obtain ⟨ilit, g1, g2, g3, g4, g5, g6, _⟩ := addLiteral_ok hA hne
            refine ⟨g1.imports, ?_, fun _ => ⟨orig, g1, ?_, ?_⟩⟩
            · rw [hsplit]
              intro x hx
              rcases List.mem_append.1 hx with hx | hx
              · exact h2 x hx
              · rw [List.mem_singleton.1 hx]; exact hv
            · rw [hsplit, clausesOf_lit _ hne, ← hcl]
              exact List.map_congr_left fun c hc => map_export_congr (hA.bound c hc) g5
            · rw [hsplit, pendingOf_lit _ hne, ← hpe, g2, List.map_append]
              rw [map_export_congr hA.pending.bound g5]
              simp [g4]
          · cases ha
        · rename_i hz
          have hz : e = 0 := by simpa using hz
          subst hz
          injection ha with e1; subst e1
          obtain ⟨g1, g2⟩ := addZero_ok hA
          refine ⟨g1.imports, ?_, fun _ => ⟨_, g1, ?_, ?_⟩⟩
          · rw [hsplit]
            intro x hx
            rcases List.mem_append.1 hx with hx | hx
            · exact h2 x hx
            · rw [List.mem_singleton.1 hx]; rfl
          · rw [hsplit, clausesOf_zero, ← hcl, ← hpe, List.map_append]; rfl
          · rw [hsplit, pendingOf_zero]; rfl
    | @reserve n _ hr =>
      have hsplit : addedInts (cs ++ [.reserve n]) = addedInts cs := by
        rw [addedInts_append]; exact List.append_nil _
      obtain ⟨g1, g2, g3, _, g4, g5⟩ := reserve_ok h1 hr
      refine ⟨g1, by rw [hsplit]; exact h2, fun h0 => ?_⟩
      rw [hsplit]
      obtain ⟨orig, hA, hcl, hpe⟩ := h3 (g2 ▸ h0)
      refine ⟨orig, g5 _ hA, ?_, ?_⟩
      · rw [← hcl]
        exact List.map_congr_left fun c hc => map_export_congr (hA.bound c hc) g4
      · rw [← hpe, g3]; exact map_export_congr hA.pending.bound g4
    | terminate =>
      have hsplit : addedInts (cs ++ [.terminate]) = addedInts cs := by
        rw [addedInts_append]; exact List.append_nil _
      refine ⟨⟨h1.1, h1.2, h1.3⟩, by rw [hsplit]; exact h2, fun h0 => ?_⟩
      rw [hsplit]
      obtain ⟨orig, ⟨k1, k2, k3⟩, hcl, hpe⟩ := h3 h0
      exact ⟨orig, ⟨k1, ⟨k2.1, k2.2, k2.3⟩,
        ⟨k3.1, k3.2, k3.3, k3.4, k3.5, k3.6, k3.7, k3.8, k3.9, k3.10⟩⟩, hcl, hpe⟩
    | @setTerminate f =>
      have hsplit : addedInts (cs ++ [.setTerminate f]) = addedInts cs := by
        rw [addedInts_append]; exact List.append_nil _
      refine ⟨⟨h1.1, h1.2, h1.3⟩, by rw [hsplit]; exact h2, fun h0 => ?_⟩
      rw [hsplit]
      obtain ⟨orig, ⟨k1, k2, k3⟩, hcl, hpe⟩ := h3 h0
      exact ⟨orig, ⟨k1, ⟨k2.1, k2.2, k2.3⟩,
        ⟨k3.1, k3.2, k3.3, k3.4, k3.5, k3.6, k3.7, k3.8, k3.9, k3.10⟩⟩, hcl, hpe⟩
    | @setConflictLimit n =>
      have hsplit : addedInts (cs ++ [.setConflictLimit n]) = addedInts cs := by
        rw [addedInts_append]; exact List.append_nil _
      refine ⟨⟨h1.1, h1.2, h1.3⟩, by rw [hsplit]; exact h2, fun h0 => ?_⟩
      rw [hsplit]
      obtain ⟨orig, ⟨k1, k2, k3⟩, hcl, hpe⟩ := h3 h0
      exact ⟨orig, ⟨k1, ⟨k2.1, k2.2, k2.3⟩,
        ⟨k3.1, k3.2, k3.3, k3.4, k3.5, k3.6, k3.7, k3.8, k3.9, k3.10⟩⟩, hcl, hpe⟩
    | @setDecisionLimit n =>
      have hsplit : addedInts (cs ++ [.setDecisionLimit n]) = addedInts cs := by
        rw [addedInts_append]; exact List.append_nil _
      refine ⟨⟨h1.1, h1.2, h1.3⟩, by rw [hsplit]; exact h2, fun h0 => ?_⟩
      rw [hsplit]
      obtain ⟨orig, ⟨k1, k2, k3⟩, hcl, hpe⟩ := h3 h0
      exact ⟨orig, ⟨k1, ⟨k2.1, k2.2, k2.3⟩,
        ⟨k3.1, k3.2, k3.3, k3.4, k3.5, k3.6, k3.7, k3.8, k3.9, k3.10⟩⟩, hcl, hpe⟩
    | @solve os _ _ hs =>
      have hsplit : addedInts (cs ++ [.solve os]) = addedInts cs := by
        rw [addedInts_append]; exact List.append_nil _
      have h0 : b.searches = 0 := by
        unfold Api.solve at hs
        split at hs
        · cases hs
        · split at hs
          · cases hs
          · rename_i h; simpa using h
      obtain ⟨orig, hA, hcl, hpe⟩ := h3 h0
      obtain ⟨_, ⟨g1, g2, g3⟩, g4⟩ := solve_ok hA hfair hs
      refine ⟨⟨?_, ?_, ?_⟩, by rw [hsplit]; exact h2, fun h0' => ?_⟩
      · rw [g2, g3]; exact h1.len
      · rw [g1, g2]; exact h1.fwd
      · rw [g1, g2]; exact h1.bwd
      · rcases g4 with rfl | g4
        · rw [hsplit]; exact ⟨orig, hA, hcl, hpe⟩
        · omega

end Verif.Core
