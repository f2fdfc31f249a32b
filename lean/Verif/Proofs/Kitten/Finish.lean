import Verif.Proofs.Kitten.Input

/-! # The end of a search of kitten -/

namespace Verif.Kitten

open Verif.Spec
open Verif.Core (upd)

theorem Alike.calm {k k' : Kitten} (h : Alike k k') : Alike k.calm k'.calm := by
  unfold Kitten.calm Kitten.root
  rw [h.level]
  by_cases h0 : k.level ≠ 0
  · rw [if_pos h0, if_pos h0]
    unfold Kitten.restart
    refine ⟨?_, h.vars, rfl, rfl, rfl, ?_, h.exports, h.imports, h.watches, h.units, h.inconsistent, h.antecedents, h.learned, h.klauses⟩
    · show clearValues k'.values k'.trail = clearValues k.values k.trail
      rw [h.values, h.trail]
    · show k'.unassigned + k'.trail.length = k.unassigned + k.trail.length
      rw [h.unassigned, h.trail]
  · rw [if_neg h0, if_neg h0]
    exact ⟨h.1, h.2, h.3, h.4, h.5, h.6, h.7, h.8, h.9, h.10, h.11, h.12, h.13, h.14⟩

/-- The state returned by the search. -/
def Kitten.finished (res : Nat) (k : Kitten) : Kitten :=
  { (if res = 0 ∧ k.assumptions ≠ [] then k.resetAssumptions else k) with status := res }

theorem finish_eq (res : Nat) (k : Kitten) : k.finish res = .done res (k.finished res) := rfl

theorem finished_alike (res : Nat) (k : Kitten) : Alike k (k.finished res) :=
  Alike.trans (Alike.ite (resetAssumptions_alike k)) (status_alike _ _)

theorem finished_other {res : Nat} {k : Kitten} (h : res ≠ 0) : k.finished res = { k with status := res } := by
  unfold Kitten.finished
  rw [if_neg (fun hc => h hc.1)]

theorem finished_zero (k : Kitten) : (k.finished 0).assumptions = [] := by
  unfold Kitten.finished
  by_cases h : k.assumptions ≠ []
  · rw [if_pos ⟨rfl, h⟩]; rfl
  · rw [if_neg (fun hc => h hc.2)]; exact Classical.not_not.1 h

theorem finished_same (res : Nat) (k : Kitten) : (k.finished res).klauses = k.klauses ∧ (k.finished res).core = k.core ∧
    (k.finished res).status = res := by
  unfold Kitten.finished
  split <;> exact ⟨rfl, rfl, rfl⟩

/-- A finished search. -/
theorem finish_ok {k k1 : Kitten} {res : Nat} (h : Outcome k k1 res) (hf : ∀ l, k.failed l = false)
    (hg : k.failing = none) (hc : k.core = []) (hk : ∀ kl ∈ k.klauses, kl.core = false) (hn : Names k) :
    Good (k1.finished res) := by
  have ha := finished_alike res k1
  obtain ⟨s1, s2, s3⟩ := finished_same res k1
  have hK := h.keeps
  obtain ⟨c1, c2⟩ := h.rest.calm
  have hres : res = 10 ∨ res = 0 ∨ res = 20 := by
    rcases h.cases with h' | h' | h' | h'
    · exact Or.inl h'.1
    · exact Or.inr (Or.inl h'.1)
    · exact Or.inr (Or.inr h'.1)
    · exact Or.inr (Or.inr h'.1)
  have hclean : (res = 0 ∨ k1.inconsistent ≠ none ∨ res = 10) → (∀ l, k1.failed l = false) ∧ k1.failing = none := by
    intro h'
    rcases h.cases with ⟨_, _, _, q1, q2⟩ | ⟨_, _, q1, q2⟩ | ⟨_, _, q1, q2, _⟩ | ⟨q1, q2, _⟩
    · rw [q1, q2]; exact ⟨hf, hg⟩
    · rw [q1, q2]; exact ⟨hf, hg⟩
    · rw [q1, q2]; exact ⟨hf, hg⟩
    · rcases h' with h' | h' | h'
      · omega
      · exact absurd q2 h'
      · omega
  have hfailed0 : ∀ l, k1.failed l = true → l ∈ k1.assumptions := by
    intro l hl
    rcases h.cases with ⟨q0, _⟩ | ⟨q0, _⟩ | ⟨_, q0, _⟩ | ⟨_, _, q, _⟩
    · rw [(hclean (Or.inr (Or.inr q0))).1] at hl; cases hl
    · rw [(hclean (Or.inl q0)).1] at hl; cases hl
    · rw [(hclean (Or.inr (Or.inl q0))).1] at hl; cases hl
    · rw [hK.assumptions]; exact q l hl
  have hfld : ∀ l, (k1.finished res).failed l = true → k1.failed l = true ∧ res ≠ 0 := by
    intro l hl
    by_cases h0 : res = 0
    · exfalso
      have hl0 := (hclean (Or.inl h0)).1
      unfold Kitten.finished at hl
      split at hl
      · have hl : k1.assumptions.foldl (fun f a => upd f a false) k1.failed l = true := hl
        rw [foldl_false _ _ _ (fun hc => by rw [hl0] at hc; cases hc)] at hl
        cases hl
      · have hl : k1.failed l = true := hl
        rw [hl0] at hl; cases hl
    · rw [finished_other h0] at hl; exact ⟨hl, h0⟩
  have hfng : (k1.finished res).failing ≠ none → k1.failing ≠ none ∧ res ≠ 0 := by
    intro hl
    by_cases h0 : res = 0
    · exfalso
      have hl0 := (hclean (Or.inl h0)).2
      unfold Kitten.finished at hl
      split at hl
      · exact hl rfl
      · exact hl hl0
    · rw [finished_other h0] at hl; exact ⟨hl, h0⟩
  refine ⟨c1.alike ha.calm (Or.inl (root_level k1)), ?_, ?_, ?_, ?_, ?_, ?_, ?_⟩
  · intro a h'
    show a / 2 < (k1.finished res).exports.length
    rw [ha.exports]
    by_cases h0 : res = 0
    · rw [h0, finished_zero] at h'; cases h'
    · rw [finished_other h0] at h'; exact h.rest.valid a h'
  · intro hi
    rw [ha.inconsistent] at hi
    obtain ⟨q1, q2, q3⟩ := c2 hi
    exact ⟨q1.alike ha.calm, ha.calm.trail.trans q2, ha.calm.propagated.trans q3⟩
  · intro l hl
    obtain ⟨q1, q2⟩ := hfld l hl
    rw [finished_other q2]
    exact hfailed0 l q1
  · intro hl
    obtain ⟨q1, q2⟩ := hfng hl
    rw [finished_other q2]
    show k1.assumptions ≠ []
    rcases h.cases with ⟨q0, _⟩ | ⟨q0, _⟩ | ⟨_, q0, _⟩ | ⟨_, q0, _, q, _⟩
    · exact absurd (hclean (Or.inr (Or.inr q0))).2 q1
    · omega
    · exact absurd (hclean (Or.inr (Or.inl q0))).2 q1
    · cases hr : k1.failing with
      | none => exact absurd hr q1
      | some r =>
        obtain ⟨kl, e1, e2⟩ := q r hr
        cases hkl : kl.lits with
        | nil => exact absurd q0 (h.rest.inv.store.empty kl (List.mem_of_getElem? e1) hkl)
        | cons m ms =>
          have := hfailed0 _ (e2 m (by rw [hkl]; simp))
          intro hc
          rw [hc] at this
          cases this
  · intro hst
    rw [s3, ha.inconsistent] at hst
    obtain ⟨q1, q2⟩ := hclean (by
      rcases hst with h' | h'
      · exact Or.inl h'
      · exact Or.inr (Or.inl h'))
    refine ⟨fun l => ?_, ?_⟩
    · cases hl : (k1.finished res).failed l with
      | false => rfl
      | true => have := (hfld l hl).1; rw [q1] at this; cases this
    · cases hl : (k1.finished res).failing with
      | none => rfl
      | some r => exact absurd q2 (hfng (by rw [hl]; simp)).1
  · intro _
    rw [s1, s2]
    refine ⟨hK.core.trans hc, fun kl hkl => ?_⟩
    obtain ⟨r, hr⟩ := List.getElem?_of_mem hkl
    rcases hK.evolve.new r kl hr with hlt | ⟨_, h'⟩
    · have hlt : r < k.klauses.length := hlt
      obtain ⟨kl', e1, _, _, _, _, e2⟩ := hK.evolve.old r k.klauses[r] (List.getElem?_eq_getElem hlt)
      rw [hr] at e1
      cases e1
      rw [e2]
      exact hk _ (List.getElem_mem hlt)
    · exact h'
  · exact hn.congr (ha.exports.trans hK.exports) (ha.imports.trans hK.imports)

/-- What a search returns. -/
structure SolveOk (k k' : Kitten) (res : Nat) : Prop where
  good : Good k'
  status : k'.status = res
  results : res = 10 ∨ res = 20 ∨ res = 0
  exports : k'.exports = k.exports
  imports : k'.imports = k.imports
  antecedents : k'.antecedents = k.antecedents
  assumptions : k'.assumptions = if res = 0 then [] else if k.status ≠ 0 then [] else k.assumptions
  evolve : ∃ ks, SameKs ks k.klauses ∧ Evolve ks k'.klauses
  sat : res = 10 → Satisfied k' ∧ Vals k'
  store : Store k'
  unsat : res = 20 → k'.inconsistent ≠ none ∨ (k'.inconsistent = none ∧
      (∀ r, k'.failing = some r → ∃ kl : Klause, k'.klauses[r]? = some kl ∧ ∀ m ∈ kl.lits, k'.failed (neg m) = true) ∧
      (k'.failing = none → ∃ a, k'.failed a = true ∧ k'.failed (neg a) = true))

theorem solve_ok {k : Kitten} (h : Good k) (choice : Nat → Choice) (rounds : Nat) :
    k.solve choice rounds = .unfinished ∨ ∃ res k', k.solve choice rounds = .done res k' ∧ SolveOk k k' res := by
  obtain ⟨p1, p2, p3, p4, p5, p6, p7, p8, p9, p10, p11, p12, p13⟩ := prepare_ok h
  have hL : LoopOk k.prepare (k.solve choice rounds) := search_ok (choice := choice) (rounds := rounds) p1 p2 p3 p4
  cases hs : k.solve choice rounds with
  | undefined => rw [hs] at hL; exact hL.elim
  | unfinished => exact Or.inl rfl
  | done res k' =>
    right
    rw [hs] at hL
    obtain ⟨res', k1, e, hO⟩ := hL
    rw [finish_eq] at e
    cases e
    have hn : Names k.prepare := h.names.congr p7 p8
    have hG := finish_ok hO p3 p4 p5 p6 hn
    have hK := hO.keeps
    have ha := finished_alike res k1
    obtain ⟨s1, s2, s3⟩ := finished_same res k1
    refine ⟨res, _, rfl, hG, s3, ?_, (ha.exports.trans hK.exports).trans p7, (ha.imports.trans hK.imports).trans p8,
      (ha.antecedents.trans hK.antecedents).trans p11, ?_, ⟨k.prepare.klauses, p9, by rw [s1]; exact hK.evolve⟩, ?_, ?_, ?_⟩
    · rcases hO.cases with h' | h' | h' | h'
      · exact Or.inl h'.1
      · exact Or.inr (Or.inr h'.1)
      · exact Or.inr (Or.inl h'.1)
      · exact Or.inr (Or.inl h'.1)
    · by_cases h0 : res = 0
      · rw [if_pos h0, h0]; exact finished_zero k1
      · rw [if_neg h0, finished_other h0, ← p12]
        exact hK.assumptions
    · intro h10
      rw [finished_other (by omega)]
      rcases hO.cases with ⟨_, _, q, _⟩ | ⟨q, _⟩ | ⟨q, _⟩ | ⟨q, _⟩
      · exact ⟨q, hO.rest.inv.vals.congr rfl rfl rfl rfl rfl rfl rfl⟩
      · omega
      · omega
      · omega
    · exact (hO.rest.inv.noAssumptions.alike (k' := { k1.finished res with assumptions := [] })
        ⟨ha.1, ha.2, ha.3, ha.4, ha.5, ha.6, ha.7, ha.8, ha.9, ha.10, ha.11, ha.12, ha.13, ha.14⟩ (Or.inr (Or.inr rfl))).store
        |> fun g => ⟨g.1, g.2, g.3, g.4, g.5, g.6, g.7, g.8⟩
    · intro h20
      rw [finished_other (by omega)]
      rcases hO.cases with ⟨q, _⟩ | ⟨q, _⟩ | ⟨_, q, _⟩ | ⟨_, q, _, q1, q2⟩
      · omega
      · omega
      · exact Or.inl q
      · exact Or.inr ⟨q, q1, q2⟩

end Verif.Kitten
