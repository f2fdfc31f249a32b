import Verif.Proofs.Lucky
import Verif.Proofs.Answers
import Verif.Proofs.Reach

/-! # Lucky phases as part of `kissat_solve` -/

namespace Verif.Core

open Verif.Spec

/-- What `kissat_solve` with lucky phases returns. -/
inductive LuckySolved (orig : List (List Nat)) (a' : Api) : Nat → Prop
  | sat (h : PropInv (apiBase orig) (Models orig) a'.s)
      (full : a'.s.propagate = a'.s.trail.length) (all : a'.s.unassigned = 0) :
      LuckySolved orig a' 10
  | unsat {db} (h : (apiBase orig).R a'.s.vars a'.s.proof db) (he : [] ∈ db) :
      LuckySolved orig a' 20
  | unknown : LuckySolved orig a' 0

theorem SolveOk.lucky {orig : List (List Nat)} {a a' : Api} {os : List Oracle} {res : Nat}
    (h : SolveOk orig a os a' res) : LuckySolved orig a' res := by
  cases h with
  | sat h full all _ => exact .sat h full all
  | unsat h he => exact .unsat h he
  | unknown _ _ => exact .unknown

/-- Outcome of a lucky phase at the interface. -/
theorem lucky_api {orig : List (List Nat)} {a : Api} (h : ApiInv orig a)
    (hi : a.s.inconsistent = false) (hc : a.clause = []) (enabled : Bool) :
    ∃ s res, lucky enabled a.imports a.s = some (s, res) ∧ Stay a.s s ∧
      (res ≠ 0 → LuckySolved orig { a with s := s } res) ∧
      (res = 0 → ApiInv orig { a with s := s } ∧ s.inconsistent = false) := by
  obtain ⟨hP, hfull⟩ := h.loaded.state hi
  have ht := hP.ok.inv.trail
  have hfr : a.s.frames = [] := List.eq_nil_of_length_eq_zero
    (by rw [ht.frames, h.loaded.level])
  have hs : Steady (apiBase orig) (Models orig) a.s := ⟨hP, hi, hfull, by
    intro j f hj; rw [hfr] at hj; simp at hj, h.loaded.loose⟩
  have hl := lucky_ok hs h.loaded.level (fun σ hσ => hP.ok.proof.formula hσ)
    (imports := a.imports) ?_ ?_ enabled
  · unfold LuckyOk at hl
    split at hl
    · rename_i s heq
      rw [heq]
      obtain ⟨h1, h2, h3⟩ := hl
      exact ⟨s, 10, rfl, h2, fun _ => .sat h1.prop h1.full (h3.unassigned h1.prop.ok.inv.trail),
        fun h => absurd h (by decide)⟩
    · rename_i s heq
      rw [heq]
      obtain ⟨h1, ⟨L, k, h2⟩, h3⟩ := hl
      obtain ⟨db, h4, h5⟩ := h2.proof
      exact ⟨s, 20, rfl, h1, fun _ => .unsat h4 (h5.empty h3), fun h => absurd h (by decide)⟩
    · rename_i s heq
      rw [heq]
      obtain ⟨h1, h2, h3, h4⟩ := hl
      refine ⟨s, 0, rfl, h2, fun h => absurd rfl h, fun _ => ⟨⟨⟨h4, fun _ => ⟨h1.prop, h1.full⟩, ?_,
        ?_, h1.prop.ok.inv.trail.valid, h1.loose⟩, ⟨?_, h.imports.fwd, h.imports.bwd⟩, ?_⟩, h1.consistent⟩⟩
      · obtain ⟨db, g1, _⟩ := h1.prop.ok.proof
        exact ⟨db, g1, fun h => by rw [h1.consistent] at h; cases h⟩
      · intro v hv
        show s.removed v = true
        have hv : s.vars ≤ v := hv
        rw [h2.removed]; rw [h2.vars] at hv; exact h.loaded.fresh v hv
      · show a.exports.length = s.vars
        rw [h2.vars]; exact h.imports.len
      · have hp := h.pending
        have hroot : ∀ l, a.s.values l ≠ 0 → s.values l = a.s.values l := fun l hl => by
          have := level_le_of ht hl
          have h0 := h.loaded.level
          exact (h3 l hl (by omega)).1
        refine ⟨hp.1, hp.2, hp.3, fun l hl => ?_, hp.5, fun _ l hl => ?_, fun _ hsat => ?_, hp.8,
          fun _ hsat htr l hl => ?_, hp.10⟩
        · show l / 2 < s.vars
          rw [h2.vars]; exact hp.bound l hl
        · have hl : l ∈ a.clause := hl
          rw [hc] at hl; cases hl
        · obtain ⟨l, hl, hv⟩ := hp.satisfied hi hsat
          exact ⟨l, hl, by show s.values l = 1; rw [hroot l (by omega)]; exact hv⟩
        · rcases hp.rest hi hsat htr l hl with h | h
          · exact .inl h
          · exact .inr (by show s.values l = -1; rw [hroot l (by omega)]; exact h)
    · exact hl.elim
  · intro i hm him
    obtain ⟨e, he⟩ := List.mem_iff_getElem?.1 hm
    obtain ⟨v, h1, h2⟩ := h.imports.fwd e i he him
    have := (List.getElem?_eq_some_iff.1 h2).1
    rw [h.imports.len] at this
    omega
  · intro v hv _
    have hlt : v < a.exports.length := by rw [h.imports.len]; exact hv
    obtain ⟨h1, _⟩ := h.imports.bwd v _ (List.getElem?_eq_getElem hlt)
    exact ⟨_, List.mem_iff_getElem?.2 ⟨_, h1⟩, rfl, by dsimp only; omega⟩

/-- Everything `kissat_solve` with lucky phases can do. -/
theorem solveLucky_ok {orig : List (List Nat)} {a : Api} {o : LuckyOptions} {os : List Oracle}
    (h : ApiInv orig a) (ho : ∀ o ∈ os, o.Fair a.s) :
    match a.solveLucky o os with
    | .done a' res => LuckySolved orig a' res ∧ Kept' a a' ∧ a.searches = 0
    | .stuck => (∃ o ∈ os, o.collecting ≠ none) ∧ ∃ o ∈ os, o.localSearch = true
    | _ => True := by
  unfold Api.solveLucky
  by_cases h1 : a.clause ≠ []
  · rw [if_pos h1]; trivial
  rw [if_neg h1]
  have h1 : a.clause = [] := Classical.byContradiction h1
  by_cases h2 : a.searches ≠ 0
  · rw [if_pos h2]; trivial
  rw [if_neg h2]
  have h2 : a.searches = 0 := Classical.byContradiction h2
  by_cases h3 : a.s.inconsistent = true
  · rw [if_pos h3]
    obtain ⟨db, g1, g2⟩ := h.loaded.proof
    exact ⟨.unsat g1 (g2 h3), ⟨rfl, rfl, rfl⟩, h2⟩
  rw [if_neg h3]
  have h3 : a.s.inconsistent = false := by simpa using h3
  have phase : ∀ (b : Api) (on : Bool), ApiInv orig b → b.clause = [] → b.s.inconsistent = false →
      ∃ s res, (if on then lucky o.lucky b.imports b.s else some (b.s, 0)) = some (s, res) ∧
        Stay b.s s ∧ (res ≠ 0 → LuckySolved orig { b with s := s } res) ∧
        (res = 0 → ApiInv orig { b with s := s } ∧ s.inconsistent = false) := by
    intro b on hb hbc hbi
    cases on with
    | false => exact ⟨b.s, 0, rfl, .refl _, fun h => absurd rfl h, fun _ => ⟨hb, hbi⟩⟩
    | true => exact lucky_api hb hbi hbc o.lucky
  obtain ⟨s, res, e, hst, g1, g2⟩ := phase a o.luckyearly h h1 h3
  rw [e]
  simp only
  by_cases hz : res ≠ 0
  · rw [if_pos hz]; exact ⟨g1 hz, ⟨rfl, rfl, hst.vars⟩, h2⟩
  rw [if_neg hz]
  obtain ⟨hs, hsi⟩ := g2 (Classical.byContradiction hz)
  obtain ⟨s', res', e', hst', g1', g2'⟩ := phase { a with s := s } o.luckylate hs h1 hsi
  simp only at e' hst' g1' g2'
  rw [e']
  simp only
  by_cases hz' : res' ≠ 0
  · rw [if_pos hz']; exact ⟨g1' hz', ⟨rfl, rfl, (hst.trans hst').vars⟩, h2⟩
  rw [if_neg hz']
  obtain ⟨hs', _⟩ := g2' (Classical.byContradiction hz')
  have hst2 := hst.trans hst'
  have ho' : ∀ o ∈ os, o.Fair s' := fun o hm v => by
    have := ho o hm v
    rw [hst2.vars, hst2.removed]; exact this
  cases hsol : ({ a with s := s' } : Api).solve os with
  | rejected => trivial
  | running => trivial
  | stuck => exact solve_stuck hs' ho' hsol
  | done a' r =>
    obtain ⟨k1, ⟨k2, k3, k4⟩, _⟩ := solve_ok hs' ho' hsol
    exact ⟨k1.lucky, ⟨k2, k3, k4.trans hst2.vars⟩, h2⟩

end Verif.Core
