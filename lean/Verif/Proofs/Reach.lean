import Verif.Model.Reach
import Verif.Proofs.Answers

/-! # Invariants of reachable states -/

namespace Verif.Core

open Verif.Spec

theorem Searching.between {orig : List (List Nat)} {a : Api} (h : ApiInv orig a) {t : Search}
    (ht : Searching a t) : Between (apiBase orig) (Models orig) t.s := by
  induction ht with
  | start _ hi => exact ⟨(h.loaded.state hi).1, hi⟩
  | next _ ho hit ih =>
    have := iteration_ok ih ho
    rw [hit] at this
    exact this.1

theorem Searching.searches {a : Api} {t : Search} (ht : Searching a t) : a.searches = 0 := by
  induction ht with
  | start h _ => exact h
  | next _ _ _ ih => exact ih

/-- Assigned literals follow from clauses and decisions. -/
theorem Inv.implied {s : Solver} (h : Inv s) {σ : Assignment} (hF : SatFormula σ s.formula)
    (hd : ∀ f ∈ s.frames, litTrue σ f.decision) : ∀ l, s.values l = 1 → litTrue σ l := by
  have root : ∀ l, s.values l = 1 → s.lev l = 0 → litTrue σ l := by
    intro l hv h0
    obtain ⟨m, hm, ht⟩ := hF [l] (.inr (.inr ⟨l, hv, h0, rfl⟩))
    rwa [List.mem_singleton.1 hm] at ht
  have key : ∀ n l, s.values l = 1 → s.pos l = n → litTrue σ l := by
    intro n
    induction n using Nat.strongRecOn with
    | _ n ih =>
      intro l hv hp
      by_cases h0 : s.lev l = 0
      · exact root l hv h0
      · cases hr : (s.assigned (l / 2)).reason with
        | unit => exact absurd hr (h.reason.unit l hv h0)
        | decision =>
          obtain ⟨f, hf, rfl⟩ := h.reason.decision l hv hr
          exact hd f (List.mem_of_getElem? hf)
        | binary o =>
          obtain ⟨h1, h2, h3, h4⟩ := h.reason.binary l o hv hr
          have hno : litTrue σ (neg o) := ih (s.pos o) (by omega) (neg o)
            (h.trail.neg_pos.2 h1) (by unfold Solver.pos; rw [neg_div])
          refine UP.sound (F := s.bins) (fun c hc => hF c (.inr (.inl hc))) (fun x hx => ?_) h4
          rw [hx]; exact hno
        | large r =>
          obtain ⟨h1, h2, h3, _⟩ := h.reason.large l r hv hr
            (.inl (Nat.lt_succ_of_le (h.trail.levle l hv)))
          obtain ⟨m, hm, hmt⟩ := hF _ (.inl ⟨r, h1, rfl⟩)
          by_cases e : m = l
          · rwa [e] at hmt
          · obtain ⟨g1, g2, g3⟩ := h3 m hm e
            have hnm : litTrue σ (neg m) := by
              rcases g3 with g3 | g3
              · exact root _ (h.trail.neg_pos.2 g1) (by rw [lev_neg]; exact g3)
              · exact ih (s.pos m) (by omega) (neg m)
                  (h.trail.neg_pos.2 g1) (by unfold Solver.pos; rw [neg_div])
            rw [litTrue_neg] at hnm
            exact absurd hmt hnm
  intro l hv
  exact key _ l hv rfl

/-- All clauses in a proof checker database without RAT steps are implied. -/
theorem RupReplay.implied {orig : List (List Nat)} {lines : List Line} {db : List (List Nat)}
    (h : RupReplay orig lines db) {σ : Assignment} (hσ : Models orig σ) :
    ∀ c ∈ db, SatClause σ c := by
  induction h with
  | nil => exact hσ
  | add _ hr ih =>
    intro c hc
    rcases List.mem_cons.1 hc with rfl | hc
    · exact hr.entails σ ih
    · exact ih c hc
  | delete _ _ ih => exact fun c hc => ih c (mem_deleteClause hc)

theorem satClause_same {σ : Assignment} {c d : List Nat} (h : SameLits c d) (hd : SatClause σ d) :
    SatClause σ c := by
  obtain ⟨l, h1, h2⟩ := hd
  exact ⟨l, (h l).2 h1, h2⟩

/-- The clauses in the solver follow from the original ones. -/
theorem PInv.formula {orig : List (List Nat)} {s : Solver} (h : PInv (apiBase orig) s)
    {σ : Assignment} (hσ : Models orig σ) : SatFormula σ s.formula := by
  obtain ⟨db, h1, h2⟩ := h
  intro c hc
  obtain ⟨d, hd, hs⟩ := h2.mem hc
  exact satClause_same hs (RupReplay.implied h1.2.2 hσ d hd)

end Verif.Core
