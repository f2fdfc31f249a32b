import Verif.Proofs.Collect.Main

/-! # Garbage collection keeps the models -/

namespace Verif.Core

open Verif.Spec

theorem Settled.sat_reduct {s : Solver} (hs : Settled s) {σ : Assignment}
    (hu : ∀ l, s.values l = 1 → s.lev l = 0 → litTrue σ l) {c : List Nat} (h : SatClause σ c) :
    SatClause σ (s.reduct c) := by
  obtain ⟨l, hl, ht⟩ := h
  refine ⟨l, (mem_reduct hs.inv.trail).2 ⟨hl, fun ⟨h1, h2⟩ => ?_⟩, ht⟩
  have := hu (neg l) (hs.inv.trail.neg_pos.2 h1) (by rw [lev_neg]; exact h2)
  rw [litTrue_neg] at this
  exact this ht

theorem satClause_congr {σ : Assignment} {c d : List Nat} (h : ∀ l, l ∈ c → l ∈ d)
    (hc : SatClause σ c) : SatClause σ d := by
  obtain ⟨l, hl, ht⟩ := hc
  exact ⟨l, h l hl, ht⟩

/-- Where the clauses of the collected state come from. -/
theorem Collected.formula_back {s u : Solver} {start : Nat}
    (h : Collected s u start) {c : List Nat} (hc : u.formula c) :
    s.formula c ∨ ∃ d, s.formula d ∧ ∀ l, l ∈ c ↔ l ∈ s.reduct d := by
  rcases hc with ⟨r, hr, rfl⟩ | ⟨a, b, hab, rfl⟩ | ⟨l, hv, h0, rfl⟩
  · by_cases hlt : r < start
    · left
      unfold Solver.Live at hr
      rw [h.low r hlt] at hr ⊢
      exact .inl ⟨r, hr, rfl⟩
    · obtain ⟨r', _, k1, _, _, _, _, k2⟩ := h.back r (by omega) (clause_lt hr)
      exact .inr ⟨_, .inl ⟨r', k1.1, rfl⟩, fun l => k2.mem_iff⟩
  · rcases (h.bins a b).1 hab with ⟨k, _⟩ | ⟨r, _, k1, k2⟩
    · exact .inl (.inr (.inl ⟨a, b, k, rfl⟩))
    · refine .inr ⟨_, .inl ⟨r, k1.1, rfl⟩, fun l => ?_⟩
      rcases k2 with k2 | k2 <;> rw [k2]
      simp only [List.mem_cons, List.not_mem_nil, or_false]
      exact or_comm
  · rw [h.framed.values] at hv; rw [h.framed.lev] at h0
    exact .inl (.inr (.inr ⟨l, hv, h0, rfl⟩))

/-- Where the clauses go. -/
theorem Collected.formula_fwd {s u : Solver} {start : Nat} (hs : Settled s)
    (h : Collected s u start) {c : List Nat} (hc : s.formula c) :
    s.RootSat c ∨ u.formula c ∨ ∃ d, u.formula d ∧ ∀ l, l ∈ d ↔ l ∈ s.reduct c := by
  rcases hc with ⟨r, hr, rfl⟩ | ⟨a, b, hab, rfl⟩ | ⟨l, hv, h0, rfl⟩
  · by_cases hx : s.RootSat (s.clause r).lits
    · exact .inl hx
    right
    by_cases hlt : r < start
    · left
      refine .inl ⟨r, ?_, by rw [h.low r hlt]⟩
      unfold Solver.Live
      rw [h.low r hlt]; exact hr
    · right
      have hst : s.Stays r := ⟨hr, hx⟩
      have h2 := hs.reduct_length hst
      by_cases h3 : 3 ≤ (s.reduct (s.clause r).lits).length
      · obtain ⟨r', _, k1, _, k2⟩ := h.kept r (by omega) hst h3
        exact ⟨_, .inl ⟨r', k1, rfl⟩, fun l => k2.mem_iff⟩
      · match hq : s.reduct (s.clause r).lits with
        | [] => rw [hq] at h2; simp at h2
        | [a] => rw [hq] at h2; simp at h2
        | [a, b] => exact ⟨[a, b], .inr (.inl ⟨a, b, (h.bin_new (by omega) hst hq).1, rfl⟩), fun _ => Iff.rfl⟩
        | a :: b :: c :: q => rw [hq] at h3; simp at h3
  · by_cases hx : s.RootSat [a, b]
    · exact .inl hx
    · exact .inr (.inl (.inr (.inl ⟨a, b, (h.bins a b).2 (.inl ⟨hab, hx⟩), rfl⟩)))
  · exact .inl ⟨l, by simp, hv, h0⟩

/-- The same for irredundant clauses. -/
theorem Collected.irr_fwd {s u : Solver} {start : Nat} (hs : Settled s)
    (h : Collected s u start) {c : List Nat} (hc : s.irr c) :
    s.RootSat c ∨ u.irr c ∨ ∃ d, u.irr d ∧ ∀ l, l ∈ d ↔ l ∈ s.reduct c := by
  rcases hc with ⟨r, hr, hi, rfl⟩ | ⟨a, b, hab, rfl⟩ | ⟨l, hv, h0, rfl⟩
  · by_cases hx : s.RootSat (s.clause r).lits
    · exact .inl hx
    right
    by_cases hlt : r < start
    · left
      refine .inl ⟨r, ?_, by rw [h.low r hlt]; exact hi, by rw [h.low r hlt]⟩
      unfold Solver.Live
      rw [h.low r hlt]; exact hr
    · right
      have hst : s.Stays r := ⟨hr, hx⟩
      have h2 := hs.reduct_length hst
      by_cases h3 : 3 ≤ (s.reduct (s.clause r).lits).length
      · obtain ⟨r', _, k1, k3, k2⟩ := h.kept r (by omega) hst h3
        exact ⟨_, .inl ⟨r', k1, k3.trans hi, rfl⟩, fun l => k2.mem_iff⟩
      · match hq : s.reduct (s.clause r).lits with
        | [] => rw [hq] at h2; simp at h2
        | [a] => rw [hq] at h2; simp at h2
        | [a, b] => exact ⟨[a, b], .inr (.inl ⟨a, b, (h.bin_new (by omega) hst hq).1, rfl⟩), fun _ => Iff.rfl⟩
        | a :: b :: c :: q => rw [hq] at h3; simp at h3
  · by_cases hx : s.RootSat [a, b]
    · exact .inl hx
    · exact .inr (.inl (.inr (.inl ⟨a, b, (h.bins a b).2 (.inl ⟨hab, hx⟩), rfl⟩)))
  · exact .inl ⟨l, by simp, hv, h0⟩

/-- The models are the same. -/
theorem Collected.models {s u : Solver} {start : Nat} (hs : Settled s)
    (h : Collected s u start) (σ : Assignment) : SatFormula σ u.formula ↔ SatFormula σ s.formula := by
  constructor
  · intro hσ c hc
    have hu : ∀ l, s.values l = 1 → s.lev l = 0 → litTrue σ l := fun l hv h0 => by
      obtain ⟨x, hx, ht⟩ := hσ [l] (.inr (.inr ⟨l, by rw [h.framed.values]; exact hv,
        by rw [h.framed.lev]; exact h0, rfl⟩))
      rw [List.mem_singleton.1 hx] at ht
      exact ht
    rcases h.formula_fwd hs hc with ⟨l, hl, h1, h2⟩ | k | ⟨d, k1, k2⟩
    · exact ⟨l, hl, hu l h1 h2⟩
    · exact hσ c k
    · exact satClause_congr (fun l hl => ((mem_reduct hs.inv.trail).1 ((k2 l).1 hl)).1) (hσ d k1)
  · intro hσ c hc
    have hu : ∀ l, s.values l = 1 → s.lev l = 0 → litTrue σ l := fun l hv h0 => by
      obtain ⟨x, hx, ht⟩ := hσ [l] (.inr (.inr ⟨l, hv, h0, rfl⟩))
      rw [List.mem_singleton.1 hx] at ht
      exact ht
    rcases h.formula_back hc with k | ⟨d, k1, k2⟩
    · exact hσ c k
    · exact satClause_congr (fun l hl => (k2 l).2 hl) (hs.sat_reduct hu (hσ d k1))

end Verif.Core
