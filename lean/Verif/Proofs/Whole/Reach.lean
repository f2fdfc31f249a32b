import Verif.Model.WholeReach
import Verif.Proofs.Whole.Start

/-! # Invariants of reachable states -/

namespace Verif.Core

open Verif.Spec

theorem whole_start {o : LuckyOptions} {p : Bool} {a : Api} {w : Whole.State} (h : Whole.Searching o p a w) : a.searches = 0 := by
  induction h with
  | start _ h _ => exact h
  | next _ _ ih => exact ih

theorem Reachable.between {t : Search} (h : Reachable t) : ∃ (B : Base) (_ : Deletes B) (G : Assignment → Prop), Between B G t.s := by
  cases h with
  | search hrun hs =>
    obtain ⟨orig, hA, _⟩ := hrun.clauses hs.searches
    exact ⟨_, inferInstance, _, hs.between hA⟩
  | whole hrun hs =>
    obtain ⟨orig, hA, _⟩ := hrun.clauses (whole_start hs)
    obtain ⟨F, hF, hb⟩ := Whole.searching_running hA hs
    exact ⟨_, inferInstance, _, hb⟩

theorem Analysing.ainv {s : Solver} {c : Conflict} (h : Analysing s c) :
    ∃ (B : Base) (_ : Deletes B) (G : Assignment → Prop), AInv B G s c := by
  induction h with
  | @start t s c hr hp h0 =>
    obtain ⟨B, _, G, hb⟩ := hr.between
    have h := searchPropagate_ok hb.prop
    rw [hp] at h
    obtain ⟨_, hok, hl, h⟩ := h
    simp only at hl h hok
    rw [hl] at h0
    rw [if_neg h0] at h
    obtain ⟨_, hco, k, hk, hf⟩ := h
    exact ⟨B, inferInstance, G, AInv.of_conflict hok (by omega) hco hk hf⟩
  | again _ hs ih =>
    obtain ⟨B, _, G, hA⟩ := ih
    have := analyzeStep_ok hA
    rw [hs] at this
    exact ⟨B, inferInstance, G, this.1⟩

theorem Seen.trail {s : Solver} (h : Seen s) : TrailInv s := by
  cases h with
  | loop h => obtain ⟨_, _, _, hb⟩ := h.between; exact hb.prop.ok.inv.trail
  | propagated h =>
    obtain ⟨_, _, _, hb⟩ := h.between
    exact (searchPropagate_ok hb.prop).2.1.inv.trail
  | analysing h =>
    obtain ⟨_, _, _, hb⟩ := h.ainv
    obtain ⟨_, hok, _⟩ := hb.ok
    exact hok.inv.trail
  | several h hm =>
    obtain ⟨_, _, _, hb⟩ := h.ainv
    have := oneLiteral_ok hb
    rw [hm] at this
    obtain ⟨_, hok, _⟩ := this.1.ok
    exact hok.inv.trail

end Verif.Core
