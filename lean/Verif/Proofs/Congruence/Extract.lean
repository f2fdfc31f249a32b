import Verif.Model.Simp.Congruence
import Verif.Proofs.Congruence.Loop
import Verif.Proofs.Lists

/-!
# Extracting gates
-/

namespace Verif.Congruence

open Verif.Spec Verif.Model Verif.Simp

variable {orig : List (List Nat)} {F0 : Formula} {E : List (List Nat)} {c c' : Closure}

/-! ## Satisfied clauses -/

theorem le_satisfied {s : State} (h : Struct orig s) {r o : Nat} (hg : (s.clause r).garbage = false) (ho : o ∈ (s.clause r).lits)
    (hv : 0 < s.values o) : Le s.irr (s.markGarbage r).irr := by
  intro d hd
  rcases irr_or_garbage (clause_lt hg) hd with h1 | rfl
  · exact Or.inl h1
  · exact Or.inr ⟨o, ho, Or.inl ⟨o, (h.trail o).2 hv, rfl⟩⟩

theorem InvE.satisfied {s : State} (h : InvE orig F0 E s) {r o : Nat} (hg : (s.clause r).garbage = false) (ho : o ∈ (s.clause r).lits)
    (hv : 0 < s.values o) : InvE orig F0 E (s.markGarbage r) := by
  refine h.markGarbage hg (Or.inr fun σ hσ => ?_)
  obtain ⟨y, hy, ht⟩ := hσ [o] (Or.inl ⟨o, (h.inv.struct.trail o).2 hv, rfl⟩)
  rw [List.mem_singleton.1 hy] at ht
  exact ⟨o, ho, ht⟩

theorem Base.satisfied (h : Base orig F0 E c) {r o : Nat} (hg : (c.solver.clause r).garbage = false) (ho : o ∈ (c.solver.clause r).lits)
    (hv : 0 < c.solver.values o) : Out orig F0 E c { c with solver := c.solver.markGarbage r } := by
  have hle := le_satisfied h.inv.inv.struct hg ho hv
  have hi := h.inv.satisfied hg ho hv
  refine ⟨⟨hle, rfl, rfl, fun _ _ => rfl, rfl, rfl, fun _ _ h => h, [], by simp⟩, hi, fun _ => ?_⟩
  refine ⟨hi, h.cons, h.neg, h.lt, h.ok, h.val, fun l => ?_, fun p hp => ?_⟩
  · rcases h.link l with h1 | h1 | h1
    · exact Or.inl h1
    · exact Or.inr (Or.inl h1)
    · rcases irr_or_garbage (clause_lt hg) h1 with h2 | h2
      · exact Or.inr (Or.inr h2)
      · refine Or.inr (Or.inl ?_)
        show c.solver.values l ≠ 0
        rw [← h2] at ho
        simp only [List.mem_cons, List.not_mem_nil, or_false] at ho
        rcases ho with rfl | rfl
        · rw [h.vneg] at hv; omega
        · rw [h.val] at hv; omega
  · obtain ⟨h1, h2⟩ := h.bins p hp
    exact ⟨h1.le hle, h2⟩

theorem Good.satisfied (h : Good orig F0 E c) {r : Nat} (hg : (c.solver.clause r).garbage = false)
    (hv : ((c.solver.clause r).lits.any fun l => decide (c.solver.values l > 0)) = true) :
    Res orig F0 c { c with solver := c.solver.markGarbage r } := by
  simp only [List.any_eq_true, decide_eq_true_eq] at hv
  obtain ⟨o, ho, hv⟩ := hv
  exact h.out (h.base.satisfied hg ho hv)

theorem Good.markSatisfied : ∀ (rs : List Nat) {c : Closure} {E : List (List Nat)}, Good orig F0 E c →
    ∃ E', Good orig F0 E' { c with solver := markSatisfied c.solver rs } ∧ Mono c { c with solver := markSatisfied c.solver rs }
  | [], c, E, h => ⟨E, h, .refl _⟩
  | r :: rs, c, E, h => by
    unfold Congruence.markSatisfied
    by_cases c1 : (!(c.solver.clause r).garbage && (c.solver.clause r).lits.any fun l => decide (c.solver.values l > 0)) = true
    · simp only [if_pos c1]
      simp only [Bool.and_eq_true, Bool.not_eq_true'] at c1
      have r1 := h.satisfied c1.1 c1.2
      obtain ⟨E', _, h2⟩ := r1.inv
      obtain ⟨E2, h3, h4⟩ := Good.markSatisfied rs (h2 h.base.cons)
      exact ⟨E2, h3, r1.mono.trans h4⟩
    · simp only [if_neg c1]
      exact Good.markSatisfied rs h

/-! ## Propagation -/

theorem Good.resume (h : Good orig F0 E c) (order : State → List Nat) : Res orig F0 c (c.resumeSparse order) := by
  unfold Closure.resumeSparse
  rw [if_neg (by rw [h.base.cons]; simp)]
  obtain ⟨_, j2, j3⟩ := h.base.inv.inv.propagateRoot (V := fun _ => True) (w := fun _ => true) (fun _ _ _ _ _ => ⟨trivial, trivial⟩)
    (order c.solver)
  exact h.out (h.base.grow (h.base.inv.propagateRoot (fun _ => true) (order c.solver)) j2 j3)

/-! ## Facts about clauses -/

/-- Literals of a clause without false ones. -/
theorem Base.unassigned (h : Base orig F0 E c) {r : Nat} (hg : (c.solver.clause r).garbage = false)
    (hr : (c.solver.clause r).redundant = false) (hn : ∀ l ∈ (c.solver.clause r).lits, c.solver.values l ≤ 0) :
    UC c.solver.irr ((c.solver.clause r).lits.filter fun l => c.solver.values l = 0) := by
  intro C1 l C2 e
  have hmem : ∀ m : Nat, m ∈ C1 ++ l :: C2 ↔ m ∈ (c.solver.clause r).lits ∧ c.solver.values m = 0 := by
    intro m; rw [← e, List.mem_filter]; simp
  refine Imp.clause (clause_irr hg hr) ((hmem l).1 (by simp)).1 fun m hm hne => ?_
  by_cases hv : c.solver.values m = 0
  · have h1 := (hmem m).2 ⟨hm, hv⟩
    refine Imp.mem (List.mem_map_of_mem ?_)
    simp only [List.mem_append, List.mem_cons] at h1 ⊢
    rcases h1 with h1 | h1 | h1
    · exact Or.inl h1
    · exact absurd h1 hne
    · exact Or.inr h1
  · exact h.imp_false (by have := hn m hm; omega)

theorem Base.clause_ok (h : Base orig F0 E c) {r : Nat} (hg : (c.solver.clause r).garbage = false)
    (hr : (c.solver.clause r).redundant = false) {l : Nat} (hl : l ∈ (c.solver.clause r).lits) : Ok c.solver l :=
  ⟨h.inv.inv.struct.clause r hg l hl, h.inv.inv.struct.removed r hg hr l hl⟩

/-! ## AND gates -/

/-- Pairs which are saved. -/
structure Bins (F : Formula) (bins : List (Nat × Nat)) : Prop where
  nodup : bins.Nodup
  lt : ∀ p ∈ bins, p.1 < p.2
  uc : ∀ p ∈ bins, UC F [p.1, p.2]

theorem Bins.le {F G : Formula} {bins : List (Nat × Nat)} (h : Bins F bins) (hl : Le F G) : Bins G bins :=
  ⟨h.nodup, h.lt, fun p hp => (h.uc p hp).le hl⟩

/-- All other literals match. -/
theorem Bins.matched {F : Formula} {bins : List (Nat × Nat)} (h : Bins F bins) {lits : List Nat} (hnd : lits.Nodup) {lhs : Nat}
    (hl : lhs ∈ lits) (hm : lits.length - 1 ≤ matched bins lits lhs) {m : Nat} (hmem : m ∈ lits) (hne : m ≠ lhs) :
    UC F [neg lhs, neg m] := by
  -- the other literals of the matching pairs
  have key : ∀ (bs : List (Nat × Nat)), bs.Nodup → (∀ p ∈ bs, p.1 < p.2) → (∀ p ∈ bs, UC F [p.1, p.2]) →
      ∃ os : List Nat, os.length = Congruence.matched bs lits lhs ∧ os.Nodup ∧
        ∀ o ∈ os, o ∈ lits ∧ o ≠ lhs ∧ pair (neg lhs) (neg o) ∈ bs := by
    intro bs
    induction bs with
    | nil => intro _ _ _; exact ⟨[], rfl, by simp, by simp⟩
    | cons p bs ih =>
      intro h1 h2 h3
      obtain ⟨os, o1, o2, o3⟩ := ih (List.nodup_cons.1 h1).2 (fun q hq => h2 q (by simp [hq])) (fun q hq => h3 q (by simp [hq]))
      have hlt := h2 p (by simp)
      unfold Congruence.matched
      rw [List.countP_cons]
      by_cases c1 : ((decide (p.1 = neg lhs) && lits.contains (neg p.2)) || (decide (p.2 = neg lhs) && lits.contains (neg p.1))) = true
      · rw [if_pos c1]
        simp only [Bool.or_eq_true, Bool.and_eq_true, decide_eq_true_eq, List.contains_iff_mem] at c1
        obtain ⟨o, e1, e2, e3⟩ : ∃ o, o ∈ lits ∧ o ≠ lhs ∧ pair (neg lhs) (neg o) = p := by
          rcases c1 with ⟨e1, e2⟩ | ⟨e1, e2⟩
          · refine ⟨neg p.2, e2, ?_, ?_⟩
            · intro e
              have : p.2 = neg lhs := by rw [← e, neg_neg]
              omega
            · rw [neg_neg, ← e1]; unfold pair; rw [if_pos hlt]
          · refine ⟨neg p.1, e2, ?_, ?_⟩
            · intro e
              have : p.1 = neg lhs := by rw [← e, neg_neg]
              omega
            · rw [neg_neg, ← e1]; unfold pair; rw [if_neg (by omega)]
        refine ⟨o :: os, by rw [List.length_cons, o1]; rfl, List.nodup_cons.2 ⟨fun ho => ?_, o2⟩, ?_⟩
        · have := (o3 o ho).2.2
          rw [e3] at this
          exact (List.nodup_cons.1 h1).1 this
        · intro x hx
          rcases List.mem_cons.1 hx with rfl | hx
          · exact ⟨e1, e2, by rw [e3]; simp⟩
          · obtain ⟨f1, f2, f3⟩ := o3 x hx
            exact ⟨f1, f2, by simp [f3]⟩
      · rw [if_neg c1]
        refine ⟨os, o1, o2, fun x hx => ?_⟩
        obtain ⟨f1, f2, f3⟩ := o3 x hx
        exact ⟨f1, f2, by simp [f3]⟩
  obtain ⟨os, o1, o2, o3⟩ := key bins h.nodup h.lt h.uc
  -- pigeonhole
  have hmo : m ∈ os := by
    refine nodup_subset_of_length (m := lits.erase lhs) o2 (fun o ho => ?_) ?_ m ((List.mem_erase_of_ne hne).2 hmem)
    · obtain ⟨f1, f2, _⟩ := o3 o ho
      exact (List.mem_erase_of_ne f2).2 f1
    · rw [List.length_erase_of_mem hl]; omega
  have hp := (o3 m hmo).2.2
  have hu := h.uc _ hp
  unfold pair at hu
  split at hu
  · exact hu
  · exact hu.perm (.swap _ _ _)

theorem Good.andCandidates (order : State → List Nat) {bins : List (Nat × Nat)} {lits : List Nat} {r : Nat} (hnd : lits.Nodup)
    (hlen : 3 ≤ lits.length) : ∀ (ls : List Nat) {c : Closure} {E : List (List Nat)}, Good orig F0 E c → Bins c.solver.irr bins →
    UC c.solver.irr lits → (∀ l ∈ lits, Ok c.solver l) → Res orig F0 c (c.andCandidates order bins lits r ls)
  | [], c, E, h, _, _, _ => h.res
  | lhs :: ls, c, E, h, hb, hu, hok => by
    unfold Closure.andCandidates
    split
    · exact h.res
    · split
      · rename_i c1 c2
        simp only [Bool.and_eq_true, List.contains_iff_mem, decide_eq_true_eq] at c2
        have r1 : Res orig F0 c (c.newAnd order lits lhs) := by
          refine h.newAnd order (hok lhs c2.1) (fun r hr _ => hok r hr) ⟨fun r hr => ?_, ?_⟩
          · obtain ⟨m, hm, rfl⟩ := List.mem_map.1 hr
            obtain ⟨m1, m2⟩ := List.mem_filter.1 hm
            have hm2 : m ≠ lhs := by simpa using m2
            have := hb.matched hnd c2.1 c2.2 m1 hm2
            refine Imp.le ?_ irr_base
            refine (this [neg lhs] (neg m) [] rfl).cut fun b hb => ?_
            simp only [List.append_nil, List.map_cons, List.map_nil, List.mem_singleton] at hb
            rw [hb, neg_neg]; exact Imp.mem (by simp)
          · refine Imp.le ?_ irr_base
            refine hu.at c2.1 fun m hm => Imp.mem (List.mem_map_of_mem ?_)
            rw [hnd.mem_erase_iff] at hm
            rw [List.mem_filter]
            exact ⟨hm.2, by simpa using hm.1⟩
        refine r1.then (fun E' h' => ?_) (fun hi => ?_)
        · exact Good.andCandidates order hnd hlen ls h' (hb.le r1.mono.le) (hu.le r1.mono.le) fun l hl => r1.mono.ok.2 (hok l hl)
        · cases ls with
          | nil => rfl
          | cons _ _ => unfold Closure.andCandidates; rw [if_pos (by rw [hi]; rfl)]
      · exact Good.andCandidates order hnd hlen ls h hb hu hok

theorem Good.andBase (h : Good orig F0 E c) (order : State → List Nat) {bins : List (Nat × Nat)} (hb : Bins c.solver.irr bins) (r : Nat)
    (ls : List Nat) : Res orig F0 c (c.andBase order bins r ls) := by
  unfold Closure.andBase
  by_cases c1 : ((c.solver.clause r).garbage || (c.solver.clause r).redundant) = true
  · rw [if_pos c1]; exact h.res
  rw [if_neg c1]
  simp only [Bool.or_eq_true, not_or, Bool.not_eq_true] at c1
  by_cases c2 : ((c.solver.clause r).lits.any fun l => decide (c.solver.values l > 0)) = true
  · rw [if_pos c2]; exact h.satisfied c1.1 c2
  rw [if_neg c2]
  simp only
  split
  · exact h.res
  · rename_i c3
    have hle : ∀ l ∈ (c.solver.clause r).lits, c.solver.values l ≤ 0 := by
      simp only [List.any_eq_true, decide_eq_true_eq, not_exists, not_and] at c2
      intro l hl; have := c2 l hl; omega
    refine Good.andCandidates order ((h.base.inv.inv.struct.nodup r c1.1).filter _) (by omega) ls h hb (h.base.unassigned c1.1 c1.2 hle) fun l hl => ?_
    exact h.base.clause_ok c1.1 c1.2 (List.mem_filter.1 hl).1

theorem Good.extractAnds (order : State → List Nat) {bins : List (Nat × Nat)} : ∀ (xs : List (Nat × List Nat)) {c : Closure}
    {E : List (List Nat)}, Good orig F0 E c → Bins c.solver.irr bins → Res orig F0 c (c.extractAnds order bins xs)
  | [], c, E, h, _ => h.res
  | (r, ls) :: xs, c, E, h, hb => by
    unfold Closure.extractAnds
    rw [if_neg (by rw [h.base.cons]; simp)]
    have r1 := h.andBase order hb r ls
    refine r1.then (fun E' h' => Good.extractAnds order xs h' (hb.le r1.mono.le)) (fun hi => ?_)
    cases xs with
    | nil => rfl
    | cons x _ => obtain ⟨_, _⟩ := x; unfold Closure.extractAnds; rw [if_pos hi]

end Verif.Congruence
