import Verif.Proofs.Core.Learn
import Verif.Proofs.Core.Failed

/-! # The conflict analysis loop -/

namespace Verif.Core

open Verif.Spec

/-- Outcome of conflict analysis started in `s`: either the solver is ready to go on
propagating or it is inconsistent. -/
def Analyzed (orig : Base) (G : Assignment → Prop) (s s' : Solver) (r : Nat) : Prop :=
  (r = 0 ∧ PropInv orig G s' ∧ Kept s s') ∨
  (r = 20 ∧ (∃ L k, OkAt orig G L k s') ∧ s'.inconsistent = true ∧ s'.removed = s.removed)

theorem Analyzed.kept {orig : Base} [Deletes orig] {G : Assignment → Prop} {s t u : Solver} {r : Nat}
    (h : Kept s t) (h' : Analyzed orig G t u r) : Analyzed orig G s u r := by
  rcases h' with ⟨a, b, c⟩ | h'
  · exact .inl ⟨a, b, h.trans c⟩
  · exact .inr ⟨h'.1, h'.2.1, h'.2.2.1, h'.2.2.2.trans h.removed⟩

theorem deduceStep_ok {orig : Base} [Deletes orig] {G : Assignment → Prop} {s : Solver} {c : Conflict}
    (h : Many orig G s c) :
    match deduceStep s c with
    | .finished s' b => b = false ∧ PropInv orig G s' ∧ Kept s s'
    | .again s' c' => AInv orig G s' c' ∧ Kept s s' ∧ s'.totalSize < s.totalSize
    | .stuck => False := by
  obtain ⟨k, hok, hd⟩ := deduce_spec h
  unfold deduceStep
  simp only
  generalize deduceLoop s s.trail.reverse
      ((s.conflictLits c).foldl (analyzeLiteral s) ⟨[], [], [], 0, 0, 0⟩) 0 = d at hd
  cases d with
  | stuck => exact hd
  | uip u t =>
    simp only at hd ⊢
    obtain ⟨tail, he, htl, hrup⟩ := learnedClause_spec hok.inv hd
    rw [he]
    have hv := hok.inv.trail.tval u hd.mem
    refine ⟨trivial, learnClause_ok h hok ⟨htl, ?_, ?_, hrup⟩⟩
    · rw [hok.inv.trail.anti, hv]
    · rw [lev_neg, hd.lev]
  | strengthen u t n =>
    simp only at hd ⊢
    obtain ⟨ref, hre⟩ := shorter_large hok.inv h.pos hd
    rw [hre]
    simp only
    have ho : ∀ kk, WatchingX s kk (fun _ w => s.level ≤ s.lev w) (fun w _ => s.level ≤ s.lev w) →
        Otfs orig G s u ref kk (strengthen s t.antecedentSize ref u).1
          (strengthen s t.antecedentSize ref u).2 := by
      intro kk hw
      unfold strengthen
      by_cases h3 : t.antecedentSize = 3
      · rw [if_pos h3]; exact strengthenBinary_ok hok hw h.pos hd hre h3
      · rw [if_neg h3]; exact strengthenLarge_ok hok hw h.pos hd hre h3
    generalize strengthen s t.antecedentSize ref u = p at ho
    obtain ⟨s', res⟩ := p
    simp only at ho ⊢
    have := again_ok h hok hd hre ho
      (decide (n = 1 ∧ t.resolventSize <
        ((s.conflictLits c).filter fun l => decide (s.lev l ≠ 0)).length))
      (fun e => of_decide_eq_true e)
    unfold resume at this
    simp only [decide_eq_true_eq] at this
    exact this _

theorem oneLiteral_root {s : Solver} {c : Conflict} (h : (oneLiteral s c).2 = .root) :
    (oneLiteral s c).1.removed = s.removed := by
  unfold oneLiteral at h ⊢
  simp only at h ⊢
  split
  · rfl
  · rename_i h0
    rw [if_neg h0] at h
    split at h
    · cases h
    · cases c <;> cases h

theorem analyzeStep_ok {orig : Base} [Deletes orig] {G : Assignment → Prop} {s : Solver} {c : Conflict}
    (h : AInv orig G s c) :
    match analyzeStep s c with
    | .finished s' b => Analyzed orig G s s' (if b then 20 else 0)
    | .again s' c' => AInv orig G s' c' ∧ Kept s s' ∧ s'.totalSize < s.totalSize
    | .stuck => False := by
  have ho := oneLiteral_ok h
  have hroot := oneLiteral_root (s := s) (c := c)
  unfold analyzeStep
  generalize oneLiteral s c = p at ho hroot
  obtain ⟨s1, o⟩ := p
  simp only at ho ⊢
  cases o with
  | root => exact .inr ⟨rfl, ⟨_, ho.1⟩, ho.2, hroot rfl⟩
  | forced => exact .inl ⟨rfl, ho⟩
  | many M =>
    simp only at ho ⊢
    obtain ⟨hm, hl, hk, ht⟩ := ho
    by_cases h1 : M = 1
    · rw [if_pos h1]
      have := analyzeFailed_ok hm (by omega)
      exact .inl ⟨rfl, this.1, hk.trans this.2⟩
    · rw [if_neg h1]
      have := deduceStep_ok hm
      generalize deduceStep s1 c = st at this
      cases st with
      | finished s' b =>
        simp only at this ⊢
        exact .inl ⟨by rw [this.1]; rfl, this.2.1, hk.trans this.2.2⟩
      | again s' c' =>
        simp only at this ⊢
        exact ⟨this.1, hk.trans this.2.1, by omega⟩
      | stuck => exact this

theorem analyzeLoop_ok {orig : Base} [Deletes orig] {G : Assignment → Prop} :
    ∀ (n : Nat) {s : Solver} {c : Conflict}, AInv orig G s c → s.totalSize < n →
    ∃ s' r, analyzeLoop n s c = some (s', r) ∧ Analyzed orig G s s' r := by
  intro n
  induction n with
  | zero => intro s c _ h; omega
  | succ n ih =>
    intro s c h hn
    have := analyzeStep_ok h
    unfold analyzeLoop
    generalize analyzeStep s c = st at this
    cases st with
    | finished s' b => exact ⟨s', _, rfl, this⟩
    | again s' c' =>
      simp only at this ⊢
      obtain ⟨s2, r, e, ha⟩ := ih this.1 (by omega)
      exact ⟨s2, r, e, ha.kept this.2.1⟩
    | stuck => exact this.elim

/-- Conflict analysis always terminates with an answer. -/
theorem analyze_ok {orig : Base} [Deletes orig] {G : Assignment → Prop} {s : Solver} {c : Conflict}
    (hi : s.inconsistent = false) (h : AInv orig G s c) :
    ∃ s' r, analyze s c = some (s', r) ∧ Analyzed orig G s s' r := by
  unfold analyze
  rw [hi]
  exact analyzeLoop_ok _ h (by omega)

theorem AInv.of_conflict {orig : Base} [Deletes orig] {G : Assignment → Prop} {s : Solver}
    {c : Conflict} (h : Ok orig G s) (h0 : 0 < s.level) (hc : ConflictOk s c) {k : Nat}
    (hw : Watching s k) (hf : ∀ f ∈ s.frames, f.trail ≤ k) : AInv orig G s c := by
  refine ⟨h0, hc, ⟨s.trail.length, h.at s.level _ (by omega), ?_⟩, k, hw.x _ _, hf⟩
  intro l hl he
  have ht := h.inv.trail
  have hv := ht.neg_pos.2 (hc.false l hl)
  have hm : neg l ∈ s.trail := by
    apply Classical.byContradiction
    intro hn
    have := ht.flushed _ hv hn
    rw [lev_neg] at this
    omega
  obtain ⟨p, hp⟩ := List.mem_iff_getElem?.1 hm
  have := ht.tpos p _ hp
  have hlt := (List.getElem?_eq_some_iff.1 hp).1
  unfold Solver.pos at this ⊢
  rw [neg_div] at this
  omega

end Verif.Core
