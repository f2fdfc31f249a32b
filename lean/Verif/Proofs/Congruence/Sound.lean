import Verif.Proofs.Congruence.Main

/-!
# Gates and models
-/

namespace Verif.Congruence

open Verif.Spec Verif.Model Verif.Simp

variable {orig : List (List Nat)} {F F0 : Formula} {E : List (List Nat)} {c c' : Closure} {s : State} {σ : Assignment}

theorem UC.sound {C : List Nat} (h : UC F C) (hC : C ≠ []) (hσ : SatFormula σ F) : SatClause σ C := by
  by_cases hs : SatClause σ C
  · exact hs
  · refine ((h.bot (A := C.map neg) hC fun m hm => Imp.mem (List.mem_map_of_mem hm)).sound hσ fun a ha => ?_).elim
    obtain ⟨m, hm, rfl⟩ := List.mem_map.1 ha
    rw [litTrue_neg]
    exact fun ht => hs ⟨m, hm, ht⟩

theorem AndOk.sound {lhs : Nat} {rhs : List Nat} (h : AndOk F lhs rhs) (hσ : SatFormula σ F) :
    litTrue σ lhs ↔ ∀ r ∈ rhs, litTrue σ r :=
  ⟨fun hl r hr => (h.fwd r hr).sound hσ (by simpa using hl), fun hr => h.back.sound hσ hr⟩

instance (σ : Assignment) (l : Nat) : Decidable (litTrue σ l) := by unfold litTrue; infer_instance

/-- All literals made false. -/
theorem flips_false (σ : Assignment) : ∀ L : List Nat, ∃ C, Flips (decide ((L.countP fun l => decide (litTrue σ l)) % 2 = 1)) L C ∧
    ∀ l ∈ C, ¬ litTrue σ l
  | [] => ⟨[], .nil, by simp⟩
  | x :: L => by
    obtain ⟨C, h1, h2⟩ := flips_false σ L
    rw [List.countP_cons]
    by_cases hx : litTrue σ x
    · refine ⟨neg x :: C, ?_, ?_⟩
      · rw [if_pos (by simpa using hx)]
        have := Flips.flip (x := x) h1
        generalize (L.countP fun l => decide (litTrue σ l)) = n at this
        have e : decide ((n + 1) % 2 = 1) = !decide (n % 2 = 1) := by
          rcases Nat.mod_two_eq_zero_or_one n with h | h
          · have : (n + 1) % 2 = 1 := by omega
            rw [this, h]; rfl
          · have : (n + 1) % 2 = 0 := by omega
            rw [this, h]; rfl
        rw [e]; exact this
      · intro l hl
        rcases List.mem_cons.1 hl with rfl | hl
        · rw [litTrue_neg]; exact fun h => h hx
        · exact h2 l hl
    · refine ⟨x :: C, ?_, ?_⟩
      · rw [if_neg (by simpa using hx)]
        exact .keep h1
      · intro l hl
        rcases List.mem_cons.1 hl with rfl | hl
        · exact hx
        · exact h2 l hl

theorem XorOk.sound {lhs : Nat} {rhs : List Nat} (h : XorOk F lhs rhs) (hσ : SatFormula σ F) :
    litTrue σ lhs ↔ (rhs.countP fun l => decide (litTrue σ l)) % 2 = 1 := by
  have key : ((neg lhs :: rhs).countP fun l => decide (litTrue σ l)) % 2 = 1 := by
    by_cases e : ((neg lhs :: rhs).countP fun l => decide (litTrue σ l)) % 2 = 1
    · exact e
    · obtain ⟨C, h1, h2⟩ := flips_false σ (neg lhs :: rhs)
      rw [decide_eq_false e] at h1
      have hne : C ≠ [] := by
        intro e'
        have := h1.length
        rw [e'] at this; simp at this
      obtain ⟨l, h3, h4⟩ := (h C h1).sound hne hσ
      exact absurd h4 (h2 l h3)
  rw [List.countP_cons] at key
  by_cases hl : litTrue σ lhs
  · rw [if_neg (by rw [decide_eq_true_eq, litTrue_neg]; exact fun h => h hl)] at key
    exact ⟨fun _ => by simpa using key, fun _ => hl⟩
  · rw [if_pos (by rw [decide_eq_true_eq, litTrue_neg]; exact hl)] at key
    exact ⟨fun h => absurd h hl, fun h => by omega⟩

theorem IteOk.sound {lhs cond t e : Nat} (h : IteOk F lhs cond t e) (hσ : SatFormula σ F) :
    litTrue σ lhs ↔ if litTrue σ cond then litTrue σ t else litTrue σ e := by
  have h1 := h.c1.sound (by simp) hσ
  have h2 := h.c2.sound (by simp) hσ
  have h3 := h.c3.sound (by simp) hσ
  have h4 := h.c4.sound (by simp) hσ
  unfold SatClause at h1 h2 h3 h4
  simp only [List.mem_cons, List.not_mem_nil, or_false, exists_eq_or_imp, exists_eq_left, litTrue_neg] at h1 h2 h3 h4
  by_cases hc : litTrue σ cond
  · rw [if_pos hc]
    have h1 := h1.resolve_left fun hh => hh hc
    have h2 := h2.resolve_left fun hh => hh hc
    constructor
    · intro hl
      rcases h2 with h2 | h2
      · exact h2
      · exact absurd hl h2
    · intro hl
      rcases h1 with h1 | h1
      · exact absurd hl h1
      · exact h1
  · rw [if_neg hc]
    have h3 := h3.resolve_left hc
    have h4 := h4.resolve_left hc
    constructor
    · intro hl
      rcases h4 with h4 | h4
      · exact h4
      · exact absurd hl h4
    · intro hl
      rcases h3 with h3 | h3
      · exact absurd hl h3
      · exact h3

/-- The remaining clauses imply the equivalences. -/
theorem congruence_recorded (h : Inv orig none s) (hc : s.inconsistent = false) (o : Options)
    (hi : (congruence s o).solver.inconsistent = false) (hσ : SatFormula σ (congruence s o).solver.irr)
    (l : Nat) : litTrue σ l ↔ litTrue σ ((congruence s o).findRepr l) := by
  rw [findRepr_congr (congruence_repr h hc o).1]
  have hf := Fine.closed h hc o
  unfold congruence at hi hσ
  simp only at hi hσ
  split at hσ
  · rename_i c1
    rw [if_pos c1] at hi
    obtain ⟨E, g⟩ := hf.good hi
    exact g.linked.same hσ l
  · rename_i c1
    simp only [Bool.or_eq_true, not_or, Bool.not_eq_true] at c1
    obtain ⟨E, g⟩ := hf.good c1.1
    have l0 := g.linked
    generalize closed s o = c at l0 hσ ⊢
    obtain ⟨j1, _, j3⟩ := saveBinaries_spec (orig := orig) (E := []) (List.range c.solver.arena.length) (saved := []) List.nodup_range
      l0.inv ⟨by simp, by simp, by simp⟩
    have l1 : Linked orig s.formula c.enterDense := l0.keeps j1 j3 _
    obtain ⟨l2, e2⟩ := Linked.deleteTrivial o.considered l1
    obtain ⟨l3, e3⟩ := Linked.forwardSubsume o.candidates l2
    have e : (((c.enterDense.deleteTrivial o.considered).forwardSubsume o.candidates)).repr = c.repr := by rw [e3, e2]; rfl
    unfold Closure.subsumeMatching Closure.resumeSparse at hσ
    rw [if_neg (by rw [l3.cons]; simp)] at hσ
    rw [← findRepr_congr e]
    generalize (c.enterDense.deleteTrivial o.considered).forwardSubsume o.candidates = c' at l3 hσ ⊢
    refine l3.same (fun d hd => hσ d ?_) l
    obtain ⟨i1, i2, _⟩ := l3.inv.inv.propagateRoot (V := fun _ => True) (w := fun _ => true) (fun _ _ _ _ _ => ⟨trivial, trivial⟩)
      (o.order c'.solver)
    exact i2.irr l3.inv.inv.struct i1.struct hd

end Verif.Congruence
