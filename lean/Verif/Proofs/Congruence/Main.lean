import Verif.Proofs.Congruence.Start

/-!
# The main function of congruence closure
-/

namespace Verif.Congruence

open Verif.Spec Verif.Model Verif.Simp

variable {orig : List (List Nat)} {F0 : Formula} {E : List (List Nat)} {c c' : Closure} {s : State}

/-- The invariant holds, unless the empty clause was derived. -/
def Fine (orig : List (List Nat)) (F0 : Formula) (c : Closure) : Prop :=
  ∃ E, InvE orig F0 E c.solver ∧ (c.solver.inconsistent = false → Good orig F0 E c)

theorem Fine.good (h : Fine orig F0 c) (hc : c.solver.inconsistent = false) : ∃ E, Good orig F0 E c := by
  obtain ⟨E, _, h2⟩ := h
  exact ⟨E, h2 hc⟩

theorem Good.fine (h : Good orig F0 E c) : Fine orig F0 c := ⟨E, h.base.inv, fun _ => h⟩

theorem Fresh.extract (h : Fresh orig F0 c) (hs : Saved c.solver c.binaries []) (o : Options) : Fine orig F0 (c.extract o) := by
  unfold Closure.extract
  obtain ⟨f1, s1⟩ := h.extractBinaries hs o.order o.ternaries
  simp only
  generalize c.extractBinaries o.order o.ternaries = c1 at f1 s1 ⊢
  have g1 := f1.good (s1.ok f1.inv)
  have r1 := Good.extractAnds o.order o.ands g1 s1.bins
  generalize c1.extractAnds o.order c1.binaries o.ands = c2 at r1 ⊢
  by_cases i2 : c2.solver.inconsistent = true
  · rw [if_pos i2]; exact r1.inv
  rw [if_neg i2]
  obtain ⟨E2, g2⟩ := Fine.good (c := c2) r1.inv (by simpa using i2)
  obtain ⟨E3, g3, _⟩ := g2.markSatisfied o.xorVisited
  have r3 := Good.extractXors o.order o.xorConnected o.xors g3
  generalize Closure.extractXors { c2 with solver := markSatisfied c2.solver o.xorVisited } o.order o.xorConnected o.xors = c4 at r3 ⊢
  by_cases i4 : c4.solver.inconsistent = true
  · rw [if_pos i4]; exact r3.inv
  rw [if_neg i4]
  obtain ⟨E4, g4⟩ := Fine.good (c := c4) r3.inv (by simpa using i4)
  obtain ⟨E5, g5, _⟩ := g4.markSatisfied o.iteVisited
  refine (Good.extractItes o.order o.ites g5 fun t ht => ?_).inv
  obtain ⟨r, _, hr⟩ := List.mem_filterMap.1 ht
  exact g5.base.tern hr

theorem Fine.resume (h : Fine orig F0 c) (order : State → List Nat) : Fine orig F0 (c.resumeSparse order) := by
  cases hc : c.solver.inconsistent with
  | true =>
    unfold Closure.resumeSparse
    rw [if_pos hc]; exact h
  | false =>
    obtain ⟨E, g⟩ := h.good hc
    exact (g.resume order).inv

theorem Fine.closed (h : Inv orig none s) (hc : s.inconsistent = false) (o : Options) : Fine orig s.formula (closed s o) := by
  have f0 : Fresh orig s.formula (start s) := ⟨InvE.start h hc, hc, rfl, rfl, rfl⟩
  obtain ⟨f1, s1, _⟩ := f0.enterDense
  have f2 := (f1.extract s1 o).resume o.order
  unfold Congruence.closed
  simp only
  have e : (start s).extractGates o = ((start s).enterDense.extract o).resumeSparse o.order := rfl
  rw [← e] at f2
  generalize (start s).extractGates o = c1 at f2 ⊢
  by_cases i1 : c1.solver.inconsistent = true
  · rw [if_pos i1]; exact f2
  rw [if_neg i1]
  obtain ⟨E2, g2⟩ := f2.good (by simpa using i1)
  have g3 : Good orig s.formula E2 { c1 with units := c1.solver.trail.length } := g2.congr rfl rfl rfl rfl rfl
  have r3 := Good.findUnits o.order o.units g3
  generalize Closure.findUnits { c1 with units := c1.solver.trail.length } o.order o.units = c4 at r3 ⊢
  by_cases i4 : c4.solver.inconsistent = true
  · rw [if_pos i4]; exact r3.inv
  rw [if_neg i4]
  obtain ⟨E4, g4⟩ := Fine.good (c := c4) r3.inv (by simpa using i4)
  have r5 := Good.findEquivalences o.order o.equivalences g4
  generalize c4.findEquivalences o.order o.equivalences = c5 at r5 ⊢
  by_cases i5 : c5.solver.inconsistent = true
  · rw [if_pos i5]; exact r5.inv
  rw [if_neg i5]
  obtain ⟨E5, g5⟩ := Fine.good (c := c5) r5.inv (by simpa using i5)
  exact (Good.propagateAll o.order o.iterations g5).inv

/-! ## Forward subsumption -/

/-- Representatives with binary clauses. -/
structure Linked (orig : List (List Nat)) (F0 : Formula) (c : Closure) : Prop where
  inv : InvE orig F0 [] c.solver
  cons : c.solver.inconsistent = false
  neg : ∀ l, c.repr (neg l) = neg (c.repr l)
  lt : ∀ l, c.repr l ≠ l → c.repr l / 2 < l / 2
  val : ∀ l, c.solver.values (c.repr l) = c.solver.values l
  link : ∀ l, c.repr l = l ∨ c.solver.values l ≠ 0 ∨ Bin c.solver (Spec.neg l) (c.repr l)

theorem Good.linked (h : Good orig F0 E c) : Linked orig F0 c := by
  refine ⟨InvE.drops (E := []) E (by rw [List.append_nil]; exact h.base.inv), h.base.cons, h.base.neg, h.base.lt, h.base.val, fun l => ?_⟩
  rcases h.base.link l with h1 | h1 | h1
  · exact Or.inl h1
  · exact Or.inr (Or.inl h1)
  · rcases h1 with ⟨k, _, e⟩ | ⟨r, h2, h3, h4⟩
    · cases e
    · exact Or.inr (Or.inr ⟨r, h2, h3, Or.inl h4.symm⟩)

theorem Linked.keeps (h : Linked orig F0 c) {s' : State} (hi : InvE orig F0 [] s') (hk : Keeps c.solver s') (bs : List (Nat × Nat)) :
    Linked orig F0 { c with solver := s', binaries := bs } := by
  refine ⟨hi, hk.inconsistent.trans h.cons, h.neg, h.lt, ?_, fun l => ?_⟩
  · intro l
    show s'.values (c.repr l) = s'.values l
    rw [hk.values]; exact h.val l
  · show c.repr l = l ∨ s'.values l ≠ 0 ∨ Bin s' (Spec.neg l) (c.repr l)
    rw [hk.values]
    rcases h.link l with h1 | h1 | h1
    · exact Or.inl h1
    · exact Or.inr (Or.inl h1)
    · rcases hk.bin _ _ h1 with h2 | h2 | h2
      · exact Or.inr (Or.inr h2)
      · rw [h.inv.inv.struct.neg] at h2; exact Or.inr (Or.inl (by omega))
      · rw [h.val] at h2; exact Or.inr (Or.inl (by omega))

theorem Linked.step (h : Linked orig F0 c) {σ : Assignment} (hσ : SatFormula σ c.solver.irr) (l : Nat) (hl : litTrue σ l) :
    litTrue σ (c.repr l) := by
  rcases h.link l with h1 | h1 | ⟨r, h1⟩
  · rw [h1]; exact hl
  · rcases (show 0 < c.solver.values l ∨ c.solver.values l < 0 by omega) with h2 | h2
    · obtain ⟨y, hy, ht⟩ := hσ [c.repr l] (Or.inl ⟨_, (h.inv.inv.struct.trail _).2 (by rw [h.val]; exact h2), rfl⟩)
      rwa [List.mem_singleton.1 hy] at ht
    · obtain ⟨y, hy, ht⟩ := hσ [Spec.neg l] (Or.inl ⟨_, (h.inv.inv.struct.trail _).2 (by rw [h.inv.inv.struct.neg]; omega), rfl⟩)
      rw [List.mem_singleton.1 hy, litTrue_neg] at ht
      exact absurd hl ht
  · obtain ⟨y, hy, ht⟩ := hσ _ (clause_irr h1.live h1.irredundant)
    have : y = Spec.neg l ∨ y = c.repr l := by
      rcases h1.lits with e | e <;> rw [e] at hy <;> simp at hy
      · exact hy
      · exact hy.symm
    rcases this with rfl | rfl
    · rw [litTrue_neg] at ht; exact absurd hl ht
    · exact ht

theorem Linked.same (h : Linked orig F0 c) {σ : Assignment} (hσ : SatFormula σ c.solver.irr) (l : Nat) :
    litTrue σ l ↔ litTrue σ (c.findRepr l) := by
  refine findRepr_ind h.lt (p := fun l m => litTrue σ l ↔ litTrue σ m) (fun _ _ => Iff.rfl) (fun l m _ ih => ?_) (l / 2 + 1) l (by omega)
  refine Iff.trans ⟨h.step hσ l, fun hr => ?_⟩ ih
  by_cases hl : litTrue σ l
  · exact hl
  · have := h.step hσ (Spec.neg l) ((litTrue_neg _ _).2 hl)
    rw [h.neg, litTrue_neg] at this
    exact absurd hr this

theorem Linked.large (h : Linked orig F0 c) {r : Nat} (hg : (c.solver.clause r).garbage = false) (hl : 3 ≤ (c.solver.clause r).lits.length)
    (he : (c.solver.clause r).redundant = true ∨ ∀ σ, SatFormula σ (c.solver.markGarbage r).irr →
      (∀ l, litTrue σ l ↔ litTrue σ (c.findRepr l)) → SatClause σ (c.solver.clause r).lits) :
    Linked orig F0 { c with solver := c.solver.markGarbage r } := by
  -- the links do not depend on this clause
  have hk := Keeps.large hg hl
  have hsame : ∀ σ, SatFormula σ (c.solver.markGarbage r).irr → ∀ l, litTrue σ l ↔ litTrue σ (c.findRepr l) := by
    intro σ hσ
    have hstep : ∀ l, litTrue σ l → litTrue σ (c.repr l) := by
      intro l hl'
      rcases h.link l with h1 | h1 | h1
      · rw [h1]; exact hl'
      · rcases (show 0 < c.solver.values l ∨ c.solver.values l < 0 by omega) with h2 | h2
        · obtain ⟨y, hy, ht⟩ := hσ [c.repr l] (Or.inl ⟨_, (h.inv.inv.struct.trail _).2 (by rw [h.val]; exact h2), rfl⟩)
          rwa [List.mem_singleton.1 hy] at ht
        · obtain ⟨y, hy, ht⟩ := hσ [Spec.neg l] (Or.inl ⟨_, (h.inv.inv.struct.trail _).2 (by rw [h.inv.inv.struct.neg]; omega), rfl⟩)
          rw [List.mem_singleton.1 hy, litTrue_neg] at ht
          exact absurd hl' ht
      · rcases h1 with ⟨q, hq⟩
        have hne : q ≠ r := by
          rintro rfl
          rcases hq.lits with e | e <;> rw [e] at hl <;> simp at hl
        have h1 := hq.keep (clause_lt hg) hne
        obtain ⟨y, hy, ht⟩ := hσ _ (clause_irr h1.live h1.irredundant)
        have : y = Spec.neg l ∨ y = c.repr l := by
          rcases h1.lits with e | e <;> rw [e] at hy <;> simp at hy
          · exact hy
          · exact hy.symm
        rcases this with rfl | rfl
        · rw [litTrue_neg] at ht; exact absurd hl' ht
        · exact ht
    intro l
    refine findRepr_ind h.lt (p := fun l m => litTrue σ l ↔ litTrue σ m) (fun _ _ => Iff.rfl) (fun l m _ ih => ?_) (l / 2 + 1) l (by omega)
    refine Iff.trans ⟨hstep l, fun hr => ?_⟩ ih
    by_cases hl : litTrue σ l
    · exact hl
    · have := hstep (Spec.neg l) ((litTrue_neg _ _).2 hl)
      rw [h.neg, litTrue_neg] at this
      exact absurd hr this
  refine h.keeps (h.inv.markGarbage hg ?_) hk c.binaries
  exact he.imp id fun he σ hσ => he σ hσ (hsame σ hσ)

theorem Linked.deleteTrivial : ∀ (rs : List Nat) {c : Closure}, Linked orig F0 c → Linked orig F0 (c.deleteTrivial rs) ∧
    (c.deleteTrivial rs).repr = c.repr
  | [], _, h => ⟨h, rfl⟩
  | r :: rs, c, h => by
    unfold Closure.deleteTrivial
    simp only
    by_cases c1 : ((c.solver.clause r).garbage || decide ((c.solver.clause r).lits.length < 3)) = true
    · rw [if_pos c1]; exact Linked.deleteTrivial rs h
    rw [if_neg c1]
    simp only [Bool.or_eq_true, decide_eq_true_eq, not_or, Bool.not_eq_true] at c1
    split
    · rename_i c2
      refine Linked.deleteTrivial rs (c := { c with solver := c.solver.markGarbage r }) (h.large c1.1 (by omega) (Or.inr fun σ hσ hs => ?_))
      simp only [Bool.or_eq_true, List.any_eq_true, Bool.and_eq_true, decide_eq_true_eq] at c2
      rcases c2 with ⟨l, hl, hv⟩ | ⟨l, hl, k, hk, ⟨_, _⟩, e⟩
      · obtain ⟨y, hy, ht⟩ := hσ [l] (Or.inl ⟨l, (h.inv.inv.struct.trail l).2 hv, rfl⟩)
        rw [List.mem_singleton.1 hy] at ht
        exact ⟨l, hl, ht⟩
      · by_cases ht : litTrue σ k
        · exact ⟨k, hk, ht⟩
        · refine ⟨l, hl, (hs l).2 ?_⟩
          rw [e, litTrue_neg]
          exact fun hh => ht ((hs k).2 hh)
    · exact Linked.deleteTrivial rs h

theorem Linked.forwardSubsume : ∀ (xs : List (Nat × List Nat)) {c : Closure}, Linked orig F0 c → Linked orig F0 (c.forwardSubsume xs) ∧
    (c.forwardSubsume xs).repr = c.repr
  | [], _, h => ⟨h, rfl⟩
  | (r, conn) :: xs, c, h => by
    unfold Closure.forwardSubsume
    split
    · rename_i c1
      simp only [Bool.and_eq_true, Bool.not_eq_true', decide_eq_true_eq, List.any_eq_true] at c1
      obtain ⟨⟨hg, hl⟩, d, _, hd⟩ := c1
      refine Linked.forwardSubsume xs (c := { c with solver := c.solver.markGarbage r }) (h.large hg hl ?_)
      unfold Closure.subsumes at hd
      simp only [Bool.and_eq_true, Bool.or_eq_true, Bool.not_eq_true', decide_eq_true_eq, List.all_eq_true, List.any_eq_true,
        ne_eq] at hd
      obtain ⟨⟨⟨d1, d2⟩, d3⟩, d4⟩ := hd
      rcases d3 with d3 | d3
      · exact Or.inl d3
      · refine Or.inr fun σ hσ hs => ?_
        have hirr : (c.solver.markGarbage r).irr (c.solver.clause d).lits :=
          (irr_garbage (clause_lt hg)).2 (Or.inr ⟨d, d2, d1, d3, rfl⟩)
        obtain ⟨o, ho, ht⟩ := hσ _ hirr
        rcases d4 o ho with hv | ⟨l, hl', _, e⟩
        · obtain ⟨y, hy, hy'⟩ := hσ [Spec.neg o] (Or.inl ⟨_, (h.inv.inv.struct.trail _).2 (by rw [h.inv.inv.struct.neg]; omega), rfl⟩)
          rw [List.mem_singleton.1 hy, litTrue_neg] at hy'
          exact absurd ht hy'
        · exact ⟨l, hl', (hs l).2 (by rw [e]; exact (hs o).1 ht)⟩
    · exact Linked.forwardSubsume xs h

theorem Linked.subsumeMatching (h : Linked orig F0 c) (o : Options) : InvE orig F0 [] (c.subsumeMatching o).solver ∧
    (c.subsumeMatching o).repr = c.repr := by
  obtain ⟨j1, _, j3⟩ := saveBinaries_spec (orig := orig) (F0 := F0) (E := []) (List.range c.solver.arena.length) (saved := []) List.nodup_range
    h.inv ⟨by simp, by simp, by simp⟩
  have l1 : Linked orig F0 c.enterDense := h.keeps j1 j3 _
  obtain ⟨l2, e2⟩ := Linked.deleteTrivial o.considered l1
  obtain ⟨l3, e3⟩ := Linked.forwardSubsume o.candidates l2
  have e : (((c.enterDense.deleteTrivial o.considered).forwardSubsume o.candidates)).repr = c.repr := by rw [e3, e2]; rfl
  unfold Closure.subsumeMatching Closure.resumeSparse
  rw [if_neg (by rw [l3.cons]; simp)]
  exact ⟨l3.inv.propagateRoot _ _, e⟩

/-! ## Results -/

theorem congruence_repr (h : Inv orig none s) (hc : s.inconsistent = false) (o : Options) :
    (congruence s o).repr = (closed s o).repr ∧ ∃ E, InvE orig s.formula E (congruence s o).solver := by
  have hf := Fine.closed h hc o
  unfold congruence
  simp only
  split
  · obtain ⟨E, h1, _⟩ := hf
    exact ⟨rfl, E, h1⟩
  · rename_i c1
    simp only [Bool.or_eq_true, not_or, Bool.not_eq_true] at c1
    obtain ⟨E, g⟩ := hf.good c1.1
    obtain ⟨h1, h2⟩ := g.linked.subsumeMatching o
    exact ⟨h2, [], h1⟩

/-- Representatives are equivalent in all models. -/
theorem congruence_same (h : Inv orig none s) (hc : s.inconsistent = false) (o : Options) {σ : Assignment} (hσ : SatFormula σ s.formula)
    (l : Nat) : litTrue σ l ↔ litTrue σ ((congruence s o).findRepr l) := by
  rw [findRepr_congr (congruence_repr h hc o).1]
  have hf := Fine.closed h hc o
  cases hi : (closed s o).solver.inconsistent with
  | true =>
    obtain ⟨E, h1, _⟩ := hf
    exact absurd hσ (h1.unsat hi σ)
  | false =>
    obtain ⟨E, g⟩ := hf.good hi
    exact g.linked.same (fun d hd => g.base.inv.models σ hσ d (Or.inl (State.irr_formula hd))) l

theorem congruence_inv (h : Inv orig none s) (hc : s.inconsistent = false) (o : Options) : Inv orig none (congruence s o).solver := by
  obtain ⟨_, E, h1⟩ := congruence_repr h hc o
  exact h1.inv

end Verif.Congruence
