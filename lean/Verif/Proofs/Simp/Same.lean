import Verif.Proofs.Simp.Dense

/-!
# Steps which keep the models of the irredundant clauses
-/

namespace Verif.Simp

open Verif.Spec Verif.Model Verif.Model.Extend

/-- The irredundant clauses have the same models. -/
def Same (s s' : State) : Prop := ∀ σ, SatFormula σ s.irr ↔ SatFormula σ s'.irr

theorem Same.refl (s : State) : Same s s := fun _ => Iff.rfl

theorem Same.trans {a b c : State} (h : Same a b) (h' : Same b c) : Same a c :=
  fun σ => (h σ).trans (h' σ)

theorem same_of_irr {s s' : State} (h : s'.irr = s.irr) : Same s s' := fun σ => by rw [h]

theorem same_unit {s : State} {l : Nat} (h : Entails s.irr [l]) : Same s (s.learnedUnit l) := by
  intro σ
  constructor
  · intro hσ c hc
    rcases irr_learnedUnit.1 hc with rfl | hc
    · exact h σ hσ
    · exact hσ c hc
  · exact fun hσ c hc => hσ c (irr_learnedUnit.2 (Or.inr hc))

theorem same_new {s : State} {c : List Nat} {red : Bool} (h : Entails s.irr c) :
    Same s (s.newClause c red) := by
  intro σ
  constructor
  · intro hσ d hd
    rcases irr_new.1 hd with ⟨rfl, _⟩ | hd
    · exact h σ hσ
    · exact hσ d hd
  · exact fun hσ d hd => hσ d (irr_new.2 (Or.inr hd))

theorem same_garbage {s : State} {r : Nat} (hg : (s.clause r).garbage = false)
    (h : (s.clause r).redundant = true ∨ Entails (s.markGarbage r).irr (s.clause r).lits) :
    Same s (s.markGarbage r) := by
  intro σ
  constructor
  · exact fun hσ d hd => hσ d (irr_of_garbage (clause_lt hg) hd)
  · intro hσ d hd
    rcases h with h | h
    · rcases hd with hd | ⟨k, h1, h2, rfl⟩
      · exact hσ d (Or.inl hd)
      · refine hσ _ ((irr_garbage (clause_lt hg)).2 (Or.inr ⟨k, ?_, h1, h2, rfl⟩))
        rintro rfl
        rw [h] at h2; cases h2
    · rcases irr_or_garbage (clause_lt hg) hd with hd | rfl
      · exact hσ d hd
      · exact h σ hσ

theorem same_satisfied {orig : List (List Nat)} {s : State} (h : Struct orig s) {r o : Nat}
    (hg : (s.clause r).garbage = false) (ho : o ∈ (s.clause r).lits) (hv : 0 < s.values o) :
    Same s (s.markGarbage r) := by
  refine same_garbage hg (Or.inr fun σ hσ => ?_)
  obtain ⟨y, hy, ht⟩ := hσ [o] (Or.inl ⟨o, (h.trail o).2 hv, rfl⟩)
  rw [List.mem_singleton.1 hy] at ht
  exact ⟨o, ho, ht⟩

theorem Struct.neg_irr {orig : List (List Nat)} {s : State} (h : Struct orig s) {m : Nat}
    (hm : s.values m < 0) : s.irr [Spec.neg m] := by
  refine Or.inl ⟨Spec.neg m, ?_, rfl⟩
  rw [h.trail, h.neg]; omega

theorem clause_irr {s : State} {r : Nat} (hg : (s.clause r).garbage = false)
    (hr : (s.clause r).redundant = false) : s.irr (s.clause r).lits := Or.inr ⟨r, hg, hr, rfl⟩

theorem rup_formula {s : State} {c : List Nat} (h : RUP s.irr c) : RUP s.formula c :=
  RUP.mono (fun d hd => ⟨d, State.irr_formula hd, .refl _⟩) (fun _ h => h) h

/-! ## Dense propagation -/

theorem same_propagateWatch {orig : List (List Nat)} {x : Option Nat} {s : State}
    (h : Inv orig x s) {n r : Nat} (hn : s.values n < 0)
    (hr : (s.clause r).garbage = false → (s.clause r).redundant = false ∧ n ∈ (s.clause r).lits) :
    Same s (s.propagateWatch n r).1 := by
  unfold State.propagateWatch
  by_cases hg : (s.clause r).garbage = true
  · rw [if_pos hg]
    exact .refl _
  · rw [if_neg hg]
    have hg : (s.clause r).garbage = false := by simpa using hg
    obtain ⟨hred, hmem⟩ := hr hg
    cases hb : s.binaryOther n r with
    | some other =>
      obtain ⟨b1, b2, b3⟩ := binaryOther_some hb
      dsimp only
      by_cases h1 : s.values other > 0
      · rw [if_pos h1]; exact .refl _
      · rw [if_neg h1]
        by_cases h2 : s.values other < 0
        · rw [if_pos h2]
          exact .refl _
        · rw [if_neg h2]
          by_cases h3 : s.removed (other / 2) = true
          · rw [if_pos h3]; exact .refl _
          · rw [if_neg h3]
            refine same_unit (RUP.entails (rup_of (clause_irr hg hred) fun m hm => ?_))
            rcases binary_lits b1 hmem b2 b3 hm with rfl | rfl
            · exact Or.inr (h.struct.neg_irr hn)
            · exact Or.inl (by simp)
    | none =>
      obtain ⟨c1, c2, c3⟩ := scan_spec s n (s.clause r).lits none
      dsimp only
      cases hs : s.scan n (s.clause r).lits none with
      | satisfied =>
        obtain ⟨o, o1, o2⟩ := c1 hs
        exact same_satisfied h.struct hg o1 o2
      | falsified => exact .refl _
      | unit u =>
        rcases c3 u hs with ⟨a, _⟩ | ⟨_, b, c, d, p, q, e, f⟩
        · cases a
        · refine same_unit (RUP.entails (rup_of (clause_irr hg hred) fun m hm => ?_))
          by_cases e1 : m = n
          · subst e1; exact Or.inr (h.struct.neg_irr hn)
          · rw [e] at hm
            rcases List.mem_append.1 hm with hm | hm
            · exact Or.inr (h.struct.neg_irr (f m (List.mem_append_left _ hm) e1))
            · rcases List.mem_cons.1 hm with rfl | hm
              · exact Or.inl (by simp)
              · exact Or.inr (h.struct.neg_irr (f m (List.mem_append_right _ hm) e1))
      | undecided => exact .refl _

theorem same_propagateWatches {orig : List (List Nat)} {x : Option Nat} {n : Nat} :
    ∀ (rs : List Nat) {s : State}, Inv orig x s → s.values n < 0 →
    (∀ r ∈ rs, (s.clause r).garbage = false →
      (s.clause r).redundant = false ∧ n ∈ (s.clause r).lits) →
    Same s (s.propagateWatches n rs).1
  | [], s, h, hn, hr => .refl _
  | r :: rs, s, h, hn, hr => by
    obtain ⟨h1, h2, _⟩ := h.propagateWatch hn (hr r (by simp))
    have h3 := same_propagateWatch h hn (hr r (by simp))
    unfold State.propagateWatches
    cases hp : s.propagateWatch n r with
    | mk s' b =>
      rw [hp] at h1 h2 h3
      cases b
      · exact h3
      · exact h3.trans (same_propagateWatches rs h1 (h2.neg hn) (fun k hk hg => by
          rw [h2.red, h2.lits]
          exact hr k (List.mem_cons_of_mem _ hk) (h2.live hg)))

theorem same_densePropagateLoop {orig : List (List Nat)} {x : Option Nat} {conn : Nat → Nat → Bool} :
    ∀ (fuel : Nat) {s : State}, Inv orig x s → Same s (s.densePropagateLoop conn fuel).1
  | 0, s, h => .refl _
  | fuel + 1, s, h => by
    unfold State.densePropagateLoop
    by_cases hp : s.propagate < s.trail.length
    · rw [if_pos hp]
      have hmem : s.trail.getD s.propagate 0 ∈ s.trail := by
        rw [List.getD_eq_getElem?_getD, List.getElem?_eq_getElem hp]
        exact List.getElem_mem hp
      generalize s.trail.getD s.propagate 0 = lit at hmem
      have hv := (h.struct.trail lit).1 hmem
      dsimp only
      have hn : ({ s with propagate := s.propagate + 1 } : State).values (Spec.neg lit) < 0 := by
        show s.values (Spec.neg lit) < 0
        rw [h.struct.neg]; omega
      obtain ⟨h1, _, _⟩ := (h.setPropagate (s.propagate + 1)).propagateWatches (n := Spec.neg lit)
        (State.connected { s with propagate := s.propagate + 1 } conn (Spec.neg lit)) hn
        (fun r hr _ => (mem_connected hr).2)
      have h2 : Same s _ := (same_of_irr (s := s) (s' := { s with propagate := s.propagate + 1 }) rfl).trans
        (same_propagateWatches (n := Spec.neg lit)
        (State.connected { s with propagate := s.propagate + 1 } conn (Spec.neg lit))
        (h.setPropagate (s.propagate + 1)) hn (fun r hr _ => (mem_connected hr).2))
      cases hp : State.propagateWatches { s with propagate := s.propagate + 1 } (Spec.neg lit)
          (State.connected { s with propagate := s.propagate + 1 } conn (Spec.neg lit)) with
      | mk s' b =>
        rw [hp] at h1 h2
        cases b
        · exact h2
        · exact h2.trans (same_densePropagateLoop fuel h1)
    · rw [if_neg hp]
      exact .refl _

theorem same_flushSatisfied {orig : List (List Nat)} {x : Option Nat} {u : Nat} :
    ∀ (rs : List Nat) {s : State}, Inv orig x s → 0 < s.values u →
    (∀ r ∈ rs, u ∈ (s.clause r).lits) → Same s (s.flushSatisfied rs)
  | [], s, h, _, _ => .refl _
  | r :: rs, s, h, hu, hr => by
    unfold State.flushSatisfied
    split
    · exact same_flushSatisfied rs h hu fun k hk => hr k (List.mem_cons_of_mem _ hk)
    · rename_i hg
      simp only [Bool.or_eq_true, decide_eq_true_eq, not_or] at hg
      have hg' : (s.clause r).garbage = false := by simpa using hg.1
      have hf := frame_garbage (clause_lt hg') (hr r (by simp)) hu
      exact (same_satisfied h.struct hg' (hr r (by simp)) hu).trans
        (same_flushSatisfied rs (h.markSatisfied hg' (hr r (by simp)) hu) hu
          fun k hk => by rw [hf.lits]; exact hr k (List.mem_cons_of_mem _ hk))

theorem same_flushUnits {orig : List (List Nat)} {x : Option Nat} {conn : Nat → Nat → Bool} :
    ∀ (us : List Nat) {s : State}, Inv orig x s → (∀ u ∈ us, 0 < s.values u) →
    Same s (s.flushUnits conn us)
  | [], s, h, _ => .refl _
  | u :: us, s, h, hu => by
    unfold State.flushUnits
    obtain ⟨h1, h2⟩ := h.flushSatisfied (s.connected conn u) (hu u (by simp))
      fun r hr => (mem_connected hr).2.2
    exact (same_flushSatisfied (s.connected conn u) h (hu u (by simp))
      fun r hr => (mem_connected hr).2.2).trans
      (same_flushUnits us h1 fun k hk => h2.pos (hu k (List.mem_cons_of_mem _ hk)))

theorem same_flush {orig : List (List Nat)} {x : Option Nat} {s : State}
    (h : Inv orig x s) (conn : Nat → Nat → Bool) : Same s (s.flushUnitsWhileConnected conn) := by
  unfold State.flushUnitsWhileConnected
  split
  · exact .refl _
  · obtain ⟨h1, _⟩ := h.densePropagate conn
    have h2 : Same s (s.densePropagate conn).1 := by
      have := same_densePropagateLoop (conn := conn) (s.trail.length + s.exports.length) h
      unfold State.densePropagate
      cases hp : s.densePropagateLoop conn (s.trail.length + s.exports.length) with
      | mk s' b =>
        rw [hp] at this
        cases b
        · exact this.trans (same_of_irr rfl)
        · exact this
    cases hp : s.densePropagate conn with
    | mk s' b =>
      rw [hp] at h1 h2
      cases b
      · exact h2
      · exact h2.trans (same_flushUnits (s'.trail.drop s.propagate) h1
          fun u hu => (h1.struct.trail u).1 (List.mem_of_mem_drop hu))

/-! ## Steps -/

/-- The invariant holds afterwards and the models are the same. -/
structure Step (orig : List (List Nat)) (s s' : State) : Prop where
  inv : Inv orig none s'
  same : Same s s'

theorem Step.refl {orig : List (List Nat)} {s : State} (h : Inv orig none s) : Step orig s s :=
  ⟨h, .refl _⟩

theorem Step.trans {orig : List (List Nat)} {a b c : State} (h : Step orig a b) (h' : Step orig b c) :
    Step orig a c := ⟨h'.inv, h.same.trans h'.same⟩

theorem Step.unit {orig : List (List Nat)} {s : State} (h : Inv orig none s) {l : Nat}
    (hv : s.values l = 0) (hl : s.InRange l) (hrem : s.removed (l / 2) = false) (hr : RUP s.irr [l]) :
    Step orig s (s.learnedUnit l) := ⟨h.learnedUnit hv hl hrem (rup_formula hr), same_unit hr.entails⟩

theorem Step.empty {orig : List (List Nat)} {s : State} (h : Inv orig none s) (hr : RUP s.irr []) :
    Step orig s s.learnedEmpty := ⟨h.learnedEmpty (rup_formula hr), same_of_irr rfl⟩

theorem Step.garbage {orig : List (List Nat)} {s : State} (h : Inv orig none s) {r : Nat}
    (hg : (s.clause r).garbage = false)
    (hr : (s.clause r).redundant = true ∨ Entails (s.markGarbage r).irr (s.clause r).lits) :
    Step orig s (s.markGarbage r) := ⟨h.markGarbage hg hr, same_garbage hg hr⟩

theorem Step.satisfied {orig : List (List Nat)} {s : State} (h : Inv orig none s) {r o : Nat}
    (hg : (s.clause r).garbage = false) (ho : o ∈ (s.clause r).lits) (hv : 0 < s.values o) :
    Step orig s (s.markGarbage r) := ⟨h.markSatisfied hg ho hv, same_satisfied h.struct hg ho hv⟩

theorem Step.new {orig : List (List Nat)} {s : State} (h : Inv orig none s) {c : List Nat}
    {red : Bool} (hc : ∀ l ∈ c, s.InRange l) (hn : c.Nodup) (ht : ∀ l ∈ c, Spec.neg l ∉ c)
    (hsz : 2 ≤ c.length) (hrem : ∀ l ∈ c, s.removed (l / 2) = false)
    (hr : RUP s.irr c) : Step orig s (s.newClause c red) :=
  ⟨h.newClause hc hn ht hsz (fun _ => hrem) (rup_formula hr), same_new hr.entails⟩

theorem Step.flush {orig : List (List Nat)} {s : State} (h : Inv orig none s)
    (conn : Nat → Nat → Bool) : Step orig s (s.flushUnitsWhileConnected conn) :=
  ⟨(h.flushUnitsWhileConnected conn).1, same_flush h conn⟩

/-- A unit which is implied but false. -/
theorem rup_empty {F : Formula} {u : Nat} (h : RUP F [u]) (hu : F [Spec.neg u]) : RUP F [] := by
  have key : ∀ l, UP F (fun l => Spec.neg l ∈ [u]) l → UP F (fun l => Spec.neg l ∈ ([] : List Nat)) l := by
    intro l hl
    induction hl with
    | assumed h =>
      have := List.mem_singleton.1 h
      rename_i l
      have e : l = Spec.neg u := by rw [← this, neg_neg]
      rw [e]
      exact .unit hu (by simp) (fun k hk hne => absurd (List.mem_singleton.1 hk) hne)
    | unit hc hl _ ih => exact .unit hc hl ih
  rcases h with ⟨c, hc, h⟩ | ⟨l, h1, h2⟩
  · exact Or.inl ⟨c, hc, fun m hm => key _ (h m hm)⟩
  · have e1 := List.mem_singleton.1 h1
    have e2 := List.mem_singleton.1 h2
    exact absurd (e2.trans e1.symm) (neg_ne l)

end Verif.Simp
