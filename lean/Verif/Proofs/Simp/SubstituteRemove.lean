import Verif.Proofs.Simp.SubstituteClauses
import Verif.Proofs.Simp.Fastel

/-!
# Equivalent literal substitution: eliminating the substituted variables
-/

namespace Verif.Simp

open Verif.Spec Verif.Model

/-- The variable was eliminated and its two clauses deleted. -/
structure Gone (idx e : Nat) (s s' : State) : Prop where
  values : s'.values = s.values
  exports : s'.exports = s.exports
  inconsistent : s'.inconsistent = s.inconsistent
  removed : ∀ v, v ≠ idx → s'.removed v = s.removed v
  clause : ∀ k, k ≠ e → k ≠ e + 1 → s'.clause k = s.clause k
  garbage : (s'.clause e).garbage = true ∧ (s'.clause (e + 1)).garbage = true

theorem gone_of {s s1 s' : State} {idx e : Nat} (hc : Cut [e] s s1) (hc' : Cut [e + 1] s1 (s1.markGarbage (e + 1)))
    {ext : List Extend.Extension} (h : s' = ({ s1.markGarbage (e + 1) with extend := ext } : State).markEliminated idx) :
    Gone idx e s s' := by
  subst h
  refine ⟨?_, ?_, ?_, fun v hv => ?_, fun k k1 k2 => ?_, ?_, ?_⟩
  · show s1.values = _
    exact hc.values
  · show s1.exports = _
    exact hc.exports
  · show s1.inconsistent = _
    exact hc.inconsistent
  · show (if v = idx then true else s1.removed v) = _
    rw [if_neg hv, hc.removed]
  · show (s1.markGarbage (e + 1)).clause k = _
    rw [hc'.clause k (by simpa using k2), hc.clause k (by simpa using k1)]
  · show ((s1.markGarbage (e + 1)).clause e).garbage = true
    rw [hc'.clause e (by simp)]
    exact hc.garbage e (by simp)
  · exact hc'.garbage (e + 1) (by simp)

theorem Inv.removeEquivalence {orig : List (List Nat)} {s : State} (h : Inv orig none s) {repr : Nat → Nat} {inc : Bool}
    {idx e o : Nat} (hv : idx < s.exports.length) (hrem : s.removed idx = false) (hval : s.values (2 * idx) = 0)
    (hrepr : repr (2 * idx) = o) (he : s.clause e = ⟨[Spec.neg (2 * idx), o], false, false⟩)
    (he1 : s.clause (e + 1) = ⟨[2 * idx, Spec.neg o], false, false⟩) (hne : o / 2 ≠ idx)
    (hno : ∀ r, r ≠ e → r ≠ e + 1 → (s.clause r).garbage = false → (s.clause r).redundant = false →
      ∀ l ∈ (s.clause r).lits, l / 2 ≠ idx) :
    Inv orig none (s.removeEquivalence repr inc idx e) ∧ Gone idx e s (s.removeEquivalence repr inc idx e) := by
  have e2 : 2 * idx / 2 = idx := by omega
  have en2 : Spec.neg (2 * idx) / 2 = idx := by rw [neg_div]; exact e2
  have hg : (s.clause e).garbage = false := by rw [he]
  have hi : (s.clause e).redundant = false := by rw [he]
  have hl : (s.clause e).lits = [Spec.neg (2 * idx), o] := by rw [he]
  have hS := h.struct
  have hnval : s.values (Spec.neg (2 * idx)) = 0 := by rw [hS.neg, hval]; rfl
  have hx := h.start idx
  have hcut := cut_one hg
  have hc1 : (s.markGarbage e).clause (e + 1) = ⟨[2 * idx, Spec.neg o], false, false⟩ := by
    rw [hcut.clause (e + 1) (by simp), he1]
  have hcut1 := cut_one (s := s.markGarbage e) (r := e + 1) (by rw [hc1])
  have novar : ((s.markGarbage e).markGarbage (e + 1)).NoVar idx := by
    intro r g1 g2 l hl'
    by_cases c2 : r = e + 1
    · rw [hcut1.garbage r (by rw [c2]; simp)] at g1; cases g1
    · by_cases c1 : r = e
      · rw [hcut1.clause r (by simpa using c2), hcut.garbage r (by rw [c1]; simp)] at g1; cases g1
      · rw [hcut1.clause r (by simpa using c2), hcut.clause r (by simpa using c1)] at g1 g2 hl'
        exact hno r c1 c2 g1 g2 l hl'
  -- the first clause is weakened
  have weak1 : Inv orig (some idx) ((s.weaken (Spec.neg (2 * idx)) [Spec.neg (2 * idx), o]).markGarbage e) := by
    rw [← hl]
    refine hx.weakenGarbage hg hi (by rw [hl]; simp) hnval (by rw [en2]) ?_
    rw [hl]
    intro σ hσ hn d hd
    rcases hd with ⟨k, k1, rfl⟩ | ⟨r, r1, r2, rfl⟩
    · refine satClause_assign (fun l hl => ?_) (hσ _ (Or.inl ⟨k, k1, rfl⟩))
      rw [List.mem_singleton.1 hl]
      exact ne_var_of_value hS hnval k1
    · by_cases c1 : r = e
      · rw [hcut.garbage r (by rw [c1]; simp)] at r1; cases r1
      · by_cases c2 : r = e + 1
        · have hof : ¬ litTrue σ o := fun ht => hn ⟨o, by simp, ht⟩
          have hsn : SatClause σ [Spec.neg o] := ⟨_, by simp, (litTrue_neg σ o).2 hof⟩
          rw [c2, hc1]
          obtain ⟨m, m1, m2⟩ := satClause_assign (x := Spec.neg (2 * idx)) (c := [Spec.neg o]) (fun l hl => by
            rw [List.mem_singleton.1 hl, neg_div, en2]; exact hne) hsn
          exact ⟨m, by simp only [List.mem_singleton] at m1; simp [m1], m2⟩
        · refine satClause_assign (fun l hl => ?_) (hσ _ (Or.inr ⟨r, r1, r2, rfl⟩))
          rw [hcut.clause r (by simpa using c1)] at r1 r2 hl
          rw [en2]
          exact hno r c1 c2 r1 r2 l hl
  -- the second clause is weakened, when the first is gone
  have weak2 : ∀ {t : State} {ext : List Extend.Extension}, t = { s.markGarbage e with extend := ext } → Inv orig (some idx) t →
      Inv orig (some idx) ((t.weaken (2 * idx) [2 * idx, Spec.neg o]).markGarbage (e + 1)) := by
    intro t ext ht hi
    have hct : t.clause (e + 1) = ⟨[2 * idx, Spec.neg o], false, false⟩ := by rw [ht]; exact hc1
    have hlt : [2 * idx, Spec.neg o] = (t.clause (e + 1)).lits := by rw [hct]
    rw [hlt]
    refine hi.weakenGarbage (by rw [hct]) (by rw [hct]) (by rw [hct]; simp) ?_ (by rw [e2]) ?_
    · rw [ht]; exact hval
    · refine redundant_noVar (hi.struct.markGarbage (by rw [hct])) (by rw [ht]; exact hval) ?_ _
      rw [ht, e2]
      exact novar
  have fin : ∀ {t : State} {ext : List Extend.Extension}, t = { (s.markGarbage e).markGarbage (e + 1) with extend := ext } →
      Inv orig (some idx) t → Inv orig none (t.markEliminated idx) ∧ Gone idx e s (t.markEliminated idx) := by
    intro t ext ht hi
    refine ⟨hi.markEliminated (by rw [ht]; exact hv) (by rw [ht]; exact hrem) (by rw [ht]; exact novar)
      (by rw [ht]; exact hval), gone_of hcut hcut1 (by rw [ht])⟩
  unfold State.removeEquivalence
  dsimp only
  rw [hrepr]
  have evals : (((s.markGarbage e).markGarbage (e + 1)).markEliminated idx).values = s.values := rfl
  have eww : ∀ (t : State) (v w : Nat) (c : List Nat), ((t.markGarbage v).weaken w c) = (t.weaken w c).markGarbage v := by
    intro t v w c; rw [weaken_eq, weaken_eq]; rfl
  by_cases c : (inc || decide (s.values o ≠ 0)) = true
  · rw [evals, if_pos c]
    by_cases h1 : s.values o ≤ 0
    · rw [if_pos h1]
      have ev : (((((s.markGarbage e).markGarbage (e + 1)).markEliminated idx).weaken (Spec.neg (2 * idx))
          [Spec.neg (2 * idx), o])).values = s.values := by rw [weaken_eq]; rfl
      rw [ev]
      by_cases h2 : s.values o ≥ 0
      · rw [if_pos h2, weaken_eliminated, weaken_eliminated, eww, eww, eww, eww]
        have := weak2 (ext := _) (by rw [weaken_eq]; rfl) weak1
        rw [eww] at this
        exact fin (ext := _) (by rw [weaken_eq, weaken_eq]; rfl) this
      · rw [if_neg h2, weaken_eliminated, eww, eww]
        refine fin (ext := _) (by rw [weaken_eq]; rfl) (weak1.markSatisfied (o := Spec.neg o) ?_ ?_ ?_)
        · rw [weaken_eq]; show ((s.markGarbage e).clause (e + 1)).garbage = false; rw [hc1]
        · rw [weaken_eq]; show _ ∈ ((s.markGarbage e).clause (e + 1)).lits; rw [hc1]; simp
        · rw [weaken_eq]; show 0 < s.values (Spec.neg o); rw [hS.neg]; omega
    · rw [if_neg h1, evals, if_pos (by omega), weaken_eliminated, eww]
      refine fin (ext := _) (by rw [weaken_eq]; rfl) (weak2 (ext := _) rfl (hx.markSatisfied hg (o := o) ?_ ?_))
      · rw [hl]; simp
      · omega
  · rw [evals, if_neg c]
    simp only [Bool.or_eq_true, decide_eq_true_eq, not_or, Bool.not_eq_true, ne_eq, Classical.not_not] at c
    rw [weaken_eliminated, weaken_eliminated, eww (s.markGarbage e) (e + 1), eww s e]
    have ht : ∃ ext, (s.weaken (Spec.neg (2 * idx)) [Spec.neg (2 * idx), o]).markGarbage e =
        ({ s.markGarbage e with extend := ext } : State) := ⟨_, by rw [weaken_eq]; rfl⟩
    generalize (s.weaken (Spec.neg (2 * idx)) [Spec.neg (2 * idx), o]).markGarbage e = t at weak1 ht ⊢
    obtain ⟨ext, ht⟩ := ht
    have hct : t.clause (e + 1) = ⟨[2 * idx, Spec.neg o], false, false⟩ := by rw [ht]; exact hc1
    have hst := weak1.struct.markGarbage (r := e + 1) (by rw [hct])
    have htv : t.values (2 * idx) = 0 := by rw [ht]; exact hval
    have htr : t.InRange (2 * idx) := by unfold State.InRange; rw [ht, e2]; exact hv
    have hrd : Redundant (t.markGarbage (e + 1)).irr [2 * idx] (2 * idx) :=
      redundant_noVar hst htv (by rw [ht, e2]; exact novar) _
    have hw := State.Hist.weaken (orig := orig) (s := t.markGarbage (e + 1)) hst (F := t.irr) weak1.hist
      (F' := (t.markGarbage (e + 1)).irr) (w := 2 * idx) (c := [2 * idx])
      weak1.struct.irr_range hst.irr_range (by simp) (fun l hl => by
        rw [List.mem_singleton.1 hl]
        exact ⟨htr, by rw [ht, e2]; exact hrem⟩) htv (fun l hl => Or.inl ⟨l, (hst.trail l).2 hl, rfl⟩) hrd
        (fun σ hσ hcl d hd => by
          rcases irr_or_garbage (clause_lt (by rw [hct])) hd with hd | hd
          · exact hσ d hd
          · rw [hd, hct]
            obtain ⟨m, m1, m2⟩ := hcl
            exact ⟨m, by simp only [List.mem_singleton] at m1; simp [m1], m2⟩)
    refine fin (ext := _) (by rw [weaken_eq, ht]; rfl) ⟨hst.weaken _ _, by rw [weaken_irr]; exact hw, ?_, ?_⟩
    · exact State.Witnesses.weaken (s := t.markGarbage (e + 1)) weak1.witness hst htr (by rw [e2]) _ fun l hl => by
        rw [List.mem_singleton.1 hl]
        exact ⟨htr, by rw [ht, e2]; exact hrem⟩
    · unfold State.Implied
      rw [weaken_irr, show ((t.markGarbage (e + 1)).weaken (2 * idx) [2 * idx]).formula = (t.markGarbage (e + 1)).formula from by
        rw [weaken_eq]; rfl, show ((t.markGarbage (e + 1)).weaken (2 * idx) [2 * idx]).removed = t.removed from by
        rw [weaken_eq]; rfl]
      refine weak1.implied.weaken (w := 2 * idx) (c := [2 * idx]) (by rw [e2]) hrd (fun σ hσ hcl d hd => ?_)
        (fun d hd => formula_of_garbage (clause_lt (by rw [hct])) hd) (by simp)
      rcases irr_or_garbage (clause_lt (by rw [hct])) hd with hd | hd
      · exact hσ d hd
      · rw [hd, hct]
        obtain ⟨m, m1, m2⟩ := hcl
        exact ⟨m, by simp only [List.mem_singleton] at m1; simp [m1], m2⟩

theorem Inv.removeEquivalences {orig : List (List Nat)} {repr : Nat → Nat} {inc : Bool}
    (hidem : ∀ l, repr (repr l) = repr l) (hneg : ∀ l, repr (Spec.neg l) = Spec.neg (repr l)) :
    ∀ (eqs : List (Nat × Nat)) {s : State}, Inv orig none s → (eqs.map (·.1)).Nodup →
    (∀ i e, (i, e) ∈ eqs → i < s.exports.length ∧ s.removed i = false ∧ s.values (2 * i) = 0 ∧ repr (2 * i) ≠ 2 * i ∧
      s.clause e = ⟨[Spec.neg (2 * i), repr (2 * i)], false, false⟩ ∧
      s.clause (e + 1) = ⟨[2 * i, Spec.neg (repr (2 * i))], false, false⟩) →
    (∀ r, (s.clause r).garbage = false → (s.clause r).redundant = false →
      (∀ l ∈ (s.clause r).lits, repr l = l) ∨ ∃ i e, (i, e) ∈ eqs ∧ (r = e ∨ r = e + 1)) →
    Inv orig none (s.removeEquivalences repr inc eqs) ∧ (s.removeEquivalences repr inc eqs).inconsistent = s.inconsistent
  | [], s, h, _, _, _ => ⟨h, rfl⟩
  | (i, e) :: eqs, s, h, hn, hall, hcov => by
    obtain ⟨n1, n2⟩ := List.nodup_cons.1 hn
    have n1 : ∀ j f, (j, f) ∈ eqs → j ≠ i := fun j f hm ej => n1 (by rw [← ej]; exact List.mem_map.2 ⟨(j, f), hm, rfl⟩)
    obtain ⟨a1, a2, a3, a4, a5, a6⟩ := hall i e (by simp)
    have nrep : ∀ j l, repr (2 * j) ≠ 2 * j → repr l = l → l / 2 ≠ j := by
      intro j l hj hl hd
      rcases eq_or_eq_neg (a := l) (b := 2 * j) (by omega) with e1 | e1
      · exact hj (by rw [← e1]; exact hl)
      · rw [e1, hneg] at hl
        exact hj (neg_inj hl)
    have hno : ∀ r, r ≠ e → r ≠ e + 1 → (s.clause r).garbage = false → (s.clause r).redundant = false →
        ∀ l ∈ (s.clause r).lits, l / 2 ≠ i := by
      intro r r1 r2 g1 g2 l hl
      rcases hcov r g1 g2 with hr | ⟨j, f, hm, hf⟩
      · exact nrep i l a4 (hr l hl)
      · rcases List.mem_cons.1 hm with em | hm
        · obtain ⟨-, rfl⟩ := Prod.mk.inj em
          rcases hf with rfl | rfl
          · exact absurd rfl r1
          · exact absurd rfl r2
        · obtain ⟨_, _, _, b4, b5, b6⟩ := hall j f (List.mem_cons_of_mem _ hm)
          have hj : j ≠ i := n1 j f hm
          have ho := nrep i (repr (2 * j)) a4 (hidem _)
          rcases hf with rfl | rfl
          · rw [b5] at hl
            simp only [List.mem_cons, List.not_mem_nil, or_false] at hl
            rcases hl with rfl | rfl
            · rw [neg_div]; omega
            · exact ho
          · rw [b6] at hl
            simp only [List.mem_cons, List.not_mem_nil, or_false] at hl
            rcases hl with rfl | rfl
            · omega
            · rw [neg_div]; exact ho
    obtain ⟨i1, i2⟩ := h.removeEquivalence (inc := inc) a1 a2 a3 rfl a5 a6 (nrep i _ a4 (hidem _)) hno
    unfold State.removeEquivalences
    have distinct : ∀ j f, (j, f) ∈ eqs → f ≠ e ∧ f ≠ e + 1 ∧ f + 1 ≠ e := by
      intro j f hm
      obtain ⟨_, _, _, b4, b5, b6⟩ := hall j f (List.mem_cons_of_mem _ hm)
      have hj := n1 j f hm
      have hj2 : Spec.neg (2 * j) / 2 = j := by rw [neg_div]; omega
      have hi2 : Spec.neg (2 * i) / 2 = i := by rw [neg_div]; omega
      refine ⟨?_, ?_, ?_⟩
      · rintro rfl
        rw [a5] at b5
        simp only [Clause.mk.injEq, List.cons.injEq, and_true] at b5
        have := b5.1
        rw [← this] at hj2; omega
      · rintro rfl
        rw [a6] at b5
        simp only [Clause.mk.injEq, List.cons.injEq, and_true] at b5
        have := b5.1
        rw [← this] at hj2; omega
      · intro ef
        rw [ef, a5] at b6
        simp only [Clause.mk.injEq, List.cons.injEq, and_true] at b6
        have := b6.1
        rw [this] at hi2; omega
    obtain ⟨j1, j2⟩ := Inv.removeEquivalences (inc := inc) hidem hneg eqs i1 n2 (fun j f hm => by
      obtain ⟨b1, b2, b3, b4, b5, b6⟩ := hall j f (List.mem_cons_of_mem _ hm)
      obtain ⟨d1, d2, d3⟩ := distinct j f hm
      rw [i2.exports, i2.values, i2.removed j (n1 j f hm), i2.clause f d1 d2, i2.clause (f + 1) d3 (by omega)]
      exact ⟨b1, b2, b3, b4, b5, b6⟩) (fun r g1 g2 => by
      have r1 : r ≠ e := by rintro rfl; rw [i2.garbage.1] at g1; cases g1
      have r2 : r ≠ e + 1 := by rintro rfl; rw [i2.garbage.2] at g1; cases g1
      rw [i2.clause r r1 r2] at g1 g2 ⊢
      rcases hcov r g1 g2 with hr | ⟨j, f, hm, hf⟩
      · exact Or.inl hr
      · rcases List.mem_cons.1 hm with em | hm
        · obtain ⟨-, rfl⟩ := Prod.mk.inj em
          rcases hf with rfl | rfl
          · exact absurd rfl r1
          · exact absurd rfl r2
        · exact Or.inr ⟨j, f, hm, hf⟩)
    exact ⟨j1, j2.trans i2.inconsistent⟩

end Verif.Simp
