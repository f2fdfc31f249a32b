import Verif.Model.Simp.Substitute
import Verif.Proofs.Simp.Same

/-!
# Propagation at the root level
-/

namespace Verif.Simp

open Verif.Spec Verif.Model Verif.Model.Extend

/-- Only literals in `V` got values. -/
structure Grow (V : Nat → Prop) (s s' : State) : Prop where
  arena : s'.arena = s.arena
  exports : s'.exports = s.exports
  removed : s'.removed = s.removed
  keep : ∀ l, s.values l ≠ 0 → s'.values l = s.values l
  new : ∀ l, s.values l = 0 → s'.values l ≠ 0 → V l

theorem Grow.refl {V : Nat → Prop} (s : State) : Grow V s s :=
  ⟨rfl, rfl, rfl, fun _ _ => rfl, fun _ h h' => absurd h h'⟩

theorem Grow.trans {V : Nat → Prop} {a b c : State} (h : Grow V a b) (h' : Grow V b c) : Grow V a c := by
  refine ⟨h'.arena.trans h.arena, h'.exports.trans h.exports, h'.removed.trans h.removed, fun l hl => ?_, fun l h1 h2 => ?_⟩
  · rw [h'.keep l (by rw [h.keep l hl]; exact hl), h.keep l hl]
  · by_cases e : b.values l = 0
    · exact h'.new l e h2
    · exact h.new l h1 e

theorem Grow.clause {V : Nat → Prop} {s s' : State} (h : Grow V s s') (r : Nat) : s'.clause r = s.clause r := by
  unfold State.clause; rw [h.arena]

theorem Grow.inRange {V : Nat → Prop} {s s' : State} (h : Grow V s s') (l : Nat) : s'.InRange l ↔ s.InRange l := by
  unfold State.InRange; rw [h.exports]

theorem Grow.mem_trail {V : Nat → Prop} {orig : List (List Nat)} {s s' : State} (h : Grow V s s') (hs : Struct orig s)
    (hs' : Struct orig s') {l : Nat} (hl : l ∈ s.trail) : l ∈ s'.trail := by
  have := (hs.trail l).1 hl
  rw [hs'.trail, h.keep l (by omega)]; exact this

theorem Grow.irr {V : Nat → Prop} {orig : List (List Nat)} {s s' : State} (h : Grow V s s') (hs : Struct orig s)
    (hs' : Struct orig s') {c : List Nat} (hc : s.irr c) : s'.irr c := by
  rcases hc with ⟨l, hl, rfl⟩ | ⟨r, h1, h2, rfl⟩
  · exact Or.inl ⟨l, h.mem_trail hs hs' hl, rfl⟩
  · exact Or.inr ⟨r, by rw [h.clause]; exact h1, by rw [h.clause]; exact h2, by rw [h.clause]⟩

theorem Grow.formula {V : Nat → Prop} {orig : List (List Nat)} {s s' : State} (h : Grow V s s') (hs : Struct orig s)
    (hs' : Struct orig s') {c : List Nat} (hc : s.formula c) : s'.formula c := by
  rcases hc with ⟨l, hl, rfl⟩ | ⟨r, h1, rfl⟩
  · exact Or.inl ⟨l, h.mem_trail hs hs' hl, rfl⟩
  · exact Or.inr ⟨r, by rw [h.clause]; exact h1, by rw [h.clause]⟩

theorem grow_unit {V : Nat → Prop} {orig : List (List Nat)} {s : State} (hs : Struct orig s) {u : Nat} (hu : s.values u = 0)
    (h1 : V u) (h2 : V (Spec.neg u)) : Grow V s (s.learnedUnit u) := by
  have hn : s.values (Spec.neg u) = 0 := by rw [hs.neg, hu]; rfl
  refine ⟨rfl, rfl, rfl, fun l hl => ?_, fun l _ hl => ?_⟩
  · rw [values_learned, if_neg (by rintro rfl; exact hl hu), if_neg (by rintro rfl; exact hl hn)]
  · rw [values_learned] at hl
    by_cases e : l = u
    · rw [e]; exact h1
    · by_cases e' : l = Spec.neg u
      · rw [e']; exact h2
      · rw [if_neg e, if_neg e'] at hl; exact absurd ‹_› hl

theorem grow_empty {V : Nat → Prop} (s : State) : Grow V s s.learnedEmpty :=
  ⟨rfl, rfl, rfl, fun _ _ => rfl, fun _ h h' => absurd h h'⟩

/-! ## Visiting clauses -/

theorem Inv.visit {orig : List (List Nat)} {V : Nat → Prop} {s : State} (h : Inv orig none s) {r : Nat}
    (hV : (s.clause r).garbage = false → ∀ l ∈ (s.clause r).lits, V l ∧ V (Spec.neg l)) :
    Inv orig none (s.visit r) ∧ Grow V s (s.visit r) := by
  unfold State.visit
  by_cases c1 : ((s.clause r).garbage || (s.clause r).lits.any (fun l => decide (s.values l > 0))) = true
  · rw [if_pos c1]; exact ⟨h, .refl _⟩
  · rw [if_neg c1]
    simp only [Bool.or_eq_true, not_or, List.any_eq_true, decide_eq_true_eq, not_exists, not_and] at c1
    obtain ⟨hg, hle⟩ := c1
    have hg : (s.clause r).garbage = false := by simpa using hg
    have hmem : ∀ m : Nat, m ∈ (s.clause r).lits.filter (fun l => decide (s.values l = 0)) ↔
        m ∈ (s.clause r).lits ∧ s.values m = 0 := by
      intro m; rw [List.mem_filter]; simp
    generalize (s.clause r).lits.filter (fun l => decide (s.values l = 0)) = c at hmem ⊢
    have hrup : RUP s.formula c := rup_of (Struct.clause_formula hg) fun m hm => by
      have h1 := hle m hm
      by_cases e : s.values m = 0
      · exact Or.inl ((hmem m).2 ⟨hm, e⟩)
      · exact Or.inr (h.struct.neg_unit (by omega))
    match c, hmem, hrup with
    | [], _, hrup => exact ⟨h.learnedEmpty hrup, grow_empty s⟩
    | [u], hmem, hrup =>
      dsimp only
      obtain ⟨u1, u2⟩ := (hmem u).1 (by simp)
      by_cases c2 : s.removed (u / 2) = true
      · rw [if_pos c2]; exact ⟨h, .refl _⟩
      · rw [if_neg c2]
        exact ⟨h.learnedUnit u2 (h.struct.clause r hg u u1) (by simpa using c2) hrup,
          grow_unit h.struct u2 (hV hg u u1).1 (hV hg u u1).2⟩
    | _ :: _ :: _, _, _ => exact ⟨h, .refl _⟩

/-- The literals of watched clauses are in `V`. -/
def Watched (V : Nat → Prop) (s : State) (watched : Nat → Bool) : Prop :=
  ∀ r, watched r = true → (s.clause r).garbage = false → ∀ l ∈ (s.clause r).lits, V l ∧ V (Spec.neg l)

theorem Watched.grow {V : Nat → Prop} {s s' : State} {w : Nat → Bool} (h : Watched V s w) (hg : Grow V s s') : Watched V s' w := by
  intro r
  rw [hg.clause]; exact h r

theorem Inv.visits {orig : List (List Nat)} {V : Nat → Prop} {w : Nat → Bool} : ∀ (rs : List Nat) {s : State},
    Inv orig none s → Watched V s w → Inv orig none (s.visits w rs) ∧ Grow V s (s.visits w rs)
  | [], s, h, _ => ⟨h, .refl _⟩
  | r :: rs, s, h, hV => by
    unfold State.visits
    split
    · exact ⟨h, .refl _⟩
    · split
      · rename_i _ hw
        obtain ⟨i1, i2⟩ := h.visit (V := V) (hV r hw)
        obtain ⟨j1, j2⟩ := Inv.visits rs i1 (hV.grow i2)
        exact ⟨j1, i2.trans j2⟩
      · exact Inv.visits rs h hV

/-- Number of unassigned variables. -/
def State.unassigned (s : State) : Nat := (List.range s.exports.length).countP fun v => decide (s.values (2 * v) = 0)

theorem unassigned_le (s : State) : s.unassigned ≤ s.exports.length := by
  have := List.countP_le_length (p := fun v => decide (s.values (2 * v) = 0)) (l := List.range s.exports.length)
  unfold State.unassigned
  simpa using this

theorem countP_lt_of {p q : Nat → Bool} {a : Nat} : ∀ {l : List Nat}, (∀ x ∈ l, p x = true → q x = true) → a ∈ l →
    p a = false → q a = true → l.countP p < l.countP q
  | [], _, ha, _, _ => by cases ha
  | b :: l, h, ha, h1, h2 => by
    have hl : ∀ x ∈ l, p x = true → q x = true := fun x hx => h x (List.mem_cons_of_mem _ hx)
    have hle : l.countP p ≤ l.countP q := List.countP_mono_left hl
    rw [List.countP_cons, List.countP_cons]
    rcases List.mem_cons.1 ha with e | ha
    · subst e
      rw [h1, h2]
      simp only [if_true, Bool.false_eq_true, if_false]; omega
    · have := countP_lt_of hl ha h1 h2
      have hb := h b (by simp)
      cases hp : p b
      · simp only [Bool.false_eq_true, if_false]; omega
      · rw [hb hp]; simp only [if_true]; omega

theorem unassigned_unit {orig : List (List Nat)} {s : State} (hs : Struct orig s) {u : Nat} (hu : s.values u = 0) (hr : s.InRange u) :
    (s.learnedUnit u).unassigned < s.unassigned := by
  have hg := grow_unit (V := fun _ => True) hs hu trivial trivial
  unfold State.unassigned
  rw [hg.exports]
  refine countP_lt_of (a := u / 2) (fun v _ hv => ?_) (List.mem_range.2 hr) ?_ ?_
  · simp only [decide_eq_true_eq] at hv ⊢
    by_cases e : s.values (2 * v) = 0
    · exact e
    · rw [hg.keep _ e] at hv; exact hv
  · simp only [decide_eq_false_iff_not]
    rw [values_learned]
    by_cases e : 2 * (u / 2) = u
    · rw [if_pos e]; simp
    · rw [if_neg e, if_pos (by unfold Spec.neg; split <;> omega)]; simp
  · simp only [decide_eq_true_eq]
    rcases eq_or_eq_neg (show 2 * (u / 2) / 2 = u / 2 by omega) with e | e
    · rw [e]; exact hu
    · rw [e, hs.neg, hu]; rfl

theorem unitBinary_some {s : State} {w : Nat → Bool} {r : Nat} (h : s.unitBinary w = some r) :
    w r = true ∧ (s.clause r).garbage = false ∧ (s.clause r).redundant = false ∧ (s.clause r).lits.length = 2 ∧
    (∀ l ∈ (s.clause r).lits, s.values l ≤ 0) ∧
    ((s.clause r).lits.filter fun l => decide (s.values l = 0)).length ≤ 1 := by
  have := List.find?_some h
  simp only [Bool.and_eq_true, Bool.not_eq_true', decide_eq_true_eq, List.all_eq_true] at this
  obtain ⟨⟨⟨⟨⟨h1, h2⟩, h3⟩, h4⟩, h5⟩, h6⟩ := this
  exact ⟨h1, h2, h3, h4, h5, h6⟩

theorem unitBinary_none {s : State} {w : Nat → Bool} (h : s.unitBinary w = none) {r : Nat} (hw : w r = true)
    (hg : (s.clause r).garbage = false) (hr : (s.clause r).redundant = false) (hlen : (s.clause r).lits.length = 2)
    (hle : ∀ l ∈ (s.clause r).lits, s.values l ≤ 0) :
    1 < ((s.clause r).lits.filter fun l => decide (s.values l = 0)).length := by
  have := List.find?_eq_none.1 h r (List.mem_range.2 (clause_lt hg))
  simp only [Bool.and_eq_true, Bool.not_eq_true', decide_eq_true_eq, List.all_eq_true, not_and] at this
  have := this ⟨⟨⟨⟨hw, hg⟩, hr⟩, hlen⟩, hle⟩
  omega

/-- Visiting such a clause makes progress. -/
theorem visit_progress {orig : List (List Nat)} {s : State} (h : Inv orig none s) {w : Nat → Bool} {r : Nat}
    (hr : s.unitBinary w = some r) : (s.visit r).inconsistent = true ∨ (s.visit r).unassigned < s.unassigned := by
  obtain ⟨_, h2, h3, _, h5, h6⟩ := unitBinary_some hr
  unfold State.visit
  rw [if_neg]
  · have hmem : ∀ m : Nat, m ∈ (s.clause r).lits.filter (fun l => decide (s.values l = 0)) ↔
        m ∈ (s.clause r).lits ∧ s.values m = 0 := by
      intro m; rw [List.mem_filter]; simp
    generalize (s.clause r).lits.filter (fun l => decide (s.values l = 0)) = c at hmem h6 ⊢
    match c, hmem, h6 with
    | [], _, _ => exact Or.inl rfl
    | [u], hmem, _ =>
      obtain ⟨u1, u2⟩ := (hmem u).1 (by simp)
      dsimp only
      rw [if_neg (by rw [h.struct.removed r h2 h3 u u1]; simp)]
      exact Or.inr (unassigned_unit h.struct u2 (h.struct.clause r h2 u u1))
    | _ :: _ :: _, _, h6 => simp at h6
  · simp only [Bool.or_eq_true, not_or, List.any_eq_true, decide_eq_true_eq, not_exists, not_and, h2]
    exact ⟨by simp, fun l hl => by have := h5 l hl; omega⟩

theorem Inv.complete {orig : List (List Nat)} {V : Nat → Prop} {w : Nat → Bool} : ∀ (fuel : Nat) {s : State},
    Inv orig none s → Watched V s w → s.unassigned < fuel →
    Inv orig none (s.complete w fuel) ∧ Grow V s (s.complete w fuel) ∧
    ((s.complete w fuel).inconsistent = true ∨ (s.complete w fuel).unitBinary w = none)
  | 0, s, _, _, hf => absurd hf (Nat.not_lt_zero _)
  | fuel + 1, s, h, hV, hf => by
    unfold State.complete
    by_cases c1 : s.inconsistent = true
    · rw [if_pos c1]; exact ⟨h, .refl _, Or.inl c1⟩
    · rw [if_neg c1]
      cases hr : s.unitBinary w with
      | none => exact ⟨h, .refl _, Or.inr hr⟩
      | some r =>
        dsimp only
        obtain ⟨i1, i2⟩ := h.visit (V := V) (hV r (unitBinary_some hr).1)
        rcases visit_progress h hr with hp | hp
        · have e : (s.visit r).complete w fuel = s.visit r := by
            cases fuel with
            | zero => rfl
            | succ k =>
              unfold State.complete
              rw [if_pos hp]
          rw [e]; exact ⟨i1, i2, Or.inl hp⟩
        · obtain ⟨j1, j2, j3⟩ := Inv.complete fuel i1 (hV.grow i2) (by omega)
          exact ⟨j1, i2.trans j2, j3⟩

theorem Inv.propagateRoot {orig : List (List Nat)} {V : Nat → Prop} {w : Nat → Bool} {s : State} (h : Inv orig none s)
    (hV : Watched V s w) (order : List Nat) :
    Inv orig none (s.propagateRoot w order) ∧ Grow V s (s.propagateRoot w order) ∧
    ((s.propagateRoot w order).inconsistent = true ∨ (s.propagateRoot w order).unitBinary w = none) := by
  obtain ⟨i1, i2⟩ := h.visits order hV
  unfold State.propagateRoot
  obtain ⟨j1, j2, j3⟩ := i1.complete (V := V) (w := w) (s.exports.length + 1) (hV.grow i2)
    (by have := unassigned_le (s.visits w order); rw [i2.exports] at this; omega)
  exact ⟨j1, i2.trans j2, j3⟩

/-! ## Units -/

/-- Whatever gets assigned in the meantime, assuming that the literal is false leads to a conflict. -/
structure Forced (orig : List (List Nat)) (V : Nat → Prop) (s : State) (u : Nat) : Prop where
  range : s.InRange u
  kept : s.removed (u / 2) = false
  mem : V u ∧ V (Spec.neg u)
  up : ∀ s', Inv orig none s' → Grow V s s' → ∀ A, UP s'.formula A (Spec.neg u) → UPConflict s'.formula A

theorem Forced.grow {orig : List (List Nat)} {V : Nat → Prop} {s s' : State} {u : Nat} (h : Forced orig V s u)
    (hg : Grow V s s') : Forced orig V s' u :=
  ⟨(hg.inRange u).2 h.range, by rw [hg.removed]; exact h.kept, h.mem, fun t ht hgt => h.up t ht (hg.trans hgt)⟩

theorem Inv.assignUnits {orig : List (List Nat)} {V : Nat → Prop} {w : Nat → Bool} {order : State → List Nat} :
    ∀ (us : List Nat) {s : State}, Inv orig none s → Watched V s w → (∀ u ∈ us, Forced orig V s u) →
    Inv orig none (s.assignUnits w order us) ∧ Grow V s (s.assignUnits w order us) ∧
    (s.assignUnits w order us = s ∨ (s.assignUnits w order us).inconsistent = true ∨
      (s.assignUnits w order us).unitBinary w = none) ∧
    ((s.assignUnits w order us).inconsistent = true ∨ ∀ u ∈ us, 0 < (s.assignUnits w order us).values u)
  | [], s, h, _, _ => ⟨h, .refl _, Or.inl rfl, Or.inr fun u hu => (by cases hu)⟩
  | u :: us, s, h, hV, hu => by
    have hu1 := hu u (by simp)
    have hu2 : ∀ v ∈ us, Forced orig V s v := fun v hv => hu v (List.mem_cons_of_mem _ hv)
    unfold State.assignUnits
    by_cases c1 : s.inconsistent = true
    · rw [if_pos c1]; exact ⟨h, .refl _, Or.inl rfl, Or.inl c1⟩
    · rw [if_neg c1]
      by_cases c2 : s.values u > 0
      · rw [if_pos c2]
        obtain ⟨i1, i2, i3, i4⟩ := Inv.assignUnits us (order := order) h hV hu2
        refine ⟨i1, i2, i3, i4.imp (fun h => h) fun i4 v hv => ?_⟩
        rcases List.mem_cons.1 hv with e | hv
        · rw [e, i2.keep _ (by omega)]; exact c2
        · exact i4 v hv
      · rw [if_neg c2]
        by_cases c3 : s.values u < 0
        · rw [if_pos c3]
          refine ⟨h.learnedEmpty ?_, grow_empty s, Or.inr (Or.inl rfl), Or.inl rfl⟩
          refine Or.inl (hu1.up s h (.refl _) _ ?_)
          exact .unit (h.struct.neg_unit c3) (by simp) fun k hk hne => absurd (List.mem_singleton.1 hk) hne
        · rw [if_neg c3]
          have c4 : s.values u = 0 := by omega
          have i1 := h.learnedUnit c4 hu1.range hu1.kept (Or.inl (hu1.up s h (.refl _) _ (.assumed (by simp))))
          have i2 := grow_unit h.struct c4 hu1.mem.1 hu1.mem.2
          obtain ⟨j1, j2, j3⟩ := i1.propagateRoot (hV.grow i2) (order (s.learnedUnit u))
          have j2 := i2.trans j2
          have hval : 0 < ((s.learnedUnit u).propagateRoot w (order (s.learnedUnit u))).values u := by
            obtain ⟨_, k2, _⟩ := i1.propagateRoot (hV.grow i2) (order (s.learnedUnit u))
            rw [k2.keep u (by rw [values_learned, if_pos rfl]; simp), values_learned, if_pos rfl]; simp
          generalize (s.learnedUnit u).propagateRoot w (order (s.learnedUnit u)) = s1 at j1 j2 j3 hval ⊢
          obtain ⟨k1, k2, k3, k4⟩ := Inv.assignUnits us (order := order) j1 (hV.grow j2) fun v hv => (hu2 v hv).grow j2
          refine ⟨k1, j2.trans k2, ?_, k4.imp (fun h => h) fun k4 v hv => ?_⟩
          · rcases k3 with k3 | k3
            · rw [k3]; exact Or.inr j3
            · exact Or.inr k3
          · rcases List.mem_cons.1 hv with e | hv
            · rw [e, k2.keep _ (by omega)]; exact hval
            · exact k4 v hv

/-- A binary clause which is not a unit. -/
theorem implied_true {orig : List (List Nat)} {s : State} (h : Struct orig s) {w : Nat → Bool} (hn : s.unitBinary w = none) {r : Nat}
    (hw : w r = true) (hg : (s.clause r).garbage = false) (hr : (s.clause r).redundant = false)
    (hlen : (s.clause r).lits.length = 2) {a b : Nat} (ha : Spec.neg a ∈ (s.clause r).lits) (hb : b ∈ (s.clause r).lits)
    (hab : b ≠ Spec.neg a) (hv : 0 < s.values a) : 0 < s.values b := by
  have hva : s.values (Spec.neg a) < 0 := by rw [h.neg]; omega
  by_cases c : 0 < s.values b
  · exact c
  · exfalso
    have := unitBinary_none hn hw hg hr hlen fun l hl => by
      rcases binary_lits hlen ha hb hab hl with e | e <;> rw [e] <;> omega
    have h2 : ∀ m ∈ (s.clause r).lits.filter (fun l => decide (s.values l = 0)), m = b := by
      intro m hm
      rw [List.mem_filter] at hm
      rcases binary_lits hlen ha hb hab hm.1 with e | e
      · have h3 := hm.2; rw [e] at h3; simp only [decide_eq_true_eq] at h3; omega
      · exact e
    have hnd : ((s.clause r).lits.filter (fun l => decide (s.values l = 0))).Nodup := (h.nodup r hg).filter _
    generalize (s.clause r).lits.filter (fun l => decide (s.values l = 0)) = c at h2 hnd this
    match c, h2, hnd, this with
    | [], _, _, h => simp at h
    | [_], _, _, h => simp at h
    | x :: y :: _, h2, hnd, _ =>
      have e1 := h2 x (by simp)
      have e2 := h2 y (by simp)
      rw [e1, e2] at hnd
      simp at hnd

end Verif.Simp
