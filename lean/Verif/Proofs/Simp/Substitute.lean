import Verif.Proofs.Simp.Root
import Verif.Proofs.Simp.Scc
import Verif.Proofs.Simp.Fastel

/-!
# Equivalent literal substitution
-/

namespace Verif.Simp

open Verif.Spec Verif.Model Verif.Model.Extend

/-! ## The implication graph -/

/-- The clause `¬a ∨ b`. -/
def Edge (F : Formula) (a b : Nat) : Prop :=
  ∃ c, F c ∧ Spec.neg a ∈ c ∧ b ∈ c ∧ ∀ m ∈ c, m = Spec.neg a ∨ m = b

theorem Edge.up {F : Formula} {a b : Nat} (h : Edge F a b) {A : Nat → Prop} (ha : UP F A a) : UP F A b := by
  obtain ⟨c, h1, h2, h3, h4⟩ := h
  refine .unit h1 h3 fun m hm hne => ?_
  rcases h4 m hm with e | e
  · rw [e, neg_neg]; exact ha
  · exact absurd e hne

theorem Edge.down {F : Formula} {a b : Nat} (h : Edge F a b) {A : Nat → Prop} (hb : UP F A (Spec.neg b)) :
    UP F A (Spec.neg a) := by
  obtain ⟨c, h1, h2, h3, h4⟩ := h
  refine .unit h1 h2 fun m hm hne => ?_
  rcases h4 m hm with e | e
  · exact absurd e hne
  · rw [e]; exact hb

theorem Edge.conflict {F : Formula} {a b : Nat} (h : Edge F a b) {A : Nat → Prop} (ha : UP F A a)
    (hb : UP F A (Spec.neg b)) : UPConflict F A := by
  obtain ⟨c, h1, h2, h3, h4⟩ := h
  refine ⟨c, h1, fun m hm => ?_⟩
  rcases h4 m hm with e | e
  · rw [e, neg_neg]; exact ha
  · rw [e]; exact hb

theorem Edge.mono {F F' : Formula} (hF : ∀ c, F c → F' c) {a b : Nat} (h : Edge F a b) : Edge F' a b := by
  obtain ⟨c, h1, h2⟩ := h
  exact ⟨c, hF c h1, h2⟩

theorem Path.up {F : Formula} {succ : Nat → List Nat} (hE : ∀ a b, b ∈ succ a → Edge F a b) {a b : Nat}
    (h : Path succ a b) {A : Nat → Prop} (ha : UP F A a) : UP F A b := by
  induction h with
  | refl => exact ha
  | step h1 _ ih => exact ih ((hE _ _ h1).up ha)

theorem Path.last {succ : Nat → List Nat} {a b : Nat} (h : Path succ a b) : b = a ∨ ∃ y, Path succ a y ∧ b ∈ succ y := by
  induction h with
  | refl => exact Or.inl rfl
  | @step a b c h1 h2 ih =>
    rcases ih with e | ⟨y, y1, y2⟩
    · rw [e]; exact Or.inr ⟨a, .refl _, h1⟩
    · exact Or.inr ⟨y, .step h1 y1, y2⟩

theorem Path.conflict {F : Formula} {succ : Nat → List Nat} (hE : ∀ a b, b ∈ succ a → Edge F a b) {a x : Nat}
    (h : Path succ a x) (h' : Path succ a (Spec.neg x)) {A : Nat → Prop} (ha : UP F A a) : UPConflict F A := by
  rcases h.last with e | ⟨y, y1, y2⟩
  · rcases h'.last with e' | ⟨y, y1, y2⟩
    · rw [e] at e'; exact absurd e' (neg_ne a)
    · exact (hE _ _ y2).conflict (y1.up hE ha) (by rw [neg_neg]; exact h.up hE ha)
  · exact (hE _ _ y2).conflict (y1.up hE ha) (h'.up hE ha)

theorem active_iff {s : State} {v : Nat} : s.active v = true ↔
    (v < s.exports.length ∧ s.removed v = false ∧ s.values (2 * v) = 0) := by
  unfold State.active
  simp only [Bool.and_eq_true, decide_eq_true_eq, Bool.not_eq_true', and_assoc]

theorem Struct.value_zero {orig : List (List Nat)} {s : State} (h : Struct orig s) {l : Nat} :
    s.values (2 * (l / 2)) = 0 ↔ s.values l = 0 := by
  rcases eq_or_eq_neg (show 2 * (l / 2) / 2 = l / 2 by omega) with e | e
  · rw [e]
  · rw [e, h.neg]; omega

theorem mem_implied {s : State} {a b : Nat} (h : b ∈ s.implied a) : ∃ r, (s.clause r).garbage = false ∧
    (s.clause r).redundant = false ∧ (s.clause r).lits.length = 2 ∧ Spec.neg a ∈ (s.clause r).lits ∧
    b ∈ (s.clause r).lits ∧ b ≠ Spec.neg a ∧ s.active (b / 2) = true := by
  unfold State.implied at h
  obtain ⟨r, _, h2⟩ := List.mem_filterMap.1 h
  split at h2
  · rename_i hc
    simp only [Bool.and_eq_true, Bool.not_eq_true', List.contains_iff_mem] at hc
    rw [Option.filter_eq_some_iff] at h2
    obtain ⟨h3, h4⟩ := h2
    obtain ⟨b1, b2, b3⟩ := binaryOther_some h3
    exact ⟨r, hc.1.1, hc.1.2, b1, hc.2, b2, b3, h4⟩
  · cases h2

theorem implied_of {s : State} {a b r : Nat} (hg : (s.clause r).garbage = false) (hr : (s.clause r).redundant = false)
    (hlen : (s.clause r).lits.length = 2) (ha : Spec.neg a ∈ (s.clause r).lits) (hb : b ∈ (s.clause r).lits)
    (hab : b ≠ Spec.neg a) (hact : s.active (b / 2) = true) : b ∈ s.implied a := by
  unfold State.implied
  refine List.mem_filterMap.2 ⟨r, List.mem_range.2 (clause_lt hg), ?_⟩
  rw [if_pos (by simp [hg, hr, ha]), Option.filter_eq_some_iff]
  refine ⟨?_, hact⟩
  unfold State.binaryOther
  rw [if_pos hlen]
  cases hf : (s.clause r).lits.find? (fun x => decide (x ≠ Spec.neg a)) with
  | none =>
    have := List.find?_eq_none.1 hf b hb
    simp [hab] at this
  | some x =>
    have h1 := List.mem_of_find?_eq_some hf
    have h2 := List.find?_some hf
    simp only [ne_eq, decide_not, Bool.not_eq_true', decide_eq_false_iff_not] at h2
    rcases binary_lits hlen ha hb hab h1 with e | e
    · exact absurd e h2
    · rw [e]

theorem Struct.graph {orig : List (List Nat)} {s : State} (h : Struct orig s) :
    Graph s.implied fun a => s.active (a / 2) = true where
  closed := fun a b hb => by
    obtain ⟨r, _, _, _, _, _, _, h7⟩ := mem_implied hb
    exact h7
  actNeg := fun a ha => by rw [neg_div]; exact ha
  skew := fun a b ha hb => by
    obtain ⟨r, h1, h2, h3, h4, h5, h6, h7⟩ := mem_implied hb
    exact implied_of h1 h2 h3 (by rw [neg_neg]; exact h5) h4 (by rw [neg_neg]; exact fun e => h6 e.symm) (by rw [neg_div]; exact ha)

theorem implied_edge {s : State} {a b : Nat} (h : b ∈ s.implied a) : Edge s.irr a b := by
  obtain ⟨r, h1, h2, h3, h4, h5, h6, h7⟩ := mem_implied h
  exact ⟨_, clause_irr h1 h2, h4, h5, fun m hm => binary_lits h3 h4 h5 h6 hm⟩

/-! ## Representatives -/

/-- What the representatives satisfy. -/
structure Reps (s : State) (repr : Nat → Nat) : Prop where
  idem : ∀ l, repr (repr l) = repr l
  neg : ∀ l, repr (Spec.neg l) = Spec.neg (repr l)
  range : ∀ l, s.InRange l → s.InRange (repr l)
  kept : ∀ l, s.removed (l / 2) = false → s.removed (repr l / 2) = false
  vals : ∀ l, s.values (repr l) = s.values l
  rup : ∀ l, RUP s.irr [Spec.neg l, repr l]
  act : ∀ l, repr l ≠ l → s.InRange l ∧ s.removed (l / 2) = false

theorem Path.rup {F : Formula} {succ : Nat → List Nat} (hE : ∀ a b, b ∈ succ a → Edge F a b) {a b : Nat}
    (h : Path succ a b) : RUP F [Spec.neg a, b] := by
  rcases h.last with e | ⟨y, y1, y2⟩
  · exact Or.inr ⟨b, by simp, by rw [e]; simp⟩
  · exact Or.inl ((hE _ _ y2).conflict (y1.up hE (.assumed (by simp))) (.assumed (by rw [neg_neg]; simp)))

/-- After the units are assigned. -/
theorem Inv.determine {orig : List (List Nat)} {s : State} (h : Inv orig none s) {fuel : Nat} {t : Scc}
    (ht : Scc.determine s.implied (fun a => s.active (a / 2)) (2 * s.exports.length) fuel = some t) (order : State → List Nat) :
    Inv orig none (s.assignUnits (fun _ => true) order t.units) ∧
    ((s.assignUnits (fun _ => true) order t.units).inconsistent = true ∨
      (t.clash = false ∧ Representatives s.implied (fun a => s.active (a / 2)) (fun a => (t.repr a).getD a) ∧
      Reps (s.assignUnits (fun _ => true) order t.units) fun a => (t.repr a).getD a)) := by
  obtain ⟨d1, d2, d3⟩ := determine_spec h.struct.graph (fun a ha => by have := (active_iff.1 ha).1; omega) ht
  have hE : ∀ (s' : State), Inv orig none s' → Grow (fun _ => True) s s' → ∀ a b, b ∈ s.implied a → Edge s'.irr a b :=
    fun s' h' hg a b hb => (implied_edge hb).mono fun c hc => hg.irr h.struct h'.struct hc
  obtain ⟨i1, i2, i3, i4⟩ := h.assignUnits (V := fun _ => True) (w := fun _ => true) (order := order) t.units
    (fun r _ _ l _ => ⟨trivial, trivial⟩) (fun u hu => by
      obtain ⟨g1, x, g2, g3⟩ := d1 u hu
      obtain ⟨a1, a2, a3⟩ := active_iff.1 g1
      exact ⟨a1, a2, ⟨trivial, trivial⟩, fun s' h' hg A hA =>
        g2.conflict (fun a b hb => (hE s' h' hg a b hb).mono fun c hc => State.irr_formula hc) g3 hA⟩)
  refine ⟨i1, ?_⟩
  generalize hs1 : s.assignUnits (fun _ => true) order t.units = s1 at i1 i2 i3 i4 ⊢
  by_cases hi : s1.inconsistent = true
  · exact Or.inl hi
  right
  have i4 := i4.resolve_left hi
  have closed : ∀ {a b : Nat}, Path s.implied a b → s1.unitBinary (fun _ => true) = none → 0 < s1.values a → 0 < s1.values b := by
    intro a b hp hn ha
    induction hp with
    | refl => exact ha
    | @step a b c h1 _ ih =>
      refine ih ?_
      obtain ⟨r, r1, r2, r3, r4, r5, r6, _⟩ := mem_implied h1
      rw [← i2.clause r] at r1 r2 r3 r4 r5
      exact implied_true i1.struct hn rfl r1 r2 r3 r4 r5 r6 ha
  have hc : t.clash = false := by
    cases hc : t.clash with
    | false => rfl
    | true =>
      exfalso
      obtain ⟨u, us, u1, u2⟩ := d2 hc
      have hu := d1 u (by rw [u1]; simp)
      have hv := i4 u (by rw [u1]; simp)
      rcases i3 with e | e | e
      · have := (active_iff.1 hu.1).2.2
        rw [h.struct.value_zero] at this
        rw [e, this] at hv
        omega
      · exact hi e
      · have := closed u2 e hv
        rw [i1.struct.neg] at this
        omega
  have hR := d3 hc
  refine ⟨hc, hR, ?_⟩
  generalize (fun a => (t.repr a).getD a) = repr at hR
  have vle : ∀ l, 0 < s1.values l → 0 < s1.values (repr l) := by
    intro l hl
    cases ha : s.active (l / 2) with
    | false => rw [hR.fixed l ha]; exact hl
    | true =>
      rcases i3 with e | e | e
      · have h0 := (active_iff.1 ha).2.2
        rw [h.struct.value_zero] at h0
        rw [e, h0] at hl; omega
      · exact absurd e hi
      · exact closed (hR.path l).1 e hl
  have vge : ∀ l, 0 < s1.values (repr l) → 0 < s1.values l := by
    intro l hl
    cases ha : s.active (l / 2) with
    | false => rw [hR.fixed l ha] at hl; exact hl
    | true =>
      rcases i3 with e | e | e
      · have h0 := (active_iff.1 (hR.act l ha)).2.2
        rw [h.struct.value_zero] at h0
        rw [e, h0] at hl; omega
      · exact absurd e hi
      · exact closed (hR.path l).2 e hl
  have hneg : ∀ l, repr (Spec.neg l) = Spec.neg (repr l) := by
    intro l
    cases ha : s.active (l / 2) with
    | false => rw [hR.fixed l ha, hR.fixed _ (by rw [neg_div]; exact ha)]
    | true => exact hR.neg l ha
  refine ⟨hR.idem, hneg, fun l hl => ?_, fun l hl => ?_, fun l => ?_, fun l => ?_, fun l hl => ?_⟩
  · cases ha : s.active (l / 2) with
    | false => rw [hR.fixed l ha]; exact hl
    | true => exact (i2.inRange _).2 (active_iff.1 (hR.act l ha)).1
  · cases ha : s.active (l / 2) with
    | false => rw [hR.fixed l ha]; exact hl
    | true => rw [i2.removed]; exact (active_iff.1 (hR.act l ha)).2.1
  · have a1 := vle l
    have a2 := vge l
    have b1 := vle (Spec.neg l)
    have b2 := vge (Spec.neg l)
    rw [hneg, i1.struct.neg, i1.struct.neg] at b1 b2
    have := i1.struct.range l
    have := i1.struct.range (repr l)
    omega
  · exact (hR.path l).1.rup (hE s1 i1 i2)
  · cases ha : s.active (l / 2) with
    | false => exact absurd (hR.fixed l ha) hl
    | true =>
      obtain ⟨a1, a2, _⟩ := active_iff.1 ha
      exact ⟨(i2.inRange _).2 a1, by rw [i2.removed]; exact a2⟩

/-! ## Equivalent literals -/

/-- The literal implies its representative, by clauses in `F`. -/
def Linked (F : Formula) (repr : Nat → Nat) : Prop := ∀ l,
  repr l = l ∨ (F [l] ∧ F [repr l]) ∨ (F [Spec.neg l] ∧ F [Spec.neg (repr l)]) ∨ Edge F l (repr l)

theorem Linked.mono {F F' : Formula} {repr : Nat → Nat} (h : Linked F repr) (hF : ∀ c, F c → F' c) : Linked F' repr := by
  intro l
  rcases h l with h1 | ⟨h1, h2⟩ | ⟨h1, h2⟩ | h1
  · exact Or.inl h1
  · exact Or.inr (Or.inl ⟨hF _ h1, hF _ h2⟩)
  · exact Or.inr (Or.inr (Or.inl ⟨hF _ h1, hF _ h2⟩))
  · exact Or.inr (Or.inr (Or.inr (h1.mono hF)))

theorem up_unit {F : Formula} {A : Nat → Prop} {l : Nat} (h : F [l]) : UP F A l :=
  .unit h (by simp) fun _ hk hne => absurd (List.mem_singleton.1 hk) hne

theorem Linked.up {F : Formula} {repr : Nat → Nat} (h : Linked F repr) {A : Nat → Prop} {l : Nat}
    (hl : UP F A (Spec.neg (repr l))) : UP F A (Spec.neg l) ∨ UPConflict F A := by
  rcases h l with h1 | ⟨h1, h2⟩ | ⟨h1, h2⟩ | h1
  · rw [h1] at hl; exact Or.inl hl
  · exact Or.inr ⟨_, h2, fun m hm => by rw [List.mem_singleton.1 hm]; exact hl⟩
  · exact Or.inl (up_unit h1)
  · exact Or.inl (h1.down hl)

theorem Linked.clause {F : Formula} {repr : Nat → Nat} (h : Linked F repr) {A : Nat → Prop} {c : List Nat} (hc : F c)
    (hm : ∀ m ∈ c, UP F A (Spec.neg m) ∨ UP F A (Spec.neg (repr m))) : UPConflict F A := by
  by_cases hx : UPConflict F A
  · exact hx
  · refine ⟨c, hc, fun m h1 => ?_⟩
    rcases hm m h1 with h2 | h2
    · exact h2
    · exact (h.up h2).resolve_right hx

theorem satUnit {σ : Assignment} {F : Formula} (hσ : SatFormula σ F) {l : Nat} (h : F [l]) : litTrue σ l := by
  obtain ⟨m, hm, ht⟩ := hσ _ h
  rw [List.mem_singleton.1 hm] at ht; exact ht

theorem Linked.imp {F : Formula} {repr : Nat → Nat} (h : Linked F repr) {σ : Assignment} (hσ : SatFormula σ F) {l : Nat}
    (hl : litTrue σ l) : litTrue σ (repr l) := by
  rcases h l with h1 | ⟨h1, h2⟩ | ⟨h1, h2⟩ | ⟨c, h1, h2, h3, h4⟩
  · rw [h1]; exact hl
  · exact satUnit hσ h2
  · exact absurd hl ((litTrue_neg σ l).1 (satUnit hσ h1))
  · obtain ⟨m, m1, m2⟩ := hσ c h1
    rcases h4 m m1 with e | e
    · rw [e] at m2; exact absurd hl ((litTrue_neg σ l).1 m2)
    · rw [e] at m2; exact m2

theorem Linked.sat {F : Formula} {repr : Nat → Nat} (h : Linked F repr)
    (hn : ∀ l, repr (Spec.neg l) = Spec.neg (repr l)) {σ : Assignment} (hσ : SatFormula σ F) (l : Nat) :
    litTrue σ (repr l) ↔ litTrue σ l := by
  constructor
  · intro hl
    by_cases hc : litTrue σ l
    · exact hc
    · have := h.imp hσ ((litTrue_neg σ l).2 hc)
      rw [hn] at this
      exact absurd hl ((litTrue_neg σ _).1 this)
  · exact h.imp hσ

/-- The clauses with references in `G`, and units. -/
def Ghost (G : Nat → Prop) (s : State) : Formula := fun c =>
  (∃ l ∈ s.trail, c = [l]) ∨ ∃ r, G r ∧ (s.clause r).garbage = false ∧ (s.clause r).redundant = false ∧ c = (s.clause r).lits

theorem Ghost.irr {G : Nat → Prop} {s : State} {c : List Nat} (h : Ghost G s c) : s.irr c := by
  rcases h with h | ⟨r, _, h⟩
  · exact Or.inl h
  · exact Or.inr ⟨r, h⟩

theorem Ghost.formula {G : Nat → Prop} {s : State} {c : List Nat} (h : Ghost G s c) : s.formula c :=
  State.irr_formula h.irr

theorem Ghost.mono {G G' : Nat → Prop} {s s' : State} (ht : ∀ l ∈ s.trail, l ∈ s'.trail)
    (hG : ∀ r, G r → G' r) (hc : ∀ r, G r → s'.clause r = s.clause r) {c : List Nat} (h : Ghost G s c) : Ghost G' s' c := by
  rcases h with ⟨l, h1, rfl⟩ | ⟨r, h0, h1, h2, rfl⟩
  · exact Or.inl ⟨l, ht l h1, rfl⟩
  · exact Or.inr ⟨r, hG r h0, by rw [hc r h0]; exact h1, by rw [hc r h0]; exact h2, by rw [hc r h0]⟩

/-! ## Adding the equivalences -/

/-- Clauses were added, nothing else changed. -/
structure Added (s s' : State) : Prop where
  toState : s'.toState = s.toState
  trail : s'.trail = s.trail
  removed : s'.removed = s.removed
  clause : ∀ r, r < s.arena.length → s'.clause r = s.clause r
  length : s.arena.length ≤ s'.arena.length

theorem Added.refl (s : State) : Added s s := ⟨rfl, rfl, rfl, fun _ _ => rfl, Nat.le_refl _⟩

theorem Added.trans {a b c : State} (h : Added a b) (h' : Added b c) : Added a c :=
  ⟨h'.toState.trans h.toState, h'.trail.trans h.trail, h'.removed.trans h.removed,
    fun r hr => (h'.clause r (Nat.lt_of_lt_of_le hr h.length)).trans (h.clause r hr), Nat.le_trans h.length h'.length⟩

theorem Added.values {s s' : State} (h : Added s s') : s'.values = s.values := by
  show s'.toState.values = s.toState.values
  rw [h.toState]

theorem Added.exports {s s' : State} (h : Added s s') : s'.exports = s.exports := by
  show s'.toState.exports = s.toState.exports
  rw [h.toState]

theorem Added.active {s s' : State} (h : Added s s') (v : Nat) : s'.active v = s.active v := by
  unfold State.active
  rw [h.exports, h.removed, h.values]

theorem Added.live {s s' : State} (h : Added s s') {r : Nat} (hg : (s.clause r).garbage = false) : s'.clause r = s.clause r :=
  h.clause r (clause_lt hg)

theorem Added.irr {s s' : State} (h : Added s s') {c : List Nat} (hc : s.irr c) : s'.irr c := by
  rcases hc with ⟨l, h1, rfl⟩ | ⟨r, h1, h2, rfl⟩
  · exact Or.inl ⟨l, by rw [h.trail]; exact h1, rfl⟩
  · exact Or.inr ⟨r, by rw [h.live h1]; exact h1, by rw [h.live h1]; exact h2, by rw [h.live h1]⟩

theorem added_new (s : State) (c : List Nat) (red : Bool) : Added s (s.newClause c red) := by
  refine ⟨rfl, rfl, rfl, fun r hr => ?_, ?_⟩
  · rw [clause_new, if_neg (by omega)]
  · show s.arena.length ≤ (s.arena ++ [_]).length
    simp

theorem length_new (s : State) (c : List Nat) (red : Bool) : (s.newClause c red).arena.length = s.arena.length + 1 := by
  show (s.arena ++ [_]).length = _
  simp

/-- The clauses of the variables to be substituted. -/
structure Pairs (repr : Nat → Nat) (s s' : State) (idxs : List Nat) (eqs : List (Nat × Nat)) : Prop where
  mem : ∀ i e, (i, e) ∈ eqs → i ∈ idxs ∧ s.active i = true ∧ repr (2 * i) ≠ 2 * i ∧ s.arena.length ≤ e ∧
    e + 1 < s'.arena.length ∧ s'.clause e = ⟨[Spec.neg (2 * i), repr (2 * i)], false, false⟩ ∧
    s'.clause (e + 1) = ⟨[2 * i, Spec.neg (repr (2 * i))], false, false⟩
  all : ∀ i ∈ idxs, s.active i = true → repr (2 * i) ≠ 2 * i → ∃ e, (i, e) ∈ eqs
  only : ∀ r, s.arena.length ≤ r → r < s'.arena.length → ∃ i e, (i, e) ∈ eqs ∧ (r = e ∨ r = e + 1)
  nodup : (eqs.map (·.1)).Nodup

theorem Inv.addEquivalences {orig : List (List Nat)} {repr : Nat → Nat} (hidem : ∀ l, repr (repr l) = repr l)
    (hneg : ∀ l, repr (Spec.neg l) = Spec.neg (repr l)) : ∀ (idxs : List Nat) {s : State},
    Inv orig none s → idxs.Nodup →
    (∀ l, s.InRange l → s.InRange (repr l)) → (∀ l, s.removed (l / 2) = false → s.removed (repr l / 2) = false) →
    (∀ l, RUP s.irr [Spec.neg l, repr l]) →
    Inv orig none (s.addEquivalences repr idxs).1 ∧ Added s (s.addEquivalences repr idxs).1 ∧
    Pairs repr s (s.addEquivalences repr idxs).1 idxs (s.addEquivalences repr idxs).2
  | [], s, h, _, _, _, _ => ⟨h, .refl _, fun i e hh => (by cases hh), fun i hi => (by cases hi),
      fun r h1 h2 => absurd h2 (Nat.not_lt.2 h1), List.nodup_nil⟩
  | idx :: rest, s, h, hn, hr, hk, hrup => by
    obtain ⟨n1, n2⟩ := List.nodup_cons.1 hn
    unfold State.addEquivalences
    by_cases c : (!s.active idx || decide (repr (2 * idx) = 2 * idx)) = true
    · rw [if_pos c]
      obtain ⟨i1, i2, i3⟩ := Inv.addEquivalences hidem hneg rest h n2 hr hk hrup
      refine ⟨i1, i2, fun i e he => ?_, fun i hi h1 h2 => ?_, i3.only, i3.nodup⟩
      · obtain ⟨j1, j2⟩ := i3.mem i e he
        exact ⟨List.mem_cons_of_mem _ j1, j2⟩
      · rcases List.mem_cons.1 hi with e | hi
        · rw [← e] at c; simp [h1, h2] at c
        · exact i3.all i hi h1 h2
    · rw [if_neg c]
      simp only [Bool.or_eq_true, Bool.not_eq_true', decide_eq_true_eq, not_or, Bool.not_eq_false] at c
      obtain ⟨c1, c2⟩ := c
      obtain ⟨a1, a2, a3⟩ := active_iff.1 c1
      have e2 : 2 * idx / 2 = idx := by omega
      have ne2 : repr (2 * idx) ≠ Spec.neg (2 * idx) := by
        intro e
        have h1 := hidem (2 * idx)
        rw [e, hneg, e, neg_neg] at h1
        exact neg_ne _ h1.symm
      have hrl : s.InRange (2 * idx) := by unfold State.InRange; rw [e2]; exact a1
      have hkl : s.removed (2 * idx / 2) = false := by rw [e2]; exact a2
      have hro := hr _ hrl
      have hko := hk _ hkl
      dsimp only
      have i1 : Inv orig none (s.newClause [Spec.neg (2 * idx), repr (2 * idx)] false) := by
        refine h.newClause ?_ ?_ ?_ (by simp) ?_ ((hrup _).mono_sub fun c hc => State.irr_formula hc)
        · intro l hl
          simp only [List.mem_cons, List.not_mem_nil, or_false] at hl
          rcases hl with e | e <;> rw [e]
          · exact inRange_neg.2 hrl
          · exact hro
        · simp only [List.nodup_cons, List.mem_cons, List.not_mem_nil, or_false, not_false_eq_true, List.nodup_nil, and_true]
          exact fun e => ne2 e.symm
        · intro l hl
          simp only [List.mem_cons, List.not_mem_nil, or_false] at hl ⊢
          rcases hl with e | e <;> rw [e] <;> intro h1
          · rw [neg_neg] at h1
            rcases h1 with h1 | h1
            · exact neg_ne _ h1.symm
            · exact c2 h1.symm
          · rcases h1 with h1 | h1
            · exact c2 (neg_inj h1)
            · exact neg_ne _ h1
        · intro _ l hl
          simp only [List.mem_cons, List.not_mem_nil, or_false] at hl
          rcases hl with e | e <;> rw [e]
          · rw [neg_div]; exact hkl
          · exact hko
      have g1 := added_new s [Spec.neg (2 * idx), repr (2 * idx)] false
      have l1 := length_new s [Spec.neg (2 * idx), repr (2 * idx)] false
      have k1 : (s.newClause [Spec.neg (2 * idx), repr (2 * idx)] false).clause s.arena.length =
          ⟨[Spec.neg (2 * idx), repr (2 * idx)], false, false⟩ := by
        rw [clause_new, if_pos rfl]; rfl
      generalize s.newClause [Spec.neg (2 * idx), repr (2 * idx)] false = s1 at i1 g1 l1 k1 ⊢
      have rangeEq : ∀ l, s1.InRange l ↔ s.InRange l := by intro l; unfold State.InRange; rw [g1.exports]
      have i2 : Inv orig none (s1.newClause [2 * idx, Spec.neg (repr (2 * idx))] false) := by
        have hr2 : RUP s1.formula [2 * idx, Spec.neg (repr (2 * idx))] := by
          have := hrup (Spec.neg (2 * idx))
          rw [neg_neg, hneg] at this
          exact this.mono_sub fun c hc => State.irr_formula (g1.irr hc)
        refine i1.newClause ?_ ?_ ?_ (by simp) ?_ hr2
        · intro l hl
          rw [rangeEq]
          simp only [List.mem_cons, List.not_mem_nil, or_false] at hl
          rcases hl with e | e <;> rw [e]
          · exact hrl
          · exact inRange_neg.2 hro
        · simp only [List.nodup_cons, List.mem_cons, List.not_mem_nil, or_false, not_false_eq_true, List.nodup_nil, and_true]
          intro e
          have := congrArg Spec.neg e
          rw [neg_neg] at this
          exact ne2 this.symm
        · intro l hl
          simp only [List.mem_cons, List.not_mem_nil, or_false] at hl ⊢
          rcases hl with e | e <;> rw [e] <;> intro h1
          · rcases h1 with h1 | h1
            · exact neg_ne _ h1
            · exact c2 (neg_inj h1).symm
          · rw [neg_neg] at h1
            rcases h1 with h1 | h1
            · exact c2 h1
            · exact neg_ne _ h1.symm
        · intro _ l hl
          rw [g1.removed]
          simp only [List.mem_cons, List.not_mem_nil, or_false] at hl
          rcases hl with e | e <;> rw [e]
          · exact hkl
          · rw [neg_div]; exact hko
      have g2 := added_new s1 [2 * idx, Spec.neg (repr (2 * idx))] false
      have l2 := length_new s1 [2 * idx, Spec.neg (repr (2 * idx))] false
      have k2 : (s1.newClause [2 * idx, Spec.neg (repr (2 * idx))] false).clause s1.arena.length =
          ⟨[2 * idx, Spec.neg (repr (2 * idx))], false, false⟩ := by
        rw [clause_new, if_pos rfl]; rfl
      generalize s1.newClause [2 * idx, Spec.neg (repr (2 * idx))] false = s2 at i2 g2 l2 k2 ⊢
      have g := g1.trans g2
      obtain ⟨j1, j2, j3⟩ := Inv.addEquivalences hidem hneg rest i2 n2
        (fun l hl => by unfold State.InRange at hl ⊢; rw [g.exports] at hl ⊢; exact hr l hl)
        (fun l hl => by rw [g.removed] at hl ⊢; exact hk l hl) (fun l => (hrup l).mono_sub fun c hc => g.irr hc)
      cases hp : s2.addEquivalences repr rest with
      | mk s3 eqs =>
        rw [hp] at j1 j2 j3
        dsimp only at j1 j2 j3 ⊢
        have hlen := j2.length
        refine ⟨j1, g.trans j2, fun i e he => ?_, fun i hi h1 h2 => ?_, fun r h1 h2 => ?_, ?_⟩
        · rcases List.mem_cons.1 he with he | he
          · obtain ⟨rfl, rfl⟩ := Prod.mk.inj he
            refine ⟨by simp, c1, c2, Nat.le_refl _, by omega, ?_, ?_⟩
            · rw [j2.clause _ (by omega), g2.clause _ (by omega)]; exact k1
            · rw [j2.clause _ (by omega), ← l1]; exact k2
          · obtain ⟨m1, m2, m3, m4, m5⟩ := j3.mem i e he
            rw [g.active] at m2
            exact ⟨List.mem_cons_of_mem _ m1, m2, m3, by omega, m5⟩
        · rcases List.mem_cons.1 hi with e | hi
          · exact ⟨s.arena.length, by rw [e]; simp⟩
          · obtain ⟨e, he⟩ := j3.all i hi (by rw [g.active]; exact h1) h2
            exact ⟨e, List.mem_cons_of_mem _ he⟩
        · by_cases hr2 : r < s2.arena.length
          · exact ⟨idx, s.arena.length, by simp, by omega⟩
          · obtain ⟨i, e, h3, h4⟩ := j3.only r (by omega) h2
            exact ⟨i, e, List.mem_cons_of_mem _ h3, h4⟩
        · rw [List.map_cons, List.nodup_cons]
          refine ⟨fun hm => ?_, j3.nodup⟩
          obtain ⟨⟨i, e⟩, h1, h2⟩ := List.mem_map.1 hm
          simp only at h2
          rw [h2] at h1
          exact n1 (j3.mem _ _ h1).1

end Verif.Simp
