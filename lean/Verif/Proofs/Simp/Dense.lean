import Verif.Model.Simp.Dense
import Verif.Proofs.Simp.Inv

/-!
# Propagation over full occurrence lists keeps the invariant
-/

namespace Verif.Simp

open Verif.Spec Verif.Model Verif.Model.Extend

/-! ## Clauses derived by one or two propagations -/

theorem up_of {F : Formula} {R : List Nat} {m : Nat} (h : m ∈ R ∨ F [Spec.neg m]) :
    UP F (fun l => Spec.neg l ∈ R) (Spec.neg m) := by
  rcases h with h | h
  · exact .assumed (by simpa using h)
  · exact .unit h (by simp) (fun k hk hne => absurd (List.mem_singleton.1 hk) hne)

theorem rup_of {F : Formula} {c R : List Nat} (hc : F c)
    (h : ∀ m ∈ c, m ∈ R ∨ F [Spec.neg m]) : RUP F R :=
  Or.inl ⟨c, hc, fun m hm => up_of (h m hm)⟩

theorem rup_resolvent {F : Formula} {c d R : List Nat} {x : Nat} (hc : F c) (hd : F d) (hx : x ∈ c)
    (h : ∀ m ∈ c, m ≠ x → m ∈ R ∨ F [Spec.neg m])
    (h' : ∀ m ∈ d, m ≠ Spec.neg x → m ∈ R ∨ F [Spec.neg m]) : RUP F R := by
  refine Or.inl ⟨d, hd, fun m hm => ?_⟩
  by_cases e : m = Spec.neg x
  · subst e
    rw [neg_neg]
    exact .unit hc hx fun k hk hne => up_of (h k hk hne)
  · exact up_of (h' m hm e)

theorem Struct.neg_unit {orig : List (List Nat)} {s : State} (h : Struct orig s) {m : Nat}
    (hm : s.values m < 0) : s.formula [Spec.neg m] := by
  refine Or.inl ⟨Spec.neg m, ?_, rfl⟩
  rw [h.trail, h.neg]; omega

theorem Struct.clause_formula {s : State} {r : Nat} (hg : (s.clause r).garbage = false) :
    s.formula (s.clause r).lits := Or.inr ⟨r, hg, rfl⟩

theorem Struct.true_unit {orig : List (List Nat)} {s : State} (h : Struct orig s) {m : Nat}
    (hm : 0 < s.values m) : s.irr [m] := Or.inl ⟨m, (h.trail m).2 hm, rfl⟩

/-- A satisfied clause is implied by what remains. -/
theorem Inv.markSatisfied {orig : List (List Nat)} {x : Option Nat} {s : State}
    (h : Inv orig x s) {r o : Nat} (hg : (s.clause r).garbage = false)
    (ho : o ∈ (s.clause r).lits) (hv : 0 < s.values o) : Inv orig x (s.markGarbage r) := by
  refine h.markGarbage hg (Or.inr fun σ hσ => ?_)
  obtain ⟨y, hy, ht⟩ := hσ [o] (Or.inl ⟨o, (h.struct.trail o).2 hv, rfl⟩)
  rw [List.mem_singleton.1 hy] at ht
  exact ⟨o, ho, ht⟩

/-! ## What does not change -/

/-- Changes by learning units and removing satisfied clauses. -/
structure Frame (s s' : State) : Prop where
  exports : s'.exports = s.exports
  imports : s'.imports = s.imports
  removed : s'.removed = s.removed
  extend : s'.extend = s.extend
  eliminated : s'.eliminated = s.eliminated
  lits : ∀ r, (s'.clause r).lits = (s.clause r).lits
  red : ∀ r, (s'.clause r).redundant = (s.clause r).redundant
  garbage : ∀ r, (s.clause r).garbage = true → (s'.clause r).garbage = true
  values : ∀ l, s.values l ≠ 0 → s'.values l = s.values l
  sat : ∀ r, (s'.clause r).garbage = true →
    (s.clause r).garbage = true ∨ ∃ o ∈ (s.clause r).lits, 0 < s'.values o
  /-- literals without live irredundant clause keep their values -/
  untouched : ∀ v, (∀ r, (s.clause r).garbage = false → (s.clause r).redundant = false →
    ∀ l ∈ (s.clause r).lits, l / 2 ≠ v) → ∀ l, l / 2 = v → s'.values l = s.values l

theorem Frame.refl (s : State) : Frame s s :=
  ⟨rfl, rfl, rfl, rfl, rfl, fun _ => rfl, fun _ => rfl, fun _ h => h, fun _ _ => rfl,
    fun _ h => Or.inl h, fun _ _ _ _ => rfl⟩

theorem Frame.live {s s' : State} (h : Frame s s') {r : Nat} (hg : (s'.clause r).garbage = false) :
    (s.clause r).garbage = false := by
  cases e : (s.clause r).garbage
  · rfl
  · rw [h.garbage r e] at hg; cases hg

theorem Frame.trans {a b c : State} (h : Frame a b) (h' : Frame b c) : Frame a c where
  exports := h'.exports.trans h.exports
  imports := h'.imports.trans h.imports
  removed := h'.removed.trans h.removed
  extend := h'.extend.trans h.extend
  eliminated := h'.eliminated.trans h.eliminated
  lits := fun r => (h'.lits r).trans (h.lits r)
  red := fun r => (h'.red r).trans (h.red r)
  garbage := fun r hr => h'.garbage r (h.garbage r hr)
  values := fun l hl => by
    have := h.values l hl
    rw [h'.values l (by rw [this]; exact hl), this]
  sat := fun r hr => by
    rcases h'.sat r hr with h1 | ⟨o, h1, h2⟩
    · rcases h.sat r h1 with h3 | ⟨o, h3, h4⟩
      · exact Or.inl h3
      · exact Or.inr ⟨o, h3, by rw [h'.values o (by omega)]; exact h4⟩
    · exact Or.inr ⟨o, by rw [← h.lits]; exact h1, h2⟩
  untouched := fun v hv l hl => by
    rw [h'.untouched v ?_ l hl, h.untouched v hv l hl]
    intro r h1 h2 k hk
    rw [h.lits] at hk
    rw [h.red] at h2
    exact hv r (h.live h1) h2 k hk

theorem Frame.pos {s s' : State} (h : Frame s s') {l : Nat} (hl : 0 < s.values l) :
    0 < s'.values l := by rw [h.values l (by omega)]; exact hl

theorem Frame.neg {s s' : State} (h : Frame s s') {l : Nat} (hl : s.values l < 0) :
    s'.values l < 0 := by rw [h.values l (by omega)]; exact hl

theorem values_learned (s : State) (u l : Nat) : (s.learnedUnit u).values l =
    if l = u then 1 else if l = Spec.neg u then -1 else s.values l := rfl

theorem frame_unit {orig : List (List Nat)} {s : State} (h : Struct orig s) {u r : Nat}
    (hu : s.values u = 0) (hg : (s.clause r).garbage = false)
    (hr : (s.clause r).redundant = false) (hm : u ∈ (s.clause r).lits) :
    Frame s (s.learnedUnit u) :=
  ⟨rfl, rfl, rfl, rfl, rfl, fun _ => rfl, fun _ => rfl, fun _ h => h, fun l hl => by
    rw [values_learned, if_neg (by rintro rfl; exact hl hu), if_neg]
    rintro rfl
    rw [h.neg, hu] at hl
    exact hl rfl, fun _ h => Or.inl h, fun v hv l hl => by
    have := hv r hg hr u hm
    have h1 : ¬ l = u := by rintro rfl; exact this hl
    have h2 : ¬ l = Spec.neg u := by rintro rfl; exact this (by simpa using hl)
    rw [values_learned, if_neg h1, if_neg h2]⟩

theorem frame_garbage {s : State} {r o : Nat} (hr : r < s.arena.length)
    (ho : o ∈ (s.clause r).lits) (hv : 0 < s.values o) : Frame s (s.markGarbage r) :=
  ⟨rfl, rfl, rfl, rfl, rfl, fun k => by
    rw [clause_garbage hr]
    split
    · rename_i e; rw [e]
    · rfl, fun k => by
    rw [clause_garbage hr]
    split
    · rename_i e; rw [e]
    · rfl, fun k hk => by
    rw [clause_garbage hr]
    split
    · rfl
    · exact hk, fun _ _ => rfl, fun k hk => by
    rw [clause_garbage hr] at hk
    split at hk
    · rename_i e; rw [e]; exact Or.inr ⟨o, ho, hv⟩
    · exact Or.inl hk, fun _ _ _ _ => rfl⟩

theorem mem_occurrences {s : State} {l r : Nat} : r ∈ s.occurrences l ↔
    ((s.clause r).garbage = false ∧ (s.clause r).redundant = false ∧ l ∈ (s.clause r).lits) := by
  unfold State.occurrences
  rw [List.mem_filter, List.mem_range]
  simp only [Bool.and_eq_true, Bool.not_eq_true', List.contains_iff_mem]
  constructor
  · rintro ⟨_, ⟨h1, h2⟩, h3⟩; exact ⟨h1, h2, h3⟩
  · rintro ⟨h1, h2, h3⟩; exact ⟨clause_lt h1, ⟨h1, h2⟩, h3⟩

theorem binaryOther_some {s : State} {l r o : Nat} (h : s.binaryOther l r = some o) :
    (s.clause r).lits.length = 2 ∧ o ∈ (s.clause r).lits ∧ o ≠ l := by
  unfold State.binaryOther at h
  split at h
  · rename_i e
    exact ⟨e, List.mem_of_find?_eq_some h, by simpa using List.find?_some h⟩
  · cases h

/-- A binary clause has no other literals. -/
theorem binary_lits {c : List Nat} {a b m : Nat} (hlen : c.length = 2) (ha : a ∈ c) (hb : b ∈ c)
    (hab : b ≠ a) (hm : m ∈ c) : m = a ∨ m = b := by
  match c, hlen with
  | [p, q], _ =>
    simp only [List.mem_cons, List.not_mem_nil, or_false] at ha hb hm
    rcases ha with rfl | rfl <;> rcases hb with rfl | rfl <;> rcases hm with rfl | rfl <;> simp_all

theorem scan_spec (s : State) (n : Nat) : ∀ (c : List Nat) (u : Option Nat),
    (s.scan n c u = .satisfied → ∃ o ∈ c, 0 < s.values o) ∧
    (s.scan n c u = .falsified → u = none ∧ ∀ o ∈ c, o ≠ n → s.values o < 0) ∧
    (∀ w, s.scan n c u = .unit w → ((u = some w ∧ ∀ o ∈ c, o ≠ n → s.values o < 0) ∨
      (u = none ∧ w ∈ c ∧ w ≠ n ∧ s.values w = 0 ∧ ∃ p q, c = p ++ w :: q ∧
        ∀ o ∈ p ++ q, o ≠ n → s.values o < 0)))
  | [], none => by
    refine ⟨(by intro h; cases h), fun _ => ⟨rfl, by simp⟩, (by intro w h; cases h)⟩
  | [], some u => by
    refine ⟨(by intro h; cases h), (by intro h; cases h), fun w h => ?_⟩
    cases h
    exact Or.inl ⟨rfl, by simp⟩
  | o :: rest, u => by
    obtain ⟨i1, i2, i3⟩ := scan_spec s n rest u
    unfold State.scan
    by_cases h1 : o = n
    · rw [if_pos h1]
      refine ⟨fun h => ?_, fun h => ?_, fun w h => ?_⟩
      · obtain ⟨p, hp, hp'⟩ := i1 h
        exact ⟨p, List.mem_cons_of_mem _ hp, hp'⟩
      · obtain ⟨a, b⟩ := i2 h
        refine ⟨a, fun p hp hne => ?_⟩
        rcases List.mem_cons.1 hp with rfl | hp
        · exact absurd h1 hne
        · exact b p hp hne
      · rcases i3 w h with ⟨a, b⟩ | ⟨a, b, c, d, p, q, e, f⟩
        · refine Or.inl ⟨a, fun p hp hne => ?_⟩
          rcases List.mem_cons.1 hp with rfl | hp
          · exact absurd h1 hne
          · exact b p hp hne
        · refine Or.inr ⟨a, List.mem_cons_of_mem _ b, c, d, o :: p, q, by rw [e]; rfl, ?_⟩
          intro k hk hne
          rcases List.mem_cons.1 hk with rfl | hk
          · exact absurd h1 hne
          · exact f k hk hne
    · rw [if_neg h1]
      by_cases h2 : s.values o < 0
      · rw [if_pos h2]
        refine ⟨fun h => ?_, fun h => ?_, fun w h => ?_⟩
        · obtain ⟨p, hp, hp'⟩ := i1 h
          exact ⟨p, List.mem_cons_of_mem _ hp, hp'⟩
        · obtain ⟨a, b⟩ := i2 h
          refine ⟨a, fun p hp hne => ?_⟩
          rcases List.mem_cons.1 hp with rfl | hp
          · exact h2
          · exact b p hp hne
        · rcases i3 w h with ⟨a, b⟩ | ⟨a, b, c, d, p, q, e, f⟩
          · refine Or.inl ⟨a, fun p hp hne => ?_⟩
            rcases List.mem_cons.1 hp with rfl | hp
            · exact h2
            · exact b p hp hne
          · refine Or.inr ⟨a, List.mem_cons_of_mem _ b, c, d, o :: p, q, by rw [e]; rfl, ?_⟩
            intro k hk hne
            rcases List.mem_cons.1 hk with rfl | hk
            · exact h2
            · exact f k hk hne
      · rw [if_neg h2]
        by_cases h3 : s.values o > 0
        · rw [if_pos h3]
          refine ⟨fun _ => ⟨o, by simp, h3⟩, fun h => (by cases h), fun w h => (by cases h)⟩
        · rw [if_neg h3]
          cases u with
          | some u => exact ⟨fun h => (by cases h), fun h => (by cases h), fun w h => (by cases h)⟩
          | none =>
            obtain ⟨j1, j2, j3⟩ := scan_spec s n rest (some o)
            refine ⟨fun h => ?_, fun h => ?_, fun w h => ?_⟩
            · obtain ⟨p, hp, hp'⟩ := j1 h
              exact ⟨p, List.mem_cons_of_mem _ hp, hp'⟩
            · obtain ⟨a, b⟩ := j2 h
              cases a
            · rcases j3 w h with ⟨a, b⟩ | ⟨a, _⟩
              · cases a
                exact Or.inr ⟨rfl, by simp, h1, by omega, [], rest, rfl, b⟩
              · cases a

theorem values_ne {orig : List (List Nat)} {s : State} (h : Struct orig s) {l : Nat} :
    s.values l = 0 ∨ 0 < s.values l ∨ s.values l < 0 := by omega

/-- One watch. -/
theorem Inv.propagateWatch {orig : List (List Nat)} {x : Option Nat} {s : State}
    (h : Inv orig x s) {n r : Nat} (hn : s.values n < 0)
    (hr : (s.clause r).garbage = false → (s.clause r).redundant = false ∧ n ∈ (s.clause r).lits) :
    Inv orig x (s.propagateWatch n r).1 ∧ Frame s (s.propagateWatch n r).1 ∧
      ((s.propagateWatch n r).2 = false → RUP (s.propagateWatch n r).1.formula []) := by
  unfold State.propagateWatch
  by_cases hg : (s.clause r).garbage = true
  · rw [if_pos hg]
    exact ⟨h, .refl _, fun e => (by cases e)⟩
  · rw [if_neg hg]
    have hg : (s.clause r).garbage = false := by simpa using hg
    obtain ⟨hred, hmem⟩ := hr hg
    cases hb : s.binaryOther n r with
    | some other =>
      obtain ⟨b1, b2, b3⟩ := binaryOther_some hb
      dsimp only
      by_cases h1 : s.values other > 0
      · rw [if_pos h1]; exact ⟨h, .refl _, fun e => (by cases e)⟩
      · rw [if_neg h1]
        by_cases h2 : s.values other < 0
        · rw [if_pos h2]
          refine ⟨h, .refl _, fun _ => rup_of (Struct.clause_formula hg) fun m hm => Or.inr ?_⟩
          rcases binary_lits b1 hmem b2 b3 hm with rfl | rfl
          · exact h.struct.neg_unit hn
          · exact h.struct.neg_unit h2
        · rw [if_neg h2]
          by_cases h3 : s.removed (other / 2) = true
          · rw [if_pos h3]; exact ⟨h, .refl _, fun e => (by cases e)⟩
          · rw [if_neg h3]
            have h0 : s.values other = 0 := by omega
            refine ⟨h.learnedUnit h0 (h.struct.clause r hg _ b2) (by simpa using h3) ?_,
              frame_unit h.struct h0 hg hred b2, fun e => (by cases e)⟩
            refine rup_of (Struct.clause_formula hg) fun m hm => ?_
            rcases binary_lits b1 hmem b2 b3 hm with rfl | rfl
            · exact Or.inr (h.struct.neg_unit hn)
            · exact Or.inl (by simp)
    | none =>
      obtain ⟨c1, c2, c3⟩ := scan_spec s n (s.clause r).lits none
      dsimp only
      cases hs : s.scan n (s.clause r).lits none with
      | satisfied =>
        obtain ⟨o, o1, o2⟩ := c1 hs
        exact ⟨h.markSatisfied hg o1 o2, frame_garbage (clause_lt hg) o1 o2, fun e => (by cases e)⟩
      | falsified =>
        obtain ⟨_, o2⟩ := c2 hs
        refine ⟨h, .refl _, fun _ => rup_of (Struct.clause_formula hg) fun m hm => Or.inr ?_⟩
        by_cases e : m = n
        · subst e; exact h.struct.neg_unit hn
        · exact h.struct.neg_unit (o2 m hm e)
      | unit u =>
        rcases c3 u hs with ⟨a, _⟩ | ⟨_, b, c, d, p, q, e, f⟩
        · cases a
        · refine ⟨h.learnedUnit d (h.struct.clause r hg _ b) (h.struct.removed r hg hred _ b) ?_,
            frame_unit h.struct d hg hred b, fun e => (by cases e)⟩
          refine rup_of (Struct.clause_formula hg) fun m hm => ?_
          by_cases e1 : m = n
          · subst e1; exact Or.inr (h.struct.neg_unit hn)
          · rw [e] at hm
            rcases List.mem_append.1 hm with hm | hm
            · exact Or.inr (h.struct.neg_unit (f m (List.mem_append_left _ hm) e1))
            · rcases List.mem_cons.1 hm with rfl | hm
              · exact Or.inl (by simp)
              · exact Or.inr (h.struct.neg_unit (f m (List.mem_append_right _ hm) e1))
      | undecided => exact ⟨h, .refl _, fun e => (by cases e)⟩

theorem Inv.propagateWatches {orig : List (List Nat)} {x : Option Nat} {n : Nat} :
    ∀ (rs : List Nat) {s : State}, Inv orig x s → s.values n < 0 →
    (∀ r ∈ rs, (s.clause r).garbage = false →
      (s.clause r).redundant = false ∧ n ∈ (s.clause r).lits) →
    Inv orig x (s.propagateWatches n rs).1 ∧ Frame s (s.propagateWatches n rs).1 ∧
      ((s.propagateWatches n rs).2 = false → RUP (s.propagateWatches n rs).1.formula [])
  | [], s, h, hn, hr => ⟨h, .refl _, fun e => (by cases e)⟩
  | r :: rs, s, h, hn, hr => by
    obtain ⟨h1, h2, h3⟩ := h.propagateWatch hn (hr r (by simp))
    unfold State.propagateWatches
    cases hp : s.propagateWatch n r with
    | mk s' b =>
      rw [hp] at h1 h2 h3
      cases b
      · exact ⟨h1, h2, h3⟩
      · obtain ⟨k1, k2, k3⟩ := Inv.propagateWatches rs h1 (h2.neg hn) (fun k hk hg => by
          rw [h2.red, h2.lits]
          exact hr k (List.mem_cons_of_mem _ hk) (h2.live hg))
        exact ⟨k1, h2.trans k2, k3⟩

theorem Inv.setPropagate {orig : List (List Nat)} {x : Option Nat} {s : State} (h : Inv orig x s)
    (n : Nat) : Inv orig x { s with propagate := n } := by
  obtain ⟨db, p1, p2⟩ := h.struct.proof
  exact ⟨⟨h.struct.neg, h.struct.range, h.struct.trail, h.struct.nonzero, h.struct.inj,
    h.struct.imported, h.struct.back, h.struct.clause, h.struct.unit, h.struct.nodup,
    h.struct.taut, h.struct.size, h.struct.removed, h.struct.bound, h.struct.given, h.struct.lines, db, p1, p2.copies, p2.empty⟩, h.hist,
    h.witness, h.implied⟩

theorem frame_propagate (s : State) (n : Nat) : Frame s { s with propagate := n } :=
  ⟨rfl, rfl, rfl, rfl, rfl, fun _ => rfl, fun _ => rfl, fun _ h => h, fun _ _ => rfl,
    fun _ h => Or.inl h, fun _ _ _ _ => rfl⟩

theorem mem_connected {s : State} {conn : Nat → Nat → Bool} {l r : Nat} (h : r ∈ s.connected conn l) :
    (s.clause r).garbage = false ∧ (s.clause r).redundant = false ∧ l ∈ (s.clause r).lits :=
  mem_occurrences.1 (List.mem_filter.1 h).1

theorem Inv.densePropagateLoop {orig : List (List Nat)} {x : Option Nat} {conn : Nat → Nat → Bool} :
    ∀ (fuel : Nat) {s : State}, Inv orig x s →
    Inv orig x (s.densePropagateLoop conn fuel).1 ∧ Frame s (s.densePropagateLoop conn fuel).1 ∧
      ((s.densePropagateLoop conn fuel).2 = false → RUP (s.densePropagateLoop conn fuel).1.formula [])
  | 0, s, h => ⟨h, .refl _, fun e => (by cases e)⟩
  | fuel + 1, s, h => by
    unfold State.densePropagateLoop
    by_cases hp : s.propagate < s.trail.length
    · rw [if_pos hp]
      have hmem : s.trail.getD s.propagate 0 ∈ s.trail := by
        rw [List.getD_eq_getElem?_getD, List.getElem?_eq_getElem hp]
        exact List.getElem_mem hp
      generalize s.trail.getD s.propagate 0 = lit at hmem
      have hv := (h.struct.trail lit).1 hmem
      dsimp only
      obtain ⟨h1, h2, h3⟩ := (h.setPropagate (s.propagate + 1)).propagateWatches (n := Spec.neg lit)
        (State.connected { s with propagate := s.propagate + 1 } conn (Spec.neg lit))
        (by show s.values (Spec.neg lit) < 0
            rw [h.struct.neg]; omega)
        (fun r hr _ => (mem_connected hr).2)
      have h2 := (frame_propagate s _).trans h2
      cases hp : State.propagateWatches { s with propagate := s.propagate + 1 } (Spec.neg lit)
          (State.connected { s with propagate := s.propagate + 1 } conn (Spec.neg lit)) with
      | mk s' b =>
        rw [hp] at h1 h2 h3
        cases b
        · exact ⟨h1, h2, h3⟩
        · obtain ⟨k1, k2, k3⟩ := Inv.densePropagateLoop fuel h1
          exact ⟨k1, h2.trans k2, k3⟩
    · rw [if_neg hp]
      exact ⟨h, .refl _, fun e => (by cases e)⟩

theorem frame_empty (s : State) : Frame s s.learnedEmpty :=
  ⟨rfl, rfl, rfl, rfl, rfl, fun _ => rfl, fun _ => rfl, fun _ h => h, fun _ _ => rfl,
    fun _ h => Or.inl h, fun _ _ _ _ => rfl⟩

theorem Inv.densePropagate {orig : List (List Nat)} {x : Option Nat} {s : State} (conn : Nat → Nat → Bool)
    (h : Inv orig x s) : Inv orig x (s.densePropagate conn).1 ∧ Frame s (s.densePropagate conn).1 := by
  obtain ⟨h1, h2, h3⟩ := h.densePropagateLoop (conn := conn) (s.trail.length + s.exports.length)
  unfold State.densePropagate
  cases hp : s.densePropagateLoop conn (s.trail.length + s.exports.length) with
  | mk s' b =>
    rw [hp] at h1 h2 h3
    cases b
    · exact ⟨h1.learnedEmpty (h3 rfl), h2.trans (frame_empty _)⟩
    · exact ⟨h1, h2⟩

theorem Inv.flushSatisfied {orig : List (List Nat)} {x : Option Nat} {u : Nat} :
    ∀ (rs : List Nat) {s : State}, Inv orig x s → 0 < s.values u →
    (∀ r ∈ rs, u ∈ (s.clause r).lits) →
    Inv orig x (s.flushSatisfied rs) ∧ Frame s (s.flushSatisfied rs)
  | [], s, h, _, _ => ⟨h, .refl _⟩
  | r :: rs, s, h, hu, hr => by
    unfold State.flushSatisfied
    split
    · exact Inv.flushSatisfied rs h hu fun k hk => hr k (List.mem_cons_of_mem _ hk)
    · rename_i hg
      simp only [Bool.or_eq_true, decide_eq_true_eq, not_or] at hg
      have hg' : (s.clause r).garbage = false := by simpa using hg.1
      have hf := frame_garbage (clause_lt hg') (hr r (by simp)) hu
      obtain ⟨h1, h2⟩ := Inv.flushSatisfied rs (h.markSatisfied hg' (hr r (by simp)) hu) hu
        fun k hk => by rw [hf.lits]; exact hr k (List.mem_cons_of_mem _ hk)
      exact ⟨h1, hf.trans h2⟩

theorem Inv.flushUnits {orig : List (List Nat)} {x : Option Nat} {conn : Nat → Nat → Bool} :
    ∀ (us : List Nat) {s : State}, Inv orig x s → (∀ u ∈ us, 0 < s.values u) →
    Inv orig x (s.flushUnits conn us) ∧ Frame s (s.flushUnits conn us)
  | [], s, h, _ => ⟨h, .refl _⟩
  | u :: us, s, h, hu => by
    unfold State.flushUnits
    obtain ⟨h1, h2⟩ := h.flushSatisfied (s.connected conn u) (hu u (by simp))
      fun r hr => (mem_connected hr).2.2
    obtain ⟨h3, h4⟩ := Inv.flushUnits us h1 fun k hk => h2.pos (hu k (List.mem_cons_of_mem _ hk))
    exact ⟨h3, h2.trans h4⟩

theorem Inv.flushUnitsWhileConnected {orig : List (List Nat)} {x : Option Nat} {s : State}
    (h : Inv orig x s) (conn : Nat → Nat → Bool := fun _ _ => true) :
    Inv orig x (s.flushUnitsWhileConnected conn) ∧ Frame s (s.flushUnitsWhileConnected conn) := by
  unfold State.flushUnitsWhileConnected
  split
  · exact ⟨h, .refl _⟩
  · obtain ⟨h1, h2⟩ := h.densePropagate conn
    cases hp : s.densePropagate conn with
    | mk s' b =>
      rw [hp] at h1 h2
      cases b
      · exact ⟨h1, h2⟩
      · obtain ⟨h3, h4⟩ := h1.flushUnits (conn := conn) (s'.trail.drop s.propagate)
          fun u hu => (h1.struct.trail u).1 (List.mem_of_mem_drop hu)
        exact ⟨h3, h2.trans h4⟩

/-- Flushing redundant clauses with eliminated variables and satisfied clauses. -/
theorem Inv.flushEliminated {orig : List (List Nat)} {x : Option Nat} :
    ∀ (rs : List Nat) {s : State}, Inv orig x s → Inv orig x (s.flushEliminated rs)
  | [], s, h => h
  | r :: rs, s, h => by
    unfold State.flushEliminated
    split
    · exact Inv.flushEliminated rs h
    · rename_i hg
      simp only [Bool.or_eq_true, decide_eq_true_eq, not_or] at hg
      have hg' : (s.clause r).garbage = false := by simpa using hg.1
      split
      · rename_i ha
        refine Inv.flushEliminated rs ?_
        obtain ⟨l, hl, hv⟩ := List.any_eq_true.1 ha
        simp only [Bool.or_eq_true, decide_eq_true_eq] at hv
        rcases hv with hv | hv
        · exact h.markSatisfied hg' hl hv
        · refine h.markGarbage hg' (Or.inl ?_)
          cases hr : (s.clause r).redundant
          · rw [h.struct.removed r hg' hr l hl] at hv
            cases hv
          · rfl
      · exact Inv.flushEliminated rs h

end Verif.Simp
