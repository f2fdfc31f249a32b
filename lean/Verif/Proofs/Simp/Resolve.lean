import Verif.Model.Simp.Resolve
import Verif.Proofs.Simp.Dense

/-!
# Generating resolvents
-/

namespace Verif.Simp

open Verif.Spec Verif.Model Verif.Model.Extend

/-- A clause without one literal. -/
abbrev except (c : List Nat) (x : Nat) : List Nat := c.filter (· ≠ x)

theorem mem_except {c : List Nat} {x l : Nat} : l ∈ except c x ↔ l ∈ c ∧ l ≠ x := by
  unfold except; rw [List.mem_filter]; simp

/-- The clauses with a literal, collected before resolution. -/
structure Side (s : State) (x : Nat) (P : List Nat) : Prop where
  mem : ∀ r ∈ P, x ∈ (s.clause r).lits
  more : ∀ r ∈ P, ∃ l ∈ (s.clause r).lits, l ≠ x
  irr : ∀ r ∈ P, (s.clause r).redundant = false
  range : ∀ r ∈ P, ∀ l ∈ (s.clause r).lits, s.InRange l
  sat : ∀ r ∈ P, (s.clause r).garbage = true → ∃ o ∈ (s.clause r).lits, 0 < s.values o
  all : ∀ r, (s.clause r).garbage = false → (s.clause r).redundant = false →
    x ∈ (s.clause r).lits → r ∈ P

/-- The clauses which stay, and the resolvents. -/
def Holds (σ : Assignment) (s : State) (x : Nat) (res : List (List Nat)) : Prop :=
  (∀ l ∈ s.trail, litTrue σ l) ∧
  (∀ r, (s.clause r).garbage = false → (s.clause r).redundant = false →
    x ∉ (s.clause r).lits → Spec.neg x ∉ (s.clause r).lits → SatClause σ (s.clause r).lits) ∧
  ∀ R ∈ res, SatClause σ R

/-- A resolvent on the stack. -/
structure Pending (s : State) (x : Nat) (R : List Nat) : Prop where
  size : 2 ≤ R.length
  nodup : R.Nodup
  taut : ∀ l ∈ R, Spec.neg l ∉ R
  range : ∀ l ∈ R, s.InRange l ∧ s.removed (l / 2) = false
  var : ∀ l ∈ R, l / 2 ≠ x / 2
  why : (∃ o ∈ R, 0 < s.values o) ∨ ∃ r q, (s.clause r).garbage = false ∧
    (s.clause q).garbage = false ∧ x ∈ (s.clause r).lits ∧
    (∀ l ∈ (s.clause r).lits, l ≠ x → l ∈ R ∨ s.values l < 0) ∧
    (∀ l ∈ (s.clause q).lits, l ≠ Spec.neg x → l ∈ R ∨ s.values l < 0) ∧
    Spec.neg x ∈ (s.clause q).lits

/-- The invariant while generating resolvents. -/
structure GInv (orig : List (List Nat)) (v : Option Nat) (x : Nat) (P N : List Nat) (s : State)
    (res : List (List Nat)) : Prop where
  inv : Inv orig v s
  val : s.values x = 0
  var : s.InRange x ∧ s.removed (x / 2) = false
  pos : Side s x P
  neg : Side s (Spec.neg x) N
  res : ∀ R ∈ res, Pending s x R

theorem Pending.symm {s : State} {x : Nat} {R : List Nat} (h : Pending s x R) :
    Pending s (Spec.neg x) R :=
  ⟨h.size, h.nodup, h.taut, h.range, fun l hl => by rw [neg_div]; exact h.var l hl, by
    rcases h.why with h1 | ⟨r, q, h1, h2, h3, h4, h5, h6⟩
    · exact Or.inl h1
    · exact Or.inr ⟨q, r, h2, h1, h6, h5, by rw [neg_neg]; exact h4, by rw [neg_neg]; exact h3⟩⟩

theorem holds_symm {σ : Assignment} {s : State} {x : Nat} {res : List (List Nat)}
    (h : Holds σ s x res) : Holds σ s (Spec.neg x) res :=
  ⟨h.1, fun r h1 h2 h3 h4 => h.2.1 r h1 h2 (by rw [neg_neg] at h4; exact h4) h3, h.2.2⟩

theorem holds_symm_iff {σ : Assignment} {s : State} {x : Nat} {res : List (List Nat)} :
    Holds σ s (Spec.neg x) res ↔ Holds σ s x res :=
  ⟨fun h => by have := holds_symm h; rwa [neg_neg] at this, holds_symm⟩

theorem GInv.val' {orig : List (List Nat)} {v : Option Nat} {x : Nat} {P N : List Nat} {s : State}
    {res : List (List Nat)} (h : GInv orig v x P N s res) : s.values (Spec.neg x) = 0 := by
  rw [h.inv.struct.neg, h.val]; rfl

theorem GInv.symm {orig : List (List Nat)} {v : Option Nat} {x : Nat} {P N : List Nat} {s : State}
    {res : List (List Nat)} (h : GInv orig v x P N s res) : GInv orig v (Spec.neg x) N P s res :=
  ⟨h.inv, h.val', by rw [inRange_neg, neg_div]; exact h.var, h.neg, by rw [neg_neg]; exact h.pos, fun R hR => (h.res R hR).symm⟩

/-! ## Steps -/

/-- Going from one state to the next. -/
structure GStep (x : Nat) (s : State) (res : List (List Nat)) (s' : State)
    (res' : List (List Nat)) : Prop where
  frame : Frame s s'
  holds : ∀ σ, Holds σ s' x res' → Holds σ s x res

theorem GStep.refl (x : Nat) (s : State) (res : List (List Nat)) : GStep x s res s res :=
  ⟨.refl _, fun _ h => h⟩

theorem GStep.trans {x : Nat} {s s' s'' : State} {res res' res'' : List (List Nat)}
    (h : GStep x s res s' res') (h' : GStep x s' res' s'' res'') : GStep x s res s'' res'' :=
  ⟨h.frame.trans h'.frame, fun σ hσ => h.holds σ (h'.holds σ hσ)⟩

theorem GStep.symm {x : Nat} {s s' : State} {res res' : List (List Nat)}
    (h : GStep x s res s' res') : GStep (Spec.neg x) s res s' res' :=
  ⟨h.frame, fun σ hσ => holds_symm (h.holds σ (holds_symm_iff.1 hσ))⟩

/-- The resolvent of two clauses holds. -/
def Done (s : State) (x : Nat) (res : List (List Nat)) (r q : Nat) : Prop :=
  ∀ σ, Holds σ s x res → SatClause σ (except (s.clause r).lits x) ∨
    SatClause σ (except (s.clause q).lits (Spec.neg x))

theorem Done.step {x : Nat} {s s' : State} {res res' : List (List Nat)} {r q : Nat}
    (h : Done s x res r q) (h' : GStep x s res s' res') : Done s' x res' r q := by
  intro σ hσ
  rw [h'.frame.lits, h'.frame.lits]
  exact h σ (h'.holds σ hσ)

theorem Done.symm {x : Nat} {s : State} {res : List (List Nat)} {r q : Nat}
    (h : Done s (Spec.neg x) res r q) : Done s x res q r := by
  intro σ hσ
  have := h σ (holds_symm hσ)
  rw [neg_neg] at this
  exact this.symm

/-- A clause with a true literal. -/
theorem GInv.true_side {orig : List (List Nat)} {v : Option Nat} {x : Nat} {P N : List Nat}
    {s : State} {res : List (List Nat)} (h : GInv orig v x P N s res) {σ : Assignment}
    (hσ : Holds σ s x res) {r o : Nat} (ho : o ∈ (s.clause r).lits) (hv : 0 < s.values o) :
    SatClause σ (except (s.clause r).lits x) ∧ SatClause σ (except (s.clause r).lits (Spec.neg x)) := by
  have ht := hσ.1 o ((h.inv.struct.trail o).2 hv)
  have h1 : o ≠ x := by rintro rfl; rw [h.val] at hv; omega
  have h2 : o ≠ Spec.neg x := by rintro rfl; rw [h.val'] at hv; omega
  exact ⟨⟨o, mem_except.2 ⟨ho, h1⟩, ht⟩, ⟨o, mem_except.2 ⟨ho, h2⟩, ht⟩⟩

/-! ### Units -/

theorem GInv.unit' {orig : List (List Nat)} {v : Option Nat} {x : Nat} {P N : List Nat} {s : State}
    {res : List (List Nat)} (h : GInv orig v x P N s res) {u : Nat} (hu : s.values u = 0)
    (hr : s.InRange u) (hrem : s.removed (u / 2) = false) (hx : u / 2 ≠ x / 2)
    (hrup : RUP s.formula [u]) :
    GInv orig v x P N (s.learnedUnit u) res ∧
      ∀ σ, Holds σ (s.learnedUnit u) x res → Holds σ s x res := by
  have hpos : ∀ {o : Nat}, 0 < s.values o → 0 < (s.learnedUnit u).values o := by
    intro o ho
    rw [values_learned]
    by_cases h1 : o = u
    · rw [if_pos h1]; omega
    · rw [if_neg h1, if_neg]
      · exact ho
      · rintro rfl; rw [h.inv.struct.neg, hu] at ho; omega
  have hneg : ∀ {o : Nat}, s.values o < 0 → (s.learnedUnit u).values o < 0 := by
    intro o ho
    rw [values_learned]
    by_cases h1 : o = u
    · subst h1; omega
    · rw [if_neg h1]
      split
      · omega
      · exact ho
  have hi := h.inv.learnedUnit hu hr hrem hrup
  refine ⟨⟨hi, ?_, h.var, ⟨h.pos.mem, h.pos.more, h.pos.irr, h.pos.range, fun k hk hk' => ?_, h.pos.all⟩,
    ⟨h.neg.mem, h.neg.more, h.neg.irr, h.neg.range, fun k hk hk' => ?_, h.neg.all⟩, fun R hR => ?_⟩,
    fun σ hσ => ?_⟩
  · rw [values_learned, if_neg (by rintro rfl; exact hx rfl),
      if_neg (by rintro rfl; exact hx (by rw [neg_div])), h.val]
  · obtain ⟨o, o1, o2⟩ := h.pos.sat k hk hk'
    exact ⟨o, o1, hpos o2⟩
  · obtain ⟨o, o1, o2⟩ := h.neg.sat k hk hk'
    exact ⟨o, o1, hpos o2⟩
  · have hp := h.res R hR
    refine ⟨hp.size, hp.nodup, hp.taut, hp.range, hp.var, ?_⟩
    rcases hp.why with ⟨o, o1, o2⟩ | ⟨r, q, h1, h2, h3, h4, h5, h6⟩
    · exact Or.inl ⟨o, o1, hpos o2⟩
    · exact Or.inr ⟨r, q, h1, h2, h3, fun l hl hne => (h4 l hl hne).imp id hneg,
        fun l hl hne => (h5 l hl hne).imp id hneg, h6⟩
  · exact ⟨fun l hl => hσ.1 l (List.mem_append_left _ hl), hσ.2.1, hσ.2.2⟩

theorem GInv.unit {orig : List (List Nat)} {v : Option Nat} {x : Nat} {P N : List Nat} {s : State}
    {res : List (List Nat)} (h : GInv orig v x P N s res) {u r : Nat} (hu : s.values u = 0)
    (hg : (s.clause r).garbage = false) (hr : (s.clause r).redundant = false)
    (hm : u ∈ (s.clause r).lits) (hx : u / 2 ≠ x / 2) (hrup : RUP s.formula [u]) :
    GInv orig v x P N (s.learnedUnit u) res ∧ GStep x s res (s.learnedUnit u) res := by
  obtain ⟨h1, h2⟩ := h.unit' hu (h.inv.struct.clause r hg u hm) (h.inv.struct.removed r hg hr u hm) hx hrup
  exact ⟨h1, frame_unit h.inv.struct hu hg hr hm, h2⟩

/-! ### Removing satisfied antecedents -/

theorem GInv.garbage {orig : List (List Nat)} {v : Option Nat} {x : Nat} {P N : List Nat}
    {s : State} {res : List (List Nat)} (h : GInv orig v x P N s res) {r o : Nat}
    (hg : (s.clause r).garbage = false) (hmem : x ∈ (s.clause r).lits ∨ Spec.neg x ∈ (s.clause r).lits)
    (ho : o ∈ (s.clause r).lits) (hv : 0 < s.values o) :
    GInv orig v x P N (s.markGarbage r) res ∧ GStep x s res (s.markGarbage r) res := by
  have hf := frame_garbage (clause_lt hg) ho hv
  have hi := h.inv.markSatisfied hg ho hv
  have hne : o ≠ x ∧ o ≠ Spec.neg x := by
    constructor
    · rintro rfl; rw [h.val] at hv; omega
    · rintro rfl; rw [h.val'] at hv; omega
  have side : ∀ {y : Nat} {Q : List Nat}, Side s y Q → Side (s.markGarbage r) y Q := by
    intro y Q hs
    refine ⟨fun k hk => by rw [hf.lits]; exact hs.mem k hk, fun k hk => by rw [hf.lits]; exact hs.more k hk, fun k hk => by rw [hf.red]; exact hs.irr k hk,
      fun k hk => by rw [hf.lits]; exact hs.range k hk,
      fun k hk hk' => ?_, fun k h1 h2 h3 => ?_⟩
    · rw [hf.lits]
      rcases hf.sat k hk' with h1 | h1
      · exact hs.sat k hk h1
      · exact h1
    · rw [hf.red] at h2
      rw [hf.lits] at h3
      exact hs.all k (hf.live h1) h2 h3
  refine ⟨⟨hi, h.val, h.var, side h.pos, side h.neg, fun R hR => ?_⟩, hf, fun σ hσ => ?_⟩
  · have hp := h.res R hR
    refine ⟨hp.size, hp.nodup, hp.taut, hp.range, hp.var, ?_⟩
    rcases hp.why with h1 | ⟨k, q, h1, h2, h3, h4, h5, h6⟩
    · exact Or.inl h1
    · by_cases ek : k = r
      · subst ek
        refine Or.inl ⟨o, ?_, hv⟩
        rcases h4 o ho hne.1 with h7 | h7
        · exact h7
        · omega
      · by_cases eq : q = r
        · subst eq
          refine Or.inl ⟨o, ?_, hv⟩
          rcases h5 o ho hne.2 with h7 | h7
          · exact h7
          · omega
        · refine Or.inr ⟨k, q, ?_, ?_, ?_, ?_, ?_, ?_⟩
          · rw [clause_garbage (clause_lt hg), if_neg ek]; exact h1
          · rw [clause_garbage (clause_lt hg), if_neg eq]; exact h2
          · rw [hf.lits]; exact h3
          · rw [hf.lits]; exact h4
          · rw [hf.lits]; exact h5
          · rw [hf.lits]; exact h6
  · refine ⟨hσ.1, fun k h1 h2 h3 h4 => ?_, hσ.2.2⟩
    have : k ≠ r := by
      rintro rfl
      rcases hmem with hm | hm
      · exact h3 hm
      · exact h4 hm
    have := hσ.2.1 k (by rw [clause_garbage (clause_lt hg), if_neg this]; exact h1)
      (by rw [hf.red]; exact h2) (by rw [hf.lits]; exact h3) (by rw [hf.lits]; exact h4)
    rwa [hf.lits] at this

/-! ### The empty clause -/

theorem GInv.empty {orig : List (List Nat)} {v : Option Nat} {x : Nat} {P N : List Nat} {s : State}
    {res : List (List Nat)} (h : GInv orig v x P N s res) (hr : RUP s.formula []) :
    GInv orig v x P N s.learnedEmpty res ∧ GStep x s res s.learnedEmpty res :=
  ⟨⟨h.inv.learnedEmpty hr, h.val, h.var, ⟨h.pos.mem, h.pos.more, h.pos.irr, h.pos.range, h.pos.sat, h.pos.all⟩,
    ⟨h.neg.mem, h.neg.more, h.neg.irr, h.neg.range, h.neg.sat, h.neg.all⟩, fun R hR =>
      have hp := h.res R hR
      ⟨hp.size, hp.nodup, hp.taut, hp.range, hp.var, hp.why⟩⟩, frame_empty s, fun _ h => h⟩

/-! ## The second antecedent -/

theorem walk_spec (s : State) (x : Nat) (c : List Nat) : ∀ (d acc : List Nat),
    (s.walk x c d acc = .satisfied → ∃ o ∈ d, 0 < s.values o) ∧
    (s.walk x c d acc = .tautological → ∃ o ∈ d, o ≠ Spec.neg x ∧ Spec.neg o ∈ c ∧ Spec.neg o ≠ x) ∧
    (∀ ls, s.walk x c d acc = .lits ls → ∃ new, ls = acc ++ new ∧ new.Sublist d ∧
      (∀ o ∈ new, o ≠ Spec.neg x ∧ s.values o = 0 ∧ ¬ (o ≠ x ∧ o ∈ c) ∧
        ¬ (Spec.neg o ≠ x ∧ Spec.neg o ∈ c)) ∧
      ∀ o ∈ d, o ≠ Spec.neg x → s.values o < 0 ∨ (o ∈ c ∧ o ≠ x) ∨ o ∈ new)
  | [], acc => by
    refine ⟨fun h => (by cases h), fun h => (by cases h), fun ls h => ?_⟩
    cases h
    exact ⟨[], by simp, List.Sublist.refl _, by simp, by simp⟩
  | o :: d, acc => by
    have keep : ∀ (i : (s.walk x c d acc = .satisfied → ∃ o ∈ d, 0 < s.values o) ∧
      (s.walk x c d acc = .tautological → ∃ o ∈ d, o ≠ Spec.neg x ∧ Spec.neg o ∈ c ∧ Spec.neg o ≠ x) ∧
      (∀ ls, s.walk x c d acc = .lits ls → ∃ new, ls = acc ++ new ∧ new.Sublist d ∧
        (∀ o ∈ new, o ≠ Spec.neg x ∧ s.values o = 0 ∧ ¬ (o ≠ x ∧ o ∈ c) ∧
          ¬ (Spec.neg o ≠ x ∧ Spec.neg o ∈ c)) ∧
        ∀ o ∈ d, o ≠ Spec.neg x → s.values o < 0 ∨ (o ∈ c ∧ o ≠ x) ∨ o ∈ new))
      (_ : o = Spec.neg x ∨ s.values o < 0 ∨ (o ∈ c ∧ o ≠ x)),
      (s.walk x c d acc = .satisfied → ∃ o' ∈ o :: d, 0 < s.values o') ∧
      (s.walk x c d acc = .tautological → ∃ o' ∈ o :: d, o' ≠ Spec.neg x ∧ Spec.neg o' ∈ c ∧ Spec.neg o' ≠ x) ∧
      (∀ ls, s.walk x c d acc = .lits ls → ∃ new, ls = acc ++ new ∧ new.Sublist (o :: d) ∧
        (∀ o ∈ new, o ≠ Spec.neg x ∧ s.values o = 0 ∧ ¬ (o ≠ x ∧ o ∈ c) ∧
          ¬ (Spec.neg o ≠ x ∧ Spec.neg o ∈ c)) ∧
        ∀ o' ∈ o :: d, o' ≠ Spec.neg x → s.values o' < 0 ∨ (o' ∈ c ∧ o' ≠ x) ∨ o' ∈ new) := by
      rintro ⟨i1, i2, i3⟩ hc
      refine ⟨fun h => ?_, fun h => ?_, fun ls h => ?_⟩
      · obtain ⟨p, hp, hp'⟩ := i1 h
        exact ⟨p, List.mem_cons_of_mem _ hp, hp'⟩
      · obtain ⟨p, hp, hp'⟩ := i2 h
        exact ⟨p, List.mem_cons_of_mem _ hp, hp'⟩
      · obtain ⟨new, n1, n2, n3, n4⟩ := i3 ls h
        refine ⟨new, n1, n2.cons _, n3, fun p hp hne => ?_⟩
        rcases List.mem_cons.1 hp with rfl | hp
        · rcases hc with hc | hc | hc
          · exact absurd hc hne
          · exact Or.inl hc
          · exact Or.inr (Or.inl hc)
        · exact n4 p hp hne
    have ih := walk_spec s x c d acc
    unfold State.walk
    by_cases h1 : o = Spec.neg x
    · rw [if_pos h1]
      exact keep ih (Or.inl h1)
    · rw [if_neg h1]
      by_cases h2 : s.values o < 0
      · rw [if_pos h2]
        exact keep ih (Or.inr (Or.inl h2))
      · rw [if_neg h2]
        by_cases h3 : s.values o > 0
        · rw [if_pos h3]
          exact ⟨fun _ => ⟨o, by simp, h3⟩, fun h => (by cases h), fun ls h => (by cases h)⟩
        · rw [if_neg h3]
          by_cases h4 : o ≠ x ∧ o ∈ c
          · rw [if_pos h4]
            exact keep ih (Or.inr (Or.inr ⟨h4.2, h4.1⟩))
          · rw [if_neg h4]
            by_cases h5 : Spec.neg o ≠ x ∧ Spec.neg o ∈ c
            · rw [if_pos h5]
              exact ⟨fun h => (by cases h), fun _ => ⟨o, by simp, h1, h5.2, h5.1⟩,
                fun ls h => (by cases h)⟩
            · rw [if_neg h5]
              obtain ⟨i1, i2, i3⟩ := walk_spec s x c d (acc ++ [o])
              refine ⟨fun h => ?_, fun h => ?_, fun ls h => ?_⟩
              · obtain ⟨p, hp, hp'⟩ := i1 h
                exact ⟨p, List.mem_cons_of_mem _ hp, hp'⟩
              · obtain ⟨p, hp, hp'⟩ := i2 h
                exact ⟨p, List.mem_cons_of_mem _ hp, hp'⟩
              · obtain ⟨new, n1, n2, n3, n4⟩ := i3 ls h
                refine ⟨o :: new, by rw [n1, List.append_assoc]; rfl, n2.cons₂ _, fun p hp => ?_,
                  fun p hp hne => ?_⟩
                · rcases List.mem_cons.1 hp with rfl | hp
                  · exact ⟨h1, by omega, h4, h5⟩
                  · exact n3 p hp
                · rcases List.mem_cons.1 hp with rfl | hp
                  · exact Or.inr (Or.inr (by simp))
                  · rcases n4 p hp hne with h | h | h
                    · exact Or.inl h
                    · exact Or.inr (Or.inl h)
                    · exact Or.inr (Or.inr (List.mem_cons_of_mem _ h))

/-- What is known about a resolvent. -/
structure Resolvent (s : State) (x : Nat) (c d r : List Nat) : Prop where
  nodup : r.Nodup
  taut : ∀ l ∈ r, Spec.neg l ∉ r
  zero : ∀ l ∈ r, s.values l = 0
  from_ : ∀ l ∈ r, (l ∈ c ∨ l ∈ d) ∧ l ≠ x ∧ l ≠ Spec.neg x
  first : ∀ l ∈ c, l ≠ x → l ∈ r ∨ s.values l < 0
  second : ∀ l ∈ d, l ≠ Spec.neg x → l ∈ r ∨ s.values l < 0

theorem resolvent_of {s : State} {x : Nat} {c d ls : List Nat} (hcn : c.Nodup) (hdn : d.Nodup)
    (hct : ∀ l ∈ c, Spec.neg l ∉ c) (hdt : ∀ l ∈ d, Spec.neg l ∉ d) (hx : x ∈ c)
    (hx' : Spec.neg x ∈ d) (hneg : ∀ o ∈ c, o ≠ x → s.values o ≤ 0)
    (hw : s.walk x c d [] = .lits ls) :
    Resolvent s x c d (ls ++ c.filter fun o => o ≠ x ∧ ¬ s.values o < 0) := by
  obtain ⟨new, n1, n2, n3, n4⟩ := (walk_spec s x c d []).2.2 ls hw
  rw [List.nil_append] at n1
  subst n1
  have hf : ∀ {o : Nat}, o ∈ c.filter (fun o => o ≠ x ∧ ¬ s.values o < 0) ↔
      o ∈ c ∧ o ≠ x ∧ ¬ s.values o < 0 := by
    intro o; rw [List.mem_filter]; simp
  have hxd : x ∉ d := fun h => hdt x h hx'
  refine ⟨?_, ?_, ?_, ?_, ?_, ?_⟩
  · rw [List.nodup_append]
    refine ⟨hdn.sublist n2, hcn.filter _, ?_⟩
    rintro a ha b hb rfl
    obtain ⟨b1, b2, _⟩ := hf.1 hb
    exact (n3 a ha).2.2.1 ⟨b2, b1⟩
  · intro l hl hl'
    rcases List.mem_append.1 hl with h1 | h1 <;> rcases List.mem_append.1 hl' with h2 | h2
    · exact hdt l (n2.subset h1) (n2.subset h2)
    · obtain ⟨b1, b2, _⟩ := hf.1 h2
      exact (n3 l h1).2.2.2 ⟨b2, b1⟩
    · obtain ⟨b1, b2, _⟩ := hf.1 h1
      have := (n3 _ h2).2.2.2
      rw [neg_neg] at this
      exact this ⟨b2, b1⟩
    · exact hct l (hf.1 h1).1 (hf.1 h2).1
  · intro l hl
    rcases List.mem_append.1 hl with h1 | h1
    · exact (n3 l h1).2.1
    · obtain ⟨b1, b2, b3⟩ := hf.1 h1
      have := hneg l b1 b2
      omega
  · intro l hl
    rcases List.mem_append.1 hl with h1 | h1
    · refine ⟨Or.inr (n2.subset h1), ?_, (n3 l h1).1⟩
      rintro rfl
      exact hxd (n2.subset h1)
    · obtain ⟨b1, b2, _⟩ := hf.1 h1
      refine ⟨Or.inl b1, b2, ?_⟩
      rintro rfl
      exact hct x hx b1
  · intro l hl hne
    by_cases h : s.values l < 0
    · exact Or.inr h
    · exact Or.inl (List.mem_append_right _ (hf.2 ⟨hl, hne, h⟩))
  · intro l hl hne
    rcases n4 l hl hne with h | h | h
    · exact Or.inr h
    · by_cases h' : s.values l < 0
      · exact Or.inr h'
      · exact Or.inl (List.mem_append_right _ (hf.2 ⟨h.1, h.2, h'⟩))
    · exact Or.inl (List.mem_append_left _ h)

theorem ne_var {l x : Nat} (h1 : l ≠ x) (h2 : l ≠ Spec.neg x) : l / 2 ≠ x / 2 := by
  intro h
  rcases eq_or_eq_neg h with h | h
  · exact h1 h
  · exact h2 h

/-! ## The loop over the second antecedents -/

theorem inner_spec {orig : List (List Nat)} {v : Option Nat} {x : Nat} {P N : List Nat}
    (clslim limit : Nat) {c : List Nat} {r : Nat} : ∀ (ds : List Nat) (g : Gen),
    GInv orig v x P N g.s g.res → (∀ d ∈ ds, d ∈ N) → r ∈ P → (g.s.clause r).garbage = false →
    c = (g.s.clause r).lits → (∀ o ∈ c, o ≠ x → g.s.values o ≤ 0) →
    GInv orig v x P N (g.inner clslim limit x c ds).1.s (g.inner clslim limit x c ds).1.res ∧
    GStep x g.s g.res (g.inner clslim limit x c ds).1.s (g.inner clslim limit x c ds).1.res ∧
    ((g.inner clslim limit x c ds).2 = true → ∀ d ∈ ds,
      Done (g.inner clslim limit x c ds).1.s x (g.inner clslim limit x c ds).1.res r d)
  | [], g, h, _, _, _, _, _ => ⟨h, .refl _ _ _, fun _ d hd => (by cases hd)⟩
  | d :: ds, g, h, hds, hrP, hrg, hc, hneg => by
    have hdN := hds d (by simp)
    have hds' : ∀ k ∈ ds, k ∈ N := fun k hk => hds k (List.mem_cons_of_mem _ hk)
    have hS := h.inv.struct
    have hxr : x ∈ (g.s.clause r).lits := h.pos.mem r hrP
    have hxd := h.neg.mem d hdN
    -- going on with the other ones
    have go : ∀ (g' : Gen), GInv orig v x P N g'.s g'.res → GStep x g.s g.res g'.s g'.res →
        (g'.s.clause r).garbage = false → (∀ o ∈ c, o ≠ x → g'.s.values o ≤ 0) →
        Done g'.s x g'.res r d →
        GInv orig v x P N (g'.inner clslim limit x c ds).1.s (g'.inner clslim limit x c ds).1.res ∧
        GStep x g.s g.res (g'.inner clslim limit x c ds).1.s (g'.inner clslim limit x c ds).1.res ∧
        ((g'.inner clslim limit x c ds).2 = true → ∀ k ∈ d :: ds,
          Done (g'.inner clslim limit x c ds).1.s x (g'.inner clslim limit x c ds).1.res r k) := by
      intro g' h' hst hrg' hneg' hdone
      obtain ⟨i1, i2, i3⟩ := inner_spec clslim limit ds g' h' hds' hrP hrg'
        (by rw [hst.frame.lits]; exact hc) hneg'
      refine ⟨i1, hst.trans i2, fun ht k hk => ?_⟩
      rcases List.mem_cons.1 hk with rfl | hk
      · exact hdone.step i2
      · exact i3 ht k hk
    have satDone : ∀ {o : Nat}, o ∈ (g.s.clause d).lits → 0 < g.s.values o →
        Done g.s x g.res r d := fun ho hv σ hσ => Or.inr (h.true_side hσ ho hv).2
    unfold Gen.inner
    by_cases hg : (g.s.clause d).garbage = true
    · rw [if_pos hg]
      obtain ⟨o, o1, o2⟩ := h.neg.sat d hdN hg
      exact go g h (.refl _ _ _) hrg hneg (satDone o1 o2)
    · rw [if_neg hg]
      have hg : (g.s.clause d).garbage = false := by simpa using hg
      have hrd : r ≠ d := by
        rintro rfl
        exact hS.taut r hrg x hxr hxd
      obtain ⟨w1, w2, w3⟩ := walk_spec g.s x c (g.s.clause d).lits []
      cases hw : g.s.walk x c (g.s.clause d).lits [] with
      | satisfied =>
        obtain ⟨o, o1, o2⟩ := w1 hw
        dsimp only
        by_cases hb : (g.s.clause d).lits.length = 2
        · rw [if_pos hb]
          exact go g h (.refl _ _ _) hrg hneg (satDone o1 o2)
        · rw [if_neg hb]
          obtain ⟨k1, k2⟩ := h.garbage hg (Or.inr hxd) o1 o2
          exact go { g with s := g.s.markGarbage d } k1 k2
            (by show ((g.s.markGarbage d).clause r).garbage = false
                rw [clause_garbage (clause_lt hg), if_neg hrd]; exact hrg) hneg
            ((satDone o1 o2).step k2)
      | tautological =>
        obtain ⟨o, o1, o2, o3, o4⟩ := w2 hw
        dsimp only
        refine go g h (.refl _ _ _) hrg hneg fun σ _ => ?_
        rcases litTrue_or_neg σ o with ht | ht
        · exact Or.inr ⟨o, mem_except.2 ⟨o1, o2⟩, ht⟩
        · exact Or.inl ⟨_, mem_except.2 ⟨by rw [← hc]; exact o3, o4⟩, ht⟩
      | lits ls =>
        dsimp only
        by_cases hl : g.resolved + 1 > limit
        · rw [if_pos hl]
          exact ⟨h, .refl _ _ _, fun e => (by cases e)⟩
        · rw [if_neg hl]
          have R := resolvent_of (hc ▸ hS.nodup r hrg) (hS.nodup d hg) (hc ▸ hS.taut r hrg)
            (hS.taut d hg) (hc ▸ hxr) hxd hneg hw
          generalize ls ++ c.filter (fun o => o ≠ x ∧ ¬ g.s.values o < 0) = R' at R ⊢
          have rup : RUP g.s.formula R' := by
            refine rup_resolvent (Struct.clause_formula hrg) (Struct.clause_formula hg) hxr ?_ ?_
            · intro m hm hne
              exact (R.first m (by rw [hc]; exact hm) hne).imp id hS.neg_unit
            · intro m hm hne
              exact (R.second m hm hne).imp id hS.neg_unit
          have hdone : ∀ σ, SatClause σ R' → SatClause σ (except (g.s.clause r).lits x) ∨
              SatClause σ (except (g.s.clause d).lits (Spec.neg x)) := by
            rintro σ ⟨l, l1, l2⟩
            obtain ⟨f1, f2, f3⟩ := R.from_ l l1
            rcases f1 with f1 | f1
            · exact Or.inl ⟨l, mem_except.2 ⟨by rw [← hc]; exact f1, f2⟩, l2⟩
            · exact Or.inr ⟨l, mem_except.2 ⟨f1, f3⟩, l2⟩
          match R', R, rup, hdone with
          | [], R, rup, hdone =>
            obtain ⟨k1, k2⟩ := h.empty rup
            exact ⟨k1, k2, fun e => (by cases e)⟩
          | [u], R, rup, hdone =>
            dsimp only
            have hu0 := R.zero u (by simp)
            obtain ⟨f1, f2, f3⟩ := R.from_ u (by simp)
            have hk : ∃ k, (g.s.clause k).garbage = false ∧ (g.s.clause k).redundant = false ∧
                u ∈ (g.s.clause k).lits := by
              rcases f1 with f1 | f1
              · exact ⟨r, hrg, h.pos.irr r hrP, by rw [← hc]; exact f1⟩
              · exact ⟨d, hg, h.neg.irr d hdN, f1⟩
            obtain ⟨k, e1, e2, e3⟩ := hk
            obtain ⟨k1, k2⟩ := h.unit hu0 e1 e2 e3 (ne_var f2 f3) rup
            have htrue : ∀ {σ}, Holds σ (g.s.learnedUnit u) x g.res → litTrue σ u := fun hσ =>
              hσ.1 u (List.mem_append_right _ (by simp))
            by_cases huc : u ∈ c
            · rw [if_pos huc]
              refine ⟨k1, k2, fun _ q hq σ hσ => Or.inl ⟨u, mem_except.2 ⟨?_, f2⟩, htrue hσ⟩⟩
              show u ∈ ((g.s.learnedUnit u).clause r).lits
              rw [k2.frame.lits, ← hc]; exact huc
            · rw [if_neg huc]
              refine go { g with s := g.s.learnedUnit u, resolved := g.resolved + 1 } k1 k2 hrg ?_ ?_
              · intro o ho hne
                show (g.s.learnedUnit u).values o ≤ 0
                rw [values_learned, if_neg (by rintro rfl; exact huc ho)]
                split
                · omega
                · exact hneg o ho hne
              · intro σ hσ
                exact hdone σ ⟨u, by simp, htrue hσ⟩
          | a :: b :: R', R, rup, hdone =>
            dsimp only
            by_cases hlen : (a :: b :: R').length > clslim
            · rw [if_pos hlen]
              exact ⟨h, .refl _ _ _, fun e => (by cases e)⟩
            · rw [if_neg hlen]
              have hfrom : ∀ l ∈ a :: b :: R', g.s.InRange l ∧ g.s.removed (l / 2) = false := by
                intro l hl
                rcases (R.from_ l hl).1 with f1 | f1
                · rw [hc] at f1
                  exact ⟨hS.clause r hrg l f1, hS.removed r hrg (h.pos.irr r hrP) l f1⟩
                · exact ⟨hS.clause d hg l f1, hS.removed d hg (h.neg.irr d hdN) l f1⟩
              have hpend : Pending g.s x (a :: b :: R') :=
                ⟨by simp, R.nodup, R.taut, hfrom,
                  fun l hl => ne_var (R.from_ l hl).2.1 (R.from_ l hl).2.2,
                  Or.inr ⟨r, d, hrg, hg, hxr, fun l hl hne => R.first l (by rw [hc]; exact hl) hne,
                    R.second, hxd⟩⟩
              have hmono : ∀ {σ}, Holds σ g.s x (g.res ++ [a :: b :: R']) → Holds σ g.s x g.res :=
                fun hσ => ⟨hσ.1, hσ.2.1, fun R hR => hσ.2.2 R (List.mem_append_left _ hR)⟩
              refine go { g with res := g.res ++ [a :: b :: R'], resolved := g.resolved + 1 }
                ⟨h.inv, h.val, h.var, h.pos, h.neg, ?_⟩ ⟨.refl _, fun σ hσ => hmono hσ⟩ hrg hneg ?_
              · intro Q hQ
                rcases List.mem_append.1 hQ with hQ | hQ
                · exact h.res Q hQ
                · rw [List.mem_singleton.1 hQ]; exact hpend
              · intro σ hσ
                exact hdone σ (hσ.2.2 _ (List.mem_append_right _ (by simp)))

/-! ## The loop over the first antecedents -/

theorem outer_spec {orig : List (List Nat)} {v : Option Nat} {x : Nat} {P N : List Nat}
    (clslim limit : Nat) {ds : List Nat} (hds : ∀ d ∈ ds, d ∈ N) : ∀ (cs : List Nat) (g : Gen),
    GInv orig v x P N g.s g.res → (∀ c ∈ cs, c ∈ P) →
    GInv orig v x P N (g.outer clslim limit x cs ds).1.s (g.outer clslim limit x cs ds).1.res ∧
    GStep x g.s g.res (g.outer clslim limit x cs ds).1.s (g.outer clslim limit x cs ds).1.res ∧
    ((g.outer clslim limit x cs ds).2 = true → ∀ c ∈ cs, ∀ d ∈ ds,
      Done (g.outer clslim limit x cs ds).1.s x (g.outer clslim limit x cs ds).1.res c d)
  | [], g, h, _ => ⟨h, .refl _ _ _, fun _ c hc => (by cases hc)⟩
  | c :: cs, g, h, hcs => by
    have hcP := hcs c (by simp)
    have hcs' : ∀ k ∈ cs, k ∈ P := fun k hk => hcs k (List.mem_cons_of_mem _ hk)
    have go : ∀ (g' : Gen), GInv orig v x P N g'.s g'.res → GStep x g.s g.res g'.s g'.res →
        (∀ d ∈ ds, Done g'.s x g'.res c d) →
        GInv orig v x P N (g'.outer clslim limit x cs ds).1.s (g'.outer clslim limit x cs ds).1.res ∧
        GStep x g.s g.res (g'.outer clslim limit x cs ds).1.s (g'.outer clslim limit x cs ds).1.res ∧
        ((g'.outer clslim limit x cs ds).2 = true → ∀ k ∈ c :: cs, ∀ d ∈ ds,
          Done (g'.outer clslim limit x cs ds).1.s x (g'.outer clslim limit x cs ds).1.res k d) := by
      intro g' h' hst hdone
      obtain ⟨i1, i2, i3⟩ := outer_spec clslim limit hds cs g' h' hcs'
      refine ⟨i1, hst.trans i2, fun ht k hk d hd => ?_⟩
      rcases List.mem_cons.1 hk with rfl | hk
      · exact (hdone d hd).step i2
      · exact i3 ht k hk d hd
    have satDone : ∀ {o : Nat}, o ∈ (g.s.clause c).lits → 0 < g.s.values o →
        ∀ d ∈ ds, Done g.s x g.res c d := fun ho hv d _ σ hσ => Or.inl (h.true_side hσ ho hv).1
    unfold Gen.outer
    by_cases hg : (g.s.clause c).garbage = true
    · rw [if_pos hg]
      obtain ⟨o, o1, o2⟩ := h.pos.sat c hcP hg
      exact go g h (.refl _ _ _) (satDone o1 o2)
    · rw [if_neg hg]
      have hg : (g.s.clause c).garbage = false := by simpa using hg
      by_cases ha : ((g.s.clause c).lits.any fun other => other ≠ x && g.s.values other > 0) = true
      · rw [if_pos ha]
        obtain ⟨o, o1, o2⟩ := List.any_eq_true.1 ha
        simp only [decide_not, Bool.and_eq_true, Bool.not_eq_true', decide_eq_false_iff_not, decide_eq_true_eq] at o2
        by_cases hb : (g.s.clause c).lits.length = 2
        · rw [if_pos hb]
          exact go g h (.refl _ _ _) (satDone o1 o2.2)
        · rw [if_neg hb]
          obtain ⟨k1, k2⟩ := h.garbage hg (Or.inl (h.pos.mem c hcP)) o1 o2.2
          exact go { g with s := g.s.markGarbage c } k1 k2 fun d hd => (satDone o1 o2.2 d hd).step k2
      · rw [if_neg ha]
        have hneg : ∀ o ∈ (g.s.clause c).lits, o ≠ x → g.s.values o ≤ 0 := by
          intro o ho hne
          by_cases hv : g.s.values o > 0
          · exact absurd (List.any_eq_true.2 ⟨o, ho, by simp [hne, hv]⟩) ha
          · omega
        obtain ⟨i1, i2, i3⟩ := inner_spec clslim limit ds g h hds hcP hg rfl hneg
        cases hin : g.inner clslim limit x (g.s.clause c).lits ds with
        | mk g' b =>
          rw [hin] at i1 i2 i3
          cases b
          · exact ⟨i1, i2, fun e => (by cases e)⟩
          · exact go g' i1 i2 (i3 rfl)

end Verif.Simp
