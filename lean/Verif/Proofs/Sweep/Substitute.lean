import Verif.Proofs.Sweep.Core

/-!
# Substituting equivalent literals
-/

namespace Verif.Simp

open Verif.Spec Verif.Model Verif.Congruence

variable {orig : List (List Nat)} {s0 : State}

/-- The binary clause with the literals `a` and `b`. -/
def Pair (s : State) (a b : Nat) : Prop := ∃ c, s.irr c ∧ ∀ m, m ∈ c ↔ m = a ∨ m = b

theorem Pair.symm {s : State} {a b : Nat} (h : Pair s a b) : Pair s b a := by
  obtain ⟨c, h1, h2⟩ := h
  exact ⟨c, h1, fun m => (h2 m).trans Or.comm⟩

theorem Pair.imp {s : State} {a b : Nat} (h : Pair s a b) : Imp s.irr [neg a] b := by
  obtain ⟨c, h1, h2⟩ := h
  refine Imp.clause h1 ((h2 b).2 (Or.inr rfl)) fun m hm hne => ?_
  rcases (h2 m).1 hm with rfl | rfl
  · exact Imp.mem (by simp)
  · exact absurd rfl hne

theorem Pair.mono {s s' : State} {a b : Nat} (h : Pair s a b) (hs : ∀ c, s.irr c → s'.irr c) : Pair s' a b := by
  obtain ⟨c, h1, h2⟩ := h
  exact ⟨c, hs c h1, h2⟩

theorem Pair.garbage {s : State} {a b r : Nat} (h : Pair s a b) (hg : r < s.arena.length)
    (hne : ¬ ∀ m, m ∈ (s.clause r).lits ↔ m = a ∨ m = b) : Pair (s.markGarbage r) a b := by
  obtain ⟨c, h1, h2⟩ := h
  rcases irr_or_garbage hg h1 with h | h
  · exact ⟨c, h, h2⟩
  · rw [h] at h2; exact absurd h2 hne

/-- The literals are equivalent. -/
structure Merged (s : State) (lit repr : Nat) : Prop where
  one : Pair s lit (neg repr)
  two : Pair s (neg lit) repr

theorem Merged.mono {s s' : State} {lit repr : Nat} (h : Merged s lit repr) (hs : ∀ c, s.irr c → s'.irr c) : Merged s' lit repr :=
  ⟨h.one.mono hs, h.two.mono hs⟩

theorem Merged.neg {s : State} {lit repr : Nat} (h : Merged s lit repr) : Merged s (Spec.neg lit) (Spec.neg repr) :=
  ⟨by rw [neg_neg]; exact h.two, by rw [neg_neg]; exact h.one⟩

theorem Merged.symm {s : State} {lit repr : Nat} (h : Merged s lit repr) : Merged s repr lit := ⟨h.two.symm, h.one.symm⟩

theorem Merged.imp1 {s : State} {lit repr : Nat} (h : Merged s lit repr) : Imp s.irr [repr] lit := by
  have := h.one.symm.imp
  rwa [neg_neg] at this

theorem Merged.imp2 {s : State} {lit repr : Nat} (h : Merged s lit repr) : Imp s.irr [Spec.neg lit] (Spec.neg repr) := h.one.imp

/-- What the loop over watches keeps. -/
structure SubstituteStep (orig : List (List Nat)) (s0 : State) (lit repr : Nat) (s s' : State) : Prop where
  swept : Swept orig s0 [] s'
  sub : Sub s.irr s'.irr
  merged : Merged s' lit repr
  consistent : s'.inconsistent = false

/-- What holds if the loop goes on. -/
structure Goes (s s' : State) : Prop where
  values : s'.values = s.values
  length : s.arena.length ≤ s'.arena.length
  kept : ∀ k, k < s.arena.length → (s'.clause k).garbage = false → s'.clause k = s.clause k

theorem Goes.refl (s : State) : Goes s s := ⟨rfl, Nat.le_refl _, fun _ _ _ => rfl⟩

theorem goes_garbage {s : State} {r : Nat} (hr : r < s.arena.length) : Goes s (s.markGarbage r) := by
  refine ⟨rfl, ?_, fun k hk hg => ?_⟩
  · show _ ≤ (s.arena.set r _).length
    rw [List.length_set]; exact Nat.le_refl _
  · rw [clause_garbage hr] at hg ⊢
    by_cases e : k = r
    · rw [if_pos e] at hg; cases hg
    · rw [if_neg e]

theorem goes_new {s : State} {c : List Nat} {red : Bool} : Goes s (s.newClause c red) := by
  refine ⟨rfl, ?_, fun k hk hg => ?_⟩
  · show _ ≤ (s.arena ++ _).length
    rw [List.length_append]; omega
  · rw [clause_new, if_neg (by omega)]

theorem Goes.trans {a b c : State} (h : Goes a b) (h' : Goes b c) : Goes a c :=
  ⟨h'.values.trans h.values, Nat.le_trans h.length h'.length, fun k hk hg => by
    have h1 := h'.kept k (Nat.lt_of_lt_of_le hk h.length) hg
    rw [h1] at hg ⊢
    exact h.kept k hk hg⟩

/-- Replacing a clause. -/
theorem substitute_replace {s : State} {lit repr r : Nat} {d : List Nat} (h : Swept orig s0 [] s) (hi : s.inconsistent = false)
    (hM : Merged s lit repr) (hlr : lit / 2 ≠ repr / 2) (hg : (s.clause r).garbage = false) (hred : (s.clause r).redundant = false)
    (hl : lit ∈ (s.clause r).lits) (hne : ¬ ∀ m, m ∈ (s.clause r).lits ↔ m = lit ∨ m = neg repr)
    (hrr : s.InRange repr) (hrm : s.removed (repr / 2) = false) (hr : repr ∈ d)
    (h1 : ∀ m ∈ d, m = repr ∨ m ∈ (s.clause r).lits ∧ m ≠ lit ∧ m ≠ neg repr)
    (h2 : ∀ m ∈ (s.clause r).lits, m = lit ∨ m = repr ∨ m ∈ d ∨ s.values m < 0) (hn : d.Nodup) (hsz : 2 ≤ d.length) :
    SubstituteStep orig s0 lit repr s ((s.newClause d (s.clause r).redundant).markGarbage r) ∧
      Goes s ((s.newClause d (s.clause r).redundant).markGarbage r) := by
  have hS := h.inv.inv.struct
  have hirr : s.irr (s.clause r).lits := clause_irr hg hred
  have hlt := clause_lt hg
  rw [hred]
  have hbot : Bot (base s []) (d.map neg) := by
    refine Bot.clause (Or.inl hirr) fun m hm => ?_
    rcases h2 m hm with rfl | rfl | h | h
    · refine ((hM.symm.imp2).sub sub_base).weaken fun b hb => ?_
      rw [List.mem_singleton.1 hb]; exact List.mem_map_of_mem hr
    · exact Imp.mem (List.mem_map_of_mem hr)
    · exact Imp.mem (List.mem_map_of_mem h)
    · exact Imp.unit (base_neg hS h)
  have hnew := h.new (c := d)
    (fun l hl => by
      rcases h1 l hl with rfl | h
      · exact hrr
      · exact hS.clause r hg l h.1) hn
    (fun l hl hl' => by
      rcases h1 l hl with rfl | ⟨a1, a2, a3⟩
      · rcases h1 _ hl' with e | ⟨b1, b2, b3⟩
        · exact neg_ne l e
        · exact b3 rfl
      · rcases h1 _ hl' with e | ⟨b1, b2, b3⟩
        · exact a3 (by rw [← e, neg_neg])
        · exact hS.taut r hg l a1 b1) hsz
    (fun l hl => by
      rcases h1 l hl with rfl | h
      · exact hrm
      · exact hS.removed r hg hred l h.1) hbot
  have hM' : Merged (s.newClause d false) lit repr := hM.mono fun c hc => irr_new.2 (Or.inr hc)
  have hcr : (s.newClause d false).clause r = s.clause r := by rw [clause_new, if_neg (by omega)]
  have hgr : ((s.newClause d false).clause r).garbage = false := by rw [hcr]; exact hg
  have hlt' := clause_lt hgr
  have hM2 : Merged ((s.newClause d false).markGarbage r) lit repr := by
    refine ⟨hM'.one.garbage hlt' (by rw [hcr]; exact hne), hM'.two.garbage hlt' ?_⟩
    rw [hcr]
    intro h
    rcases (h lit).1 hl with e | e
    · exact neg_ne lit e.symm
    · exact hlr (by rw [e])
  have hsub : ∀ c, s.irr c → ((s.newClause d false).markGarbage r).irr c ∨ c = (s.clause r).lits := fun c hc => by
    have := irr_or_garbage hlt' (irr_new.2 (Or.inr hc) : (s.newClause d false).irr c)
    rwa [hcr] at this
  have hd : ((s.newClause d false).markGarbage r).irr d := by
    refine (irr_garbage hlt').2 (Or.inr ⟨s.arena.length, by omega, ?_⟩)
    rw [clause_new, if_pos rfl]
    exact ⟨rfl, rfl, rfl⟩
  have hneg : ∀ m, s.values m < 0 → ((s.newClause d false).markGarbage r).irr [neg m] := fun m hm => by
    obtain ⟨l, a, b⟩ | ⟨k, h1, h2, h3⟩ := hS.neg_irr hm
    · exact Or.inl ⟨l, a, b⟩
    · exact Or.inl ⟨neg m, (hS.trail _).2 (by rw [hS.neg]; omega), rfl⟩
  have habs : Absorbed ((s.newClause d false).markGarbage r).irr (s.clause r).lits :=
    absorbed_substituted hd hr (fun m hm => (h1 m hm).imp id fun h => ⟨h.1, h.2.1⟩)
      (fun m hm => (h2 m hm).imp id (Or.imp id (Or.imp id (hneg m)))) hl hM2.imp1 hM2.imp2
  refine ⟨⟨hnew.garbage hi hgr (by rw [hcr]; exact habs.entails), ?_, hM2, hi⟩, (goes_new).trans (goes_garbage hlt')⟩
  intro c hc
  rcases hsub c hc with h | rfl
  · exact absorbed_clause h fun _ h => h
  · exact habs

/-- Removing a clause. -/
theorem substitute_remove {s : State} {lit repr r : Nat} (h : Swept orig s0 [] s) (hi : s.inconsistent = false)
    (hM : Merged s lit repr) (hlr : lit / 2 ≠ repr / 2) (hg : (s.clause r).garbage = false)
    (hl : lit ∈ (s.clause r).lits) (hne : ¬ ∀ m, m ∈ (s.clause r).lits ↔ m = lit ∨ m = neg repr)
    (hs : neg repr ∈ (s.clause r).lits ∨ ∃ o ∈ (s.clause r).lits, 0 < s.values o) :
    SubstituteStep orig s0 lit repr s (s.markGarbage r) ∧ Goes s (s.markGarbage r) := by
  have hS := h.inv.inv.struct
  have hlt := clause_lt hg
  have hM2 : Merged (s.markGarbage r) lit repr := by
    refine ⟨hM.one.garbage hlt hne, hM.two.garbage hlt ?_⟩
    intro h
    rcases (h lit).1 hl with e | e
    · exact neg_ne lit e.symm
    · exact hlr (by rw [e])
  have habs : Absorbed (s.markGarbage r).irr (s.clause r).lits := by
    rcases hs with hs | ⟨o, ho, hv⟩
    · obtain ⟨c, c1, c2⟩ := hM2.one
      refine absorbed_clause c1 fun m hm => ?_
      rcases (c2 m).1 hm with rfl | rfl
      · exact hl
      · exact hs
    · exact absorbed_unit ho (Or.inl ⟨o, (hS.trail o).2 hv, rfl⟩)
  refine ⟨⟨h.garbage hi hg habs.entails, ?_, hM2, hi⟩, goes_garbage hlt⟩
  intro c hc
  rcases irr_or_garbage hlt hc with h | rfl
  · exact absorbed_clause h fun _ h => h
  · exact habs

theorem SubstituteStep.refl {s : State} {lit repr : Nat} (h : Swept orig s0 [] s) (hi : s.inconsistent = false)
    (hM : Merged s lit repr) : SubstituteStep orig s0 lit repr s s := ⟨h, .refl _, hM, hi⟩

theorem substitute_unit {s : State} {lit repr u : Nat} (h : Swept orig s0 [] s) (hi : s.inconsistent = false)
    (hM : Merged s lit repr) (hv : s.values u = 0) (hr : s.InRange u) (hrm : s.removed (u / 2) = false)
    (hb : Bot s.irr [neg u]) : SubstituteStep orig s0 lit repr s (s.learnedUnit u) :=
  ⟨h.unit hv hr hrm (hb.sub sub_base), .of_le (.of_sub fun _ hc => irr_learnedUnit.2 (Or.inr hc)),
    hM.mono fun _ hc => irr_learnedUnit.2 (Or.inr hc), hi⟩

theorem sweepBinary_ok {s : State} {lit repr r other : Nat} (h : Swept orig s0 [] s) (hi : s.inconsistent = false)
    (hM : Merged s lit repr) (hlr : lit / 2 ≠ repr / 2) (hg : (s.clause r).garbage = false) (hred : (s.clause r).redundant = false)
    (hl : lit ∈ (s.clause r).lits) (hb : s.binaryOther lit r = some other) (hv : s.values lit = 0)
    (hrr : s.InRange repr) (hrm : s.removed (repr / 2) = false) :
    SubstituteStep orig s0 lit repr s (s.sweepBinary lit repr r other).1 ∧
      ((s.sweepBinary lit repr r other).2 = true → Goes s (s.sweepBinary lit repr r other).1) := by
  obtain ⟨b1, b2, b3⟩ := binaryOther_some hb
  have hmem : ∀ m ∈ (s.clause r).lits, m = lit ∨ m = other := fun m hm => binary_lits b1 hl b2 b3 hm
  have hS := h.inv.inv.struct
  unfold State.sweepBinary
  by_cases c1 : other = neg repr
  · rw [if_pos c1]; exact ⟨.refl h hi hM, fun _ => .refl _⟩
  · rw [if_neg c1]
    by_cases c2 : s.values other < 0
    · rw [if_pos c2]; exact ⟨.refl h hi hM, fun _ => .refl _⟩
    · rw [if_neg c2]
      by_cases c3 : s.values other > 0
      · rw [if_pos c3]; exact ⟨.refl h hi hM, fun _ => .refl _⟩
      · rw [if_neg c3]
        by_cases c4 : other = repr
        · rw [if_pos c4]
          refine ⟨substitute_unit h hi hM hv (hS.clause r hg lit hl) (hS.removed r hg hred lit hl) ?_, by simp⟩
          refine Bot.clause (clause_irr hg hred) fun m hm => ?_
          rcases hmem m hm with rfl | rfl
          · exact Imp.mem (by simp)
          · rw [c4]; exact hM.imp2
        · rw [if_neg c4]
          have := substitute_replace (d := [repr, other]) h hi hM hlr hg hred hl
            (fun h => by
              rcases hmem _ ((h (neg repr)).2 (Or.inr rfl)) with e | e
              · exact hlr (by rw [← e, neg_div])
              · exact c1 e.symm) hrr hrm (by simp)
            (fun m hm => by
              simp only [List.mem_cons, List.not_mem_nil, or_false] at hm
              rcases hm with rfl | rfl
              · exact Or.inl rfl
              · exact Or.inr ⟨b2, b3, c1⟩)
            (fun m hm => by
              rcases hmem m hm with rfl | rfl
              · exact Or.inl rfl
              · exact Or.inr (Or.inr (Or.inl (by simp))))
            (by simp; exact fun e => c4 e.symm) (by simp)
          rw [hred] at this
          exact ⟨this.1, fun _ => this.2⟩

/-- What the loop over the literals computes. -/
theorem sweepLits_none {s : State} {lit repr : Nat} : ∀ {c : List Nat}, s.sweepLits lit repr c = none →
    neg repr ∈ c ∨ ∃ o ∈ c, 0 < s.values o
  | [], h => by cases h
  | o :: c, h => by
    have more : s.sweepLits lit repr c = none → neg repr ∈ o :: c ∨ ∃ p ∈ o :: c, 0 < s.values p := fun h => by
      rcases sweepLits_none h with h | ⟨p, h1, h2⟩
      · exact Or.inl (List.mem_cons_of_mem _ h)
      · exact Or.inr ⟨p, List.mem_cons_of_mem _ h1, h2⟩
    unfold State.sweepLits at h
    by_cases c1 : o = lit
    · rw [if_pos c1] at h
      exact more (by cases e : s.sweepLits lit repr c <;> simp_all)
    · rw [if_neg c1] at h
      by_cases c2 : o = repr
      · rw [if_pos c2] at h; exact more h
      · rw [if_neg c2] at h
        by_cases c3 : o = neg repr
        · exact Or.inl (by simp [c3])
        · rw [if_neg c3] at h
          by_cases c4 : s.values o < 0
          · rw [if_pos c4] at h; exact more h
          · rw [if_neg c4] at h
            by_cases c5 : s.values o > 0
            · exact Or.inr ⟨o, by simp, c5⟩
            · rw [if_neg c5] at h
              exact more (by cases e : s.sweepLits lit repr c <;> simp_all)

/-- What the loop over the literals computes. -/
structure LitsOk (s : State) (lit repr : Nat) (c d : List Nat) : Prop where
  from_ : ∀ m ∈ d, m = repr ∨ m ∈ c ∧ m ≠ lit ∧ m ≠ neg repr ∧ m ≠ repr ∧ s.values m = 0
  all : ∀ m ∈ c, m = lit ∨ m = repr ∨ m ∈ d ∨ s.values m < 0
  has : repr ∈ d ↔ lit ∈ c
  nodup : c.Nodup → d.Nodup

theorem LitsOk.cons_lit {s : State} {lit repr : Nat} {c d : List Nat} (h : LitsOk s lit repr c d) :
    LitsOk s lit repr (lit :: c) (repr :: d) where
  from_ := fun m hm => by
    rcases List.mem_cons.1 hm with h1 | h1
    · exact Or.inl h1
    · exact (h.from_ m h1).imp id fun h => ⟨List.mem_cons_of_mem _ h.1, h.2⟩
  all := fun m hm => by
    rcases List.mem_cons.1 hm with h1 | h1
    · exact Or.inl h1
    · exact (h.all m h1).imp id (Or.imp id (Or.imp (List.mem_cons_of_mem _) id))
  has := by simp
  nodup := fun hn => by
    rw [List.nodup_cons] at hn ⊢
    exact ⟨fun h1 => hn.1 (h.has.1 h1), h.nodup hn.2⟩

theorem LitsOk.skip {s : State} {lit repr o : Nat} {c d : List Nat} (h : LitsOk s lit repr c d) (ho : o ≠ lit)
    (hs : o = repr ∨ s.values o < 0) : LitsOk s lit repr (o :: c) d where
  from_ := fun m hm => (h.from_ m hm).imp id fun h => ⟨List.mem_cons_of_mem _ h.1, h.2⟩
  all := fun m hm => by
    rcases List.mem_cons.1 hm with rfl | h1
    · rcases hs with h | h
      · exact Or.inr (Or.inl h)
      · exact Or.inr (Or.inr (Or.inr h))
    · exact h.all m h1
  has := by rw [h.has, List.mem_cons]; simp [Ne.symm ho]
  nodup := fun hn => h.nodup (List.nodup_cons.1 hn).2

theorem LitsOk.keep {s : State} {lit repr o : Nat} {c d : List Nat} (h : LitsOk s lit repr c d) (h1 : o ≠ lit) (h2 : o ≠ repr)
    (h3 : o ≠ neg repr) (h4 : s.values o = 0) : LitsOk s lit repr (o :: c) (o :: d) where
  from_ := fun m hm => by
    rcases List.mem_cons.1 hm with rfl | h5
    · exact Or.inr ⟨by simp, h1, h3, h2, h4⟩
    · exact (h.from_ m h5).imp id fun h => ⟨List.mem_cons_of_mem _ h.1, h.2⟩
  all := fun m hm => by
    rcases List.mem_cons.1 hm with rfl | h5
    · exact Or.inr (Or.inr (Or.inl (by simp)))
    · exact (h.all m h5).imp id (Or.imp id (Or.imp (List.mem_cons_of_mem _) id))
  has := by rw [List.mem_cons, List.mem_cons, h.has]; simp [Ne.symm h1, Ne.symm h2]
  nodup := fun hn => by
    rw [List.nodup_cons] at hn ⊢
    refine ⟨fun h5 => ?_, h.nodup hn.2⟩
    rcases h.from_ o h5 with e | e
    · exact h2 e
    · exact hn.1 e.1

theorem sweepLits_some {s : State} {lit repr : Nat} : ∀ {c d : List Nat}, s.sweepLits lit repr c = some d → LitsOk s lit repr c d
  | [], d, h => by
    cases h
    exact ⟨by simp, by simp, by simp, by simp⟩
  | o :: c, d, h => by
    unfold State.sweepLits at h
    by_cases c1 : o = lit
    · rw [if_pos c1] at h
      cases e : s.sweepLits lit repr c with
      | none => rw [e] at h; cases h
      | some d' =>
        rw [e] at h
        cases h
        rw [c1]; exact (sweepLits_some e).cons_lit
    · rw [if_neg c1] at h
      by_cases c2 : o = repr
      · rw [if_pos c2] at h; exact (sweepLits_some h).skip c1 (Or.inl c2)
      · rw [if_neg c2] at h
        by_cases c3 : o = neg repr
        · rw [if_pos c3] at h; cases h
        · rw [if_neg c3] at h
          by_cases c4 : s.values o < 0
          · rw [if_pos c4] at h; exact (sweepLits_some h).skip c1 (Or.inr c4)
          · rw [if_neg c4] at h
            by_cases c5 : s.values o > 0
            · rw [if_pos c5] at h; cases h
            · rw [if_neg c5] at h
              cases e : s.sweepLits lit repr c with
              | none => rw [e] at h; cases h
              | some d' =>
                rw [e] at h
                cases h
                exact (sweepLits_some e).keep c1 c2 c3 (by omega)

theorem sweepLarge_ok {s : State} {lit repr r : Nat} (h : Swept orig s0 [] s) (hi : s.inconsistent = false)
    (hM : Merged s lit repr) (hlr : lit / 2 ≠ repr / 2) (hg : (s.clause r).garbage = false) (hred : (s.clause r).redundant = false)
    (hl : lit ∈ (s.clause r).lits) (hlen : (s.clause r).lits.length ≠ 2) (hvr : s.values repr = 0)
    (hrr : s.InRange repr) (hrm : s.removed (repr / 2) = false) :
    SubstituteStep orig s0 lit repr s (s.sweepLarge lit repr r).1 ∧
      ((s.sweepLarge lit repr r).2 = true → Goes s (s.sweepLarge lit repr r).1) := by
  have hS := h.inv.inv.struct
  have hne : ¬ ∀ m, m ∈ (s.clause r).lits ↔ m = lit ∨ m = neg repr := by
    intro hm
    have h2 := hS.size r hg
    have hn := hS.nodup r hg
    match hc : (s.clause r).lits, hlen, h2 with
    | [x, y], h, _ => simp at h
    | x :: y :: z :: c, _, _ =>
      rw [hc] at hm hn
      have hx := (hm x).1 (by simp)
      have hy := (hm y).1 (by simp)
      have hz := (hm z).1 (by simp)
      simp at hn
      omega
  unfold State.sweepLarge
  cases e : s.sweepLits lit repr (s.clause r).lits with
  | none =>
    have := substitute_remove h hi hM hlr hg hl hne (sweepLits_none e)
    exact ⟨this.1, fun _ => this.2⟩
  | some d =>
    have hL := sweepLits_some e
    have hr := hL.has.2 hl
    match d, hL, hr with
    | [u], hL, hr =>
      dsimp only
      have hu : repr = u := List.mem_singleton.1 hr
      subst hu
      refine ⟨substitute_unit h hi hM hvr hrr hrm ?_, by simp⟩
      refine Bot.clause (clause_irr hg hred) fun m hm => ?_
      rcases hL.all m hm with rfl | rfl | h1 | h1
      · exact hM.symm.imp2
      · exact Imp.mem (by simp)
      · rw [List.mem_singleton.1 h1]; exact Imp.mem (by simp)
      · exact Imp.unit (hS.neg_irr h1)
    | a :: b :: d, hL, hr =>
      dsimp only
      have := substitute_replace h hi hM hlr hg hred hl hne hrr hrm hr
        (fun m hm => (hL.from_ m hm).imp id fun h => ⟨h.1, h.2.1, h.2.2.1⟩) hL.all (hL.nodup (hS.nodup r hg)) (by simp)
      exact ⟨this.1, fun _ => this.2⟩

theorem sweepWatches_ok {lit repr : Nat} (hlr : lit / 2 ≠ repr / 2) : ∀ (rs : List Nat) {s : State}, Swept orig s0 [] s →
    s.inconsistent = false → Merged s lit repr → s.values lit = 0 → s.values repr = 0 → s.InRange repr →
    s.removed (repr / 2) = false →
    (∀ r ∈ rs, r < s.arena.length ∧ ((s.clause r).garbage = false → (s.clause r).redundant = false ∧ lit ∈ (s.clause r).lits)) →
    SubstituteStep orig s0 lit repr s (s.sweepWatches lit repr rs)
  | [], s, h, hi, hM, _, _, _, _, _ => .refl h hi hM
  | r :: rs, s, h, hi, hM, hv, hvr, hrr, hrm, hrs => by
    unfold State.sweepWatches
    by_cases hg : (s.clause r).garbage = true
    · rw [if_pos hg]
      exact sweepWatches_ok hlr rs h hi hM hv hvr hrr hrm fun k hk => hrs k (List.mem_cons_of_mem _ hk)
    · rw [if_neg hg]
      have hg : (s.clause r).garbage = false := by simpa using hg
      obtain ⟨_, h2⟩ := hrs r (by simp)
      obtain ⟨hred, hl⟩ := h2 hg
      have key : ∀ {p : State × Bool}, SubstituteStep orig s0 lit repr s p.1 ∧ (p.2 = true → Goes s p.1) →
          SubstituteStep orig s0 lit repr s (match p with
            | (s, true) => s.sweepWatches lit repr rs
            | (s, false) => s) := by
        rintro ⟨s', b⟩ ⟨k1, k2⟩
        cases b with
        | false => exact k1
        | true =>
          have k2 := k2 rfl
          have e1 : s'.exports = s.exports := k1.swept.exports.trans h.exports.symm
          have e2 : s'.removed = s.removed := k1.swept.removed.trans h.removed.symm
          have := sweepWatches_ok hlr rs k1.swept k1.consistent k1.merged (by rw [k2.values]; exact hv) (by rw [k2.values]; exact hvr)
            (by unfold State.InRange; rw [e1]; exact hrr) (by rw [e2]; exact hrm) fun k hk => by
              obtain ⟨a, b⟩ := hrs k (List.mem_cons_of_mem _ hk)
              refine ⟨Nat.lt_of_lt_of_le a k2.length, fun hgk => ?_⟩
              have := k2.kept k a hgk
              rw [this] at hgk ⊢
              exact b hgk
          exact ⟨this.swept, k1.sub.trans this.sub, this.merged, this.consistent⟩
      cases hb : s.binaryOther lit r with
      | some other => exact key (sweepBinary_ok h hi hM hlr hg hred hl hb hv hrr hrm)
      | none =>
        refine key (sweepLarge_ok h hi hM hlr hg hred hl ?_ hvr hrr hrm)
        intro hlen
        unfold State.binaryOther at hb
        rw [if_pos hlen, List.find?_eq_none] at hb
        have hn := hS_nodup h hg
        match hc : (s.clause r).lits, hlen with
        | [x, y], _ =>
          rw [hc] at hb hn
          have hx := hb x (by simp)
          have hy := hb y (by simp)
          simp at hx hy hn
          omega
where
  hS_nodup {s : State} {r : Nat} (h : Swept orig s0 [] s) (hg : (s.clause r).garbage = false) : (s.clause r).lits.Nodup :=
    h.inv.inv.struct.nodup r hg

end Verif.Simp
