import Verif.Proofs.Simp.SubstituteRound

/-!
# Equivalent literal substitution: large clauses
-/

namespace Verif.Simp

open Verif.Spec Verif.Model Verif.Model.Extend

theorem substituted_some {s : State} {repr : Nat → Nat} : ∀ (lits marks : List Nat) (changed : Bool) {c : List Nat} {ch : Bool},
    s.substituted repr lits marks changed = some (c, ch) →
    (∀ m ∈ marks, m ∈ c) ∧ (∀ m ∈ c, m ∈ marks ∨ (s.values m = 0 ∧ ∃ l ∈ lits, repr l = m)) ∧
    (∀ l ∈ lits, s.values l < 0 ∨ s.values (repr l) < 0 ∨ repr l ∈ c) ∧
    (marks.Nodup → (∀ m ∈ marks, Spec.neg m ∉ marks) → c.Nodup ∧ ∀ m ∈ c, Spec.neg m ∉ c) ∧
    (ch = false → changed = false ∧ ∀ l ∈ lits, repr l = l)
  | [], marks, changed, c, ch, h => by
    unfold State.substituted at h
    cases h
    refine ⟨fun m hm => List.mem_reverse.2 hm, fun m hm => Or.inl (List.mem_reverse.1 hm), fun l hl => (by cases hl),
      fun h1 h2 => ⟨List.pairwise_reverse.2 (h1.imp fun h => h.symm), fun m hm hm' =>
        h2 m (List.mem_reverse.1 hm) (List.mem_reverse.1 hm')⟩, fun h => ⟨h, fun l hl => (by cases hl)⟩⟩
  | lit :: rest, marks, changed, c, ch, h => by
    unfold State.substituted at h
    have drop : (s.values lit < 0 ∨ s.values (repr lit) < 0 ∨ repr lit ∈ marks) →
        s.substituted repr rest marks true = some (c, ch) → (∀ m ∈ marks, m ∈ c) ∧
        (∀ m ∈ c, m ∈ marks ∨ (s.values m = 0 ∧ ∃ l ∈ lit :: rest, repr l = m)) ∧
        (∀ l ∈ lit :: rest, s.values l < 0 ∨ s.values (repr l) < 0 ∨ repr l ∈ c) ∧
        (marks.Nodup → (∀ m ∈ marks, Spec.neg m ∉ marks) → c.Nodup ∧ ∀ m ∈ c, Spec.neg m ∉ c) ∧
        (ch = false → changed = false ∧ ∀ l ∈ lit :: rest, repr l = l) := by
      intro hv h
      obtain ⟨i1, i2, i3, i4, i5⟩ := substituted_some rest marks true h
      refine ⟨i1, fun m hm => ?_, fun l hl => ?_, i4, fun hh => ?_⟩
      · rcases i2 m hm with h1 | ⟨h1, l, h2, h3⟩
        · exact Or.inl h1
        · exact Or.inr ⟨h1, l, List.mem_cons_of_mem _ h2, h3⟩
      · rcases List.mem_cons.1 hl with e | hl
        · rw [e]
          exact hv.imp (fun h => h) fun hv => hv.imp (fun h => h) fun h => i1 _ h
        · exact i3 l hl
      · cases (i5 hh).1
    by_cases c1 : s.values lit < 0
    · rw [if_pos c1] at h
      exact drop (Or.inl c1) h
    rw [if_neg c1] at h
    by_cases c2 : s.values lit > 0
    · rw [if_pos c2] at h; cases h
    rw [if_neg c2] at h
    by_cases c3 : s.values (repr lit) < 0
    · rw [if_pos c3] at h
      exact drop (Or.inr (Or.inl c3)) h
    rw [if_neg c3] at h
    by_cases c4 : s.values (repr lit) > 0
    · rw [if_pos c4] at h; cases h
    rw [if_neg c4] at h
    by_cases c5 : marks.contains (repr lit) = true
    · rw [if_pos c5] at h
      exact drop (Or.inr (Or.inr (by simpa using c5))) h
    rw [if_neg c5] at h
    by_cases c6 : marks.contains (Spec.neg (repr lit)) = true
    · rw [if_pos c6] at h; cases h
    rw [if_neg c6] at h
    have c5 : repr lit ∉ marks := by simpa using c5
    have c6 : Spec.neg (repr lit) ∉ marks := by simpa using c6
    obtain ⟨i1, i2, i3, i4, i5⟩ := substituted_some rest (repr lit :: marks) (changed || decide (lit ≠ repr lit)) h
    refine ⟨fun m hm => i1 m (List.mem_cons_of_mem _ hm), fun m hm => ?_, fun l hl => ?_, fun h1 h2 => ?_, fun hh => ?_⟩
    · rcases i2 m hm with h1 | ⟨h1, l, h2, h3⟩
      · rcases List.mem_cons.1 h1 with e | h1
        · exact Or.inr ⟨by rw [e]; omega, lit, by simp, e.symm⟩
        · exact Or.inl h1
      · exact Or.inr ⟨h1, l, List.mem_cons_of_mem _ h2, h3⟩
    · rcases List.mem_cons.1 hl with e | hl
      · rw [e]; exact Or.inr (Or.inr (i1 _ (by simp)))
      · exact i3 l hl
    · refine i4 (List.nodup_cons.2 ⟨c5, h1⟩) fun m hm hm' => ?_
      rcases List.mem_cons.1 hm with e | hm
      · rw [e] at hm'
        rcases List.mem_cons.1 hm' with e' | hm'
        · exact neg_ne _ e'
        · exact c6 hm'
      · rcases List.mem_cons.1 hm' with e' | hm'
        · rw [← e', neg_neg] at c6; exact c6 hm
        · exact h2 m hm hm'
    · obtain ⟨j1, j2⟩ := i5 hh
      rw [Bool.or_eq_false_iff] at j1
      refine ⟨j1.1, fun l hl => ?_⟩
      rcases List.mem_cons.1 hl with e | hl
      · rw [e]
        have := j1.2
        simp only [ne_eq, decide_not, Bool.not_eq_false', decide_eq_true_eq] at this
        exact this.symm
      · exact j2 l hl

theorem substituted_none {s : State} {repr : Nat → Nat} : ∀ (lits marks : List Nat) (changed : Bool),
    s.substituted repr lits marks changed = none →
    ∃ l ∈ lits, 0 < s.values l ∨ 0 < s.values (repr l) ∨ Spec.neg (repr l) ∈ marks ∨ ∃ k ∈ lits, Spec.neg (repr l) = repr k
  | [], _, _, h => by unfold State.substituted at h; cases h
  | lit :: rest, marks, changed, h => by
    unfold State.substituted at h
    have drop : ∀ ch, s.substituted repr rest marks ch = none →
        ∃ l ∈ lit :: rest, 0 < s.values l ∨ 0 < s.values (repr l) ∨ Spec.neg (repr l) ∈ marks ∨
          ∃ k ∈ lit :: rest, Spec.neg (repr l) = repr k := by
      intro ch h
      obtain ⟨l, l1, l2⟩ := substituted_none rest marks ch h
      refine ⟨l, List.mem_cons_of_mem _ l1, ?_⟩
      rcases l2 with l2 | l2 | l2 | ⟨k, k1, k2⟩
      · exact Or.inl l2
      · exact Or.inr (Or.inl l2)
      · exact Or.inr (Or.inr (Or.inl l2))
      · exact Or.inr (Or.inr (Or.inr ⟨k, List.mem_cons_of_mem _ k1, k2⟩))
    by_cases c1 : s.values lit < 0
    · rw [if_pos c1] at h
      exact drop _ h
    rw [if_neg c1] at h
    by_cases c2 : s.values lit > 0
    · exact ⟨lit, by simp, Or.inl c2⟩
    rw [if_neg c2] at h
    by_cases c3 : s.values (repr lit) < 0
    · rw [if_pos c3] at h
      exact drop _ h
    rw [if_neg c3] at h
    by_cases c4 : s.values (repr lit) > 0
    · exact ⟨lit, by simp, Or.inr (Or.inl c4)⟩
    rw [if_neg c4] at h
    by_cases c5 : marks.contains (repr lit) = true
    · rw [if_pos c5] at h
      exact drop _ h
    rw [if_neg c5] at h
    by_cases c6 : marks.contains (Spec.neg (repr lit)) = true
    · exact ⟨lit, by simp, Or.inr (Or.inr (Or.inl (by simpa using c6)))⟩
    rw [if_neg c6] at h
    obtain ⟨l, l1, l2⟩ := substituted_none rest (repr lit :: marks) _ h
    refine ⟨l, List.mem_cons_of_mem _ l1, ?_⟩
    rcases l2 with l2 | l2 | l2 | ⟨k, k1, k2⟩
    · exact Or.inl l2
    · exact Or.inr (Or.inl l2)
    · rcases List.mem_cons.1 l2 with e | l2
      · exact Or.inr (Or.inr (Or.inr ⟨lit, by simp, e⟩))
      · exact Or.inr (Or.inr (Or.inl l2))
    · exact Or.inr (Or.inr (Or.inr ⟨k, List.mem_cons_of_mem _ k1, k2⟩))

/-! ## The loop -/

/-- Result of substituting large clauses. -/
structure COut (repr : Nat → Nat) (s s' : State) (rs units delayed : List Nat) : Prop where
  toState : s'.toState = s.toState
  trail : s'.trail = s.trail
  removed : s'.removed = s.removed
  length : s.arena.length ≤ s'.arena.length
  old : ∀ r, r < s.arena.length → (r ∉ rs ∨ (s.clause r).lits.length = 2) → s'.clause r = s.clause r
  keep : ∀ r, r < s.arena.length → s'.clause r = s.clause r ∨ (s'.clause r).garbage = true
  why : ∀ u ∈ units, s.values u = 0 ∧ ∃ r ∈ delayed, (∃ l ∈ (s.clause r).lits, repr l = u) ∧
    (∀ l ∈ (s.clause r).lits, s.removed (l / 2) = false) ∧
    ∀ l ∈ (s.clause r).lits, s.values l < 0 ∨ s.values (repr l) < 0 ∨ repr l = u
  del : ∀ r ∈ delayed, r ∈ rs ∧ s'.clause r = s.clause r ∧ (s.clause r).garbage = false ∧
    (s.clause r).lits.length ≠ 2 ∧ ∃ u ∈ units, ∃ l ∈ (s.clause r).lits, repr l = u
  nodup : delayed.Nodup
  cover : ∀ r ∈ rs, (s'.clause r).garbage = false → (s'.clause r).redundant = false →
    (s.clause r).lits.length = 2 ∨ r ∈ delayed ∨ ∀ l ∈ (s.clause r).lits, repr l = l
  new : ∀ k, s.arena.length ≤ k → k < s'.arena.length → ∀ l ∈ (s'.clause k).lits, repr l = l

theorem COut.values {repr : Nat → Nat} {s s' : State} {rs us ds : List Nat} (h : COut repr s s' rs us ds) : s'.values = s.values := by
  show s'.toState.values = s.toState.values
  rw [h.toState]

theorem COut.exports {repr : Nat → Nat} {s s' : State} {rs us ds : List Nat} (h : COut repr s s' rs us ds) : s'.exports = s.exports := by
  show s'.toState.exports = s.toState.exports
  rw [h.toState]

/-- One clause was removed, or replaced. -/
structure Replaced (repr : Nat → Nat) (r : Nat) (s s' : State) : Prop where
  toState : s'.toState = s.toState
  trail : s'.trail = s.trail
  removed : s'.removed = s.removed
  length : s.arena.length ≤ s'.arena.length
  clause : ∀ k, k < s.arena.length → k ≠ r → s'.clause k = s.clause k
  garbage : (s'.clause r).garbage = true
  new : ∀ k, s.arena.length ≤ k → k < s'.arena.length → ∀ l ∈ (s'.clause k).lits, repr l = l

theorem Replaced.values {repr : Nat → Nat} {s s' : State} {r : Nat} (h : Replaced repr r s s') : s'.values = s.values := by
  show s'.toState.values = s.toState.values
  rw [h.toState]

theorem Replaced.exports {repr : Nat → Nat} {s s' : State} {r : Nat} (h : Replaced repr r s s') : s'.exports = s.exports := by
  show s'.toState.exports = s.toState.exports
  rw [h.toState]

theorem COut.replaced {repr : Nat → Nat} {s s1 s' : State} {r : Nat} {rs us ds : List Nat} (hr : Replaced repr r s s1)
    (h : COut repr s1 s' rs us ds) (hn : r ∉ rs) (hlt : ∀ k ∈ rs, k < s.arena.length) (hlr : r < s.arena.length)
    (h2 : (s.clause r).lits.length ≠ 2) : COut repr s s' (r :: rs) us ds := by
  have cl : ∀ k ∈ rs, s1.clause k = s.clause k := fun k hk => hr.clause k (hlt k hk) (by rintro rfl; exact hn hk)
  refine ⟨h.toState.trans hr.toState, h.trail.trans hr.trail, h.removed.trans hr.removed, Nat.le_trans hr.length h.length,
    fun k hk hor => ?_, fun k hk => ?_, fun u hu => ?_, fun k hk => ?_, h.nodup, fun k hk g1 g2 => ?_, fun k k1 k2 => ?_⟩
  · have hkr : k ≠ r := by
      rintro rfl
      rcases hor with hor | hor
      · exact hor (by simp)
      · exact h2 hor
    have hc := hr.clause k hk hkr
    rw [h.old k (Nat.lt_of_lt_of_le hk hr.length) ?_, hc]
    rcases hor with hor | hor
    · exact Or.inl fun hm => hor (List.mem_cons_of_mem _ hm)
    · rw [hc]; exact Or.inr hor
  · by_cases hkr : k = r
    · rw [hkr]
      rcases h.keep r (Nat.lt_of_lt_of_le hlr hr.length) with e | e
      · right; rw [e]; exact hr.garbage
      · exact Or.inr e
    · rw [← hr.clause k hk hkr]
      exact h.keep k (Nat.lt_of_lt_of_le hk hr.length)
  · obtain ⟨u1, k, k1, k2⟩ := h.why u hu
    rw [hr.values] at u1 k2
    rw [cl k (h.del k k1).1, hr.removed] at k2
    exact ⟨u1, k, k1, k2⟩
  · obtain ⟨k1, k2⟩ := h.del k hk
    rw [cl k k1] at k2
    exact ⟨List.mem_cons_of_mem _ k1, k2⟩
  · rcases List.mem_cons.1 hk with e | hk
    · rw [e] at g1
      rw [h.old r (Nat.lt_of_lt_of_le hlr hr.length) (Or.inl hn), hr.garbage] at g1
      cases g1
    · have := h.cover k hk g1 g2
      rwa [cl k hk] at this
  · by_cases hk : k < s1.arena.length
    · rcases h.keep k hk with e | e
      · rw [e]; exact hr.new k k1 hk
      · rw [h.old k hk (Or.inl fun hm => absurd (hlt k hm) (Nat.not_lt.2 k1))]
        exact hr.new k k1 hk
    · exact h.new k (by omega) k2

theorem SInvariant.replaced {orig : List (List Nat)} {repr : Nat → Nat} {G : Nat → Prop} {s s' : State} {r : Nat}
    (h : SInvariant orig repr G s) (hi : Inv orig none s') (hc : Replaced repr r s s') (hL : ¬ G r) : SInvariant orig repr G s' :=
  ⟨hi, h.linked.mono fun c hc' => hc'.mono (fun l hl => by rw [hc.trail]; exact hl) (fun _ h => h)
      fun k hk => hc.clause k (h.ghost k hk) (by rintro rfl; exact hL hk),
    fun r hr => Nat.lt_of_lt_of_le (h.ghost r hr) hc.length,
    fun l hl => by unfold State.InRange at hl ⊢; rw [hc.exports] at hl ⊢; exact h.range l hl,
    fun l hl => by rw [hc.removed] at hl ⊢; exact h.kept l hl⟩

theorem SInvariant.substituteClauses {orig : List (List Nat)} {repr : Nat → Nat} {G : Nat → Prop}
    (hidem : ∀ l, repr (repr l) = repr l) (hneg : ∀ l, repr (Spec.neg l) = Spec.neg (repr l)) : ∀ (rs : List Nat) {s : State},
    SInvariant orig repr G s → (∀ r, G r → (s.clause r).lits.length = 2) → rs.Nodup → (∀ r ∈ rs, r < s.arena.length) →
    Inv orig none (s.substituteClauses repr rs).1 ∧
    ((s.substituteClauses repr rs).1.inconsistent = false →
      COut repr s (s.substituteClauses repr rs).1 rs (s.substituteClauses repr rs).2.1 (s.substituteClauses repr rs).2.2)
  | [], s, h, _, _, _ => ⟨h.inv, fun _ => ⟨rfl, rfl, rfl, Nat.le_refl _, fun _ _ _ => rfl, fun _ _ => Or.inl rfl,
      fun u hu => (by cases hu), fun u hu => (by cases hu), List.nodup_nil, fun u hu => (by cases hu),
      fun k h1 h2 => absurd h2 (Nat.not_lt.2 h1)⟩⟩
  | r :: rs, s, h, hG, hn, hlt => by
    obtain ⟨n1, n2⟩ := List.nodup_cons.1 hn
    have hlt' : ∀ k ∈ rs, k < s.arena.length := fun k hk => hlt k (List.mem_cons_of_mem _ hk)
    have hlr := hlt r (by simp)
    have hS := h.inv.struct
    -- the clause remains
    have skip : ((s.clause r).garbage = false → (s.clause r).redundant = false →
        (s.clause r).lits.length = 2 ∨ ∀ l ∈ (s.clause r).lits, repr l = l) →
        Inv orig none (s.substituteClauses repr rs).1 ∧
        ((s.substituteClauses repr rs).1.inconsistent = false →
          COut repr s (s.substituteClauses repr rs).1 (r :: rs) (s.substituteClauses repr rs).2.1
            (s.substituteClauses repr rs).2.2) := by
      intro hc
      obtain ⟨i1, i2⟩ := SInvariant.substituteClauses hidem hneg rs h hG n2 hlt'
      refine ⟨i1, fun hi => ?_⟩
      have i2 := i2 hi
      refine ⟨i2.toState, i2.trail, i2.removed, i2.length, fun k hk hor => i2.old k hk ?_, i2.keep, i2.why,
        fun k hk => ?_, i2.nodup, fun k hk g1 g2 => ?_, i2.new⟩
      · exact hor.imp (fun h hm => h (List.mem_cons_of_mem _ hm)) fun h => h
      · obtain ⟨k1, k2⟩ := i2.del k hk
        exact ⟨List.mem_cons_of_mem _ k1, k2⟩
      · rcases List.mem_cons.1 hk with e | hk
        · subst e
          rw [i2.old _ hlr (Or.inl n1)] at g1 g2
          rcases hc g1 g2 with h1 | h1
          · exact Or.inl h1
          · exact Or.inr (Or.inr h1)
        · exact i2.cover k hk g1 g2
    unfold State.substituteClauses
    by_cases c1 : ((s.clause r).garbage || decide ((s.clause r).lits.length = 2) ||
        (s.clause r).lits.any (fun l => s.removed (l / 2))) = true
    · rw [if_pos c1]
      refine skip fun g1 g2 => ?_
      simp only [Bool.or_eq_true, decide_eq_true_eq, List.any_eq_true] at c1
      rcases c1 with (c1 | c1) | ⟨l, l1, l2⟩
      · rw [g1] at c1; cases c1
      · exact Or.inl c1
      · rw [hS.removed r g1 g2 l l1] at l2; cases l2
    rw [if_neg c1]
    simp only [Bool.or_eq_true, decide_eq_true_eq, List.any_eq_true, not_or, not_exists, not_and, Bool.not_eq_true] at c1
    obtain ⟨⟨hg, hlen⟩, hrem⟩ := c1
    have hnG : ¬ G r := fun hr => hlen (hG r hr)
    -- the clause is removed or replaced
    have go : ∀ {s1 : State}, Inv orig none s1 → Replaced repr r s s1 →
        Inv orig none (s1.substituteClauses repr rs).1 ∧
        ((s1.substituteClauses repr rs).1.inconsistent = false →
          COut repr s (s1.substituteClauses repr rs).1 (r :: rs) (s1.substituteClauses repr rs).2.1
            (s1.substituteClauses repr rs).2.2) := by
      intro s1 hi hrep
      obtain ⟨i1, i2⟩ := SInvariant.substituteClauses hidem hneg rs (h.replaced hi hrep hnG) (fun k hk => by
        rw [hrep.clause k (h.ghost k hk) (by rintro rfl; exact hnG hk)]; exact hG k hk) n2
        (fun k hk => Nat.lt_of_lt_of_le (hlt' k hk) hrep.length)
      exact ⟨i1, fun hi => (i2 hi).replaced hrep n1 hlt' hlr hlen⟩
    have hcut := cut_one hg
    have hlink : Linked (s.markGarbage r).irr repr := by
      refine h.linked.mono fun c hc => (Ghost.mono (s := s) (s' := s.markGarbage r) (G' := G) (fun l hl => hl) (fun _ h => h) (fun k hk => ?_) hc).irr
      exact hcut.clause k (by simp only [List.mem_singleton]; rintro rfl; exact hnG hk)
    cases hs : s.substituted repr (s.clause r).lits [] false with
    | none =>
      dsimp only
      refine go (h.inv.markGarbage hg (Or.inr fun σ hσ => ?_)) ⟨rfl, rfl, rfl, Nat.le_of_eq hcut.length.symm,
        fun k _ hk => hcut.clause k (by simpa using hk), hcut.garbage r (by simp),
        fun k h1 h2 => absurd h2 (by rw [hcut.length]; omega)⟩
      have hsat := hlink.sat hneg hσ
      obtain ⟨l, l1, l2⟩ := substituted_none _ _ _ hs
      have tr : ∀ m, 0 < s.values m → litTrue σ m := fun m hm => satUnit hσ (Or.inl ⟨m, (hS.trail m).2 hm, rfl⟩)
      rcases l2 with l2 | l2 | l2 | ⟨k, k1, k2⟩
      · exact ⟨l, l1, tr l l2⟩
      · exact ⟨l, l1, (hsat l).1 (tr _ l2)⟩
      · cases l2
      · by_cases ht : litTrue σ (repr l)
        · exact ⟨l, l1, (hsat l).1 ht⟩
        · refine ⟨k, k1, (hsat k).1 ?_⟩
          rw [← k2]
          exact (litTrue_neg σ _).2 ht
    | some p =>
      obtain ⟨c, ch⟩ := p
      obtain ⟨_, b2, b3, b4, b5⟩ := substituted_some _ _ _ hs
      obtain ⟨b4, b4'⟩ := b4 List.nodup_nil (fun m hm => (by cases hm))
      have b2 : ∀ m ∈ c, s.values m = 0 ∧ ∃ l ∈ (s.clause r).lits, repr l = m := fun m hm =>
        (b2 m hm).resolve_left (by simp)
      have hrup : RUP s.formula c := by
        refine Or.inl (h.formula.clause (Struct.clause_formula hg) fun m hm => ?_)
        rcases b3 m hm with h1 | h1 | h1
        · exact Or.inl (up_unit (hS.neg_unit h1))
        · exact Or.inr (up_unit (hS.neg_unit h1))
        · exact Or.inr (.assumed (by rw [neg_neg]; exact h1))
      have hfix : ∀ m ∈ c, repr m = m := by
        intro m hm
        obtain ⟨_, l, _, e⟩ := b2 m hm
        rw [← e]; exact hidem l
      have hrange : ∀ m ∈ c, s.InRange m ∧ s.removed (m / 2) = false := by
        intro m hm
        obtain ⟨_, l, l1, e⟩ := b2 m hm
        rw [← e]
        exact ⟨h.range l (hS.clause r hg l l1), h.kept l (hrem l l1)⟩
      cases ch with
      | false =>
        dsimp only
        exact skip fun _ _ => Or.inr (b5 rfl).2
      | true =>
        match c, hs, b2, b3, b4, b4', hrup, hfix, hrange with
        | [], _, _, _, _, _, hrup, _, _ => exact ⟨h.inv.learnedEmpty hrup, fun hi => (by cases hi)⟩
        | [u], _, b2, b3, _, _, _, hfix, _ =>
          dsimp only
          obtain ⟨i1, i2⟩ := SInvariant.substituteClauses hidem hneg rs h hG n2 hlt'
          cases hp : s.substituteClauses repr rs with
          | mk s' q =>
            obtain ⟨us, ds⟩ := q
            rw [hp] at i1 i2
            dsimp only at i1 i2 ⊢
            refine ⟨i1, fun hi => ?_⟩
            have i2 := i2 hi
            obtain ⟨u1, l, l1, l2⟩ := b2 u (by simp)
            refine ⟨i2.toState, i2.trail, i2.removed, i2.length, fun k hk hor => i2.old k hk ?_, i2.keep, fun v hv => ?_,
              fun k hk => ?_, ?_, fun k hk g1 g2 => ?_, i2.new⟩
            · exact hor.imp (fun h hm => h (List.mem_cons_of_mem _ hm)) fun h => h
            · rcases List.mem_append.1 hv with hv | hv
              · obtain ⟨v1, k, k1, k2⟩ := i2.why v hv
                exact ⟨v1, k, List.mem_cons_of_mem _ k1, k2⟩
              · rw [List.mem_singleton.1 hv]
                exact ⟨u1, r, by simp, ⟨l, l1, l2⟩, hrem, fun m hm => by
                  have := b3 m hm
                  simpa using this⟩
            · rcases List.mem_cons.1 hk with e | hk
              · subst e
                exact ⟨by simp, i2.old _ hlr (Or.inl n1), hg, hlen, u, by simp, l, l1, l2⟩
              · obtain ⟨k1, k2, k3, k4, v, v1, v2⟩ := i2.del k hk
                exact ⟨List.mem_cons_of_mem _ k1, k2, k3, k4, v, List.mem_append_left _ v1, v2⟩
            · rw [List.nodup_cons]
              exact ⟨fun hm => n1 (i2.del r hm).1, i2.nodup⟩
            · rcases List.mem_cons.1 hk with e | hk
              · exact Or.inr (Or.inl (by rw [e]; simp))
              · rcases i2.cover k hk g1 g2 with h1 | h1 | h1
                · exact Or.inl h1
                · exact Or.inr (Or.inl (List.mem_cons_of_mem _ h1))
                · exact Or.inr (Or.inr h1)
        | a :: b :: c, _, b2, b3, b4, b4', hrup, hfix, hrange =>
          dsimp only
          have i1 : Inv orig none (s.newClause (a :: b :: c) (s.clause r).redundant) :=
            h.inv.newClause (fun m hm => (hrange m hm).1) b4 b4' (by simp) (fun _ m hm => (hrange m hm).2) hrup
          have ha := added_new s (a :: b :: c) (s.clause r).redundant
          have hl1 := length_new s (a :: b :: c) (s.clause r).redundant
          have hk0 : ((s.newClause (a :: b :: c) (s.clause r).redundant).clause s.arena.length) =
              ⟨a :: b :: c, false, (s.clause r).redundant && decide ((a :: b :: c).length ≠ 2)⟩ := by
            rw [clause_new, if_pos rfl]
          generalize s.newClause (a :: b :: c) (s.clause r).redundant = s1 at i1 ha hl1 hk0 ⊢
          have h1 := h.added i1 ha
          have hg1 : (s1.clause r).garbage = false := by rw [ha.clause r hlr]; exact hg
          have hcut1 := cut_one hg1
          have hlink1 : Linked (s1.markGarbage r).irr repr := by
            refine h1.linked.mono fun c hc => (Ghost.mono (s := s1) (s' := s1.markGarbage r) (G' := G) (fun l hl => hl) (fun _ h => h) (fun k hk => ?_) hc).irr
            exact hcut1.clause k (by simp only [List.mem_singleton]; rintro rfl; exact hnG hk)
          refine go (i1.markGarbage hg1 ?_) ⟨hcut1.toState.trans ha.toState, hcut1.trail.trans ha.trail,
            hcut1.removed.trans ha.removed, by rw [hcut1.length]; exact ha.length, fun k hk hkr => ?_,
            hcut1.garbage r (by simp), fun k k1 k2 => ?_⟩
          · rw [ha.clause r hlr]
            cases hred : (s.clause r).redundant with
            | true => exact Or.inl rfl
            | false =>
              right
              intro σ hσ
              rw [hred] at hk0
              have hc0 : (s1.markGarbage r).clause s.arena.length = ⟨a :: b :: c, false, false⟩ := by
                rw [hcut1.clause _ (by simp only [List.mem_singleton]; omega), hk0]; rfl
              obtain ⟨m, m1, m2⟩ := hσ (a :: b :: c) (Or.inr ⟨s.arena.length, by rw [hc0], by rw [hc0], by rw [hc0]⟩)
              obtain ⟨_, l, l1, l2⟩ := b2 m m1
              rw [← l2] at m2
              exact ⟨l, l1, (hlink1.sat hneg hσ l).1 m2⟩
          · rw [hcut1.clause k (by simpa using hkr), ha.clause k hk]
          · rw [hcut1.length] at k2
            have e : k = s.arena.length := by omega
            rw [hcut1.clause k (by simp only [List.mem_singleton]; omega), e, hk0]
            exact hfix

end Verif.Simp
