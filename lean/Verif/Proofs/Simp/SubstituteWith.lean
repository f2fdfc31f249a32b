import Verif.Proofs.Simp.SubstituteRemove

/-!
# Equivalent literal substitution: one round
-/

namespace Verif.Simp

open Verif.Spec Verif.Model

/-- After adding the clauses of the equivalences every literal is linked to its representative. -/
theorem Pairs.linked {orig : List (List Nat)} {repr : Nat → Nat} {s s1 : State} {eqs : List (Nat × Nat)} (hS : Struct orig s)
    (hR : Reps s repr) (ha : Added s s1) (hp : Pairs repr s s1 (List.range s.exports.length) eqs) :
    Linked (Ghost (fun r => s.arena.length ≤ r ∧ r < s1.arena.length) s1) repr := by
  intro l
  by_cases hl : repr l = l
  · exact Or.inl hl
  right
  by_cases hv : s.values l = 0
  · obtain ⟨h1, h2⟩ := hR.act l hl
    have hact : s.active (l / 2) = true := by
      refine active_iff.2 ⟨h1, h2, ?_⟩
      rw [hS.value_zero]; exact hv
    right; right
    have h2l : repr (2 * (l / 2)) ≠ 2 * (l / 2) := by
      intro e
      rcases eq_or_eq_neg (a := l) (b := 2 * (l / 2)) (by omega) with e1 | e1
      · exact hl (by rw [e1]; exact e)
      · exact hl (by rw [e1, hR.neg, e])
    obtain ⟨e, he⟩ := hp.all (l / 2) (List.mem_range.2 h1) hact h2l
    obtain ⟨_, _, _, p4, p5, p6, p7⟩ := hp.mem _ _ he
    rcases eq_or_eq_neg (a := l) (b := 2 * (l / 2)) (by omega) with e1 | e1
    · refine ⟨[Spec.neg l, repr l], Or.inr ⟨e, ⟨p4, by omega⟩, by rw [p6], by rw [p6], ?_⟩, by simp, by simp, by simp⟩
      rw [p6, ← e1]
    · refine ⟨[Spec.neg l, repr l], Or.inr ⟨e + 1, ⟨by omega, p5⟩, by rw [p7], by rw [p7], ?_⟩, by simp, by simp, by simp⟩
      rw [p7]
      have e2 : Spec.neg l = 2 * (l / 2) := by rw [congrArg Spec.neg e1, neg_neg]
      rw [e2]
      congr 2
      rw [← hR.neg, ← e1]
  · have hvr := hR.vals l
    rcases hS.range l with hp1 | hp1 | hp1
    · left
      exact ⟨Or.inl ⟨l, by rw [ha.trail, hS.trail]; omega, rfl⟩,
        Or.inl ⟨repr l, by rw [ha.trail, hS.trail]; omega, rfl⟩⟩
    · exact absurd hp1 hv
    · right; left
      exact ⟨Or.inl ⟨Spec.neg l, by rw [ha.trail, hS.trail, hS.neg]; omega, rfl⟩,
        Or.inl ⟨Spec.neg (repr l), by rw [ha.trail, hS.trail, hS.neg]; omega, rfl⟩⟩

theorem watched_repr {repr : Nat → Nat} (hneg : ∀ l, repr (Spec.neg l) = Spec.neg (repr l)) (s : State) :
    Watched (fun l => repr l = l) s fun r => (s.clause r).lits.all fun l => decide (repr l = l) := by
  intro r hr _ l hl
  have := List.all_eq_true.1 hr l hl
  simp only [decide_eq_true_eq] at this
  exact ⟨this, by show repr _ = _; rw [hneg, this]⟩

theorem Fine.substituteWith {orig : List (List Nat)} {s : State} {repr : Nat → Nat} (h : Inv orig none s)
    (hR : Reps s repr) (o : SubstituteOptions) : Fine orig (s.substituteWith o repr) := by
  obtain ⟨i1, a1, p1⟩ := h.addEquivalences hR.idem hR.neg (List.range s.exports.length) List.nodup_range hR.range hR.kept hR.rup
  unfold State.substituteWith
  cases hq : s.addEquivalences repr (List.range s.exports.length) with
  | mk s1 eqs =>
  rw [hq] at i1 a1 p1
  dsimp only at i1 a1 p1 ⊢
  have S1 : SInvariant orig repr (fun r => s.arena.length ≤ r ∧ r < s1.arena.length) s1 :=
    ⟨i1, p1.linked h.struct hR a1, fun r hr => hr.2,
      fun l hl => by unfold State.InRange at hl ⊢; rw [a1.exports] at hl ⊢; exact hR.range l hl,
      fun l hl => by rw [a1.removed] at hl ⊢; exact hR.kept l hl⟩
  have G2 : ∀ r, (s.arena.length ≤ r ∧ r < s1.arena.length) → (s1.clause r).lits.length = 2 := by
    intro r hr
    obtain ⟨i, e, he, hre⟩ := p1.only r hr.1 hr.2
    obtain ⟨_, _, _, _, _, p6, p7⟩ := p1.mem i e he
    rcases hre with rfl | rfl
    · rw [p6]; rfl
    · rw [p7]; rfl
  obtain ⟨i2, b2⟩ := S1.substituteBinaries hR.idem (List.range s.arena.length) List.nodup_range
    (fun r hr => Nat.lt_of_lt_of_le (List.mem_range.1 hr) a1.length)
  cases hb : s1.substituteBinaries repr (List.range s.arena.length) with
  | mk s2 rest =>
  obtain ⟨units, deleted, removed⟩ := rest
  rw [hb] at i2 b2
  dsimp only at i2 b2 ⊢
  have S2 := S1.added i2 b2.added
  -- units
  have hforced : ∀ u ∈ units, Forced orig (fun l => repr l = l) s2 u := by
    intro u hu
    obtain ⟨r, r1, r2, r3, ⟨l, hl⟩, r5⟩ := b2.why u hu
    have hlu := r5 l hl
    have hc2 := b2.added.live r2
    have hVu : repr u = u := by rw [← hlu]; exact hR.idem l
    refine ⟨?_, ?_, ⟨hVu, by rw [hR.neg, hVu]⟩, fun s' h' hg A hA => ?_⟩
    · rw [← hlu]
      refine S2.range l (i2.struct.clause r (by rw [hc2]; exact r2) l (by rw [hc2]; exact hl))
    · rw [← hlu]
      refine S2.kept l (i2.struct.removed r (by rw [hc2]; exact r2) (by rw [hc2]; exact r3) l (by rw [hc2]; exact hl))
    · refine (S2.grow h' hg).formula.clause (c := (s1.clause r).lits) ?_ fun m hm => Or.inr (by rw [r5 m hm]; exact hA)
      exact Or.inr ⟨r, by rw [hg.clause, hc2]; exact r2, by rw [hg.clause, hc2]⟩
  obtain ⟨i3, g3, _, v3⟩ := i2.assignUnits (order := o.order) units (watched_repr hR.neg s2) hforced
  generalize s2.assignUnits (fun r => (s2.clause r).lits.all fun l => decide (repr l = l)) o.order units = s3 at i3 g3 v3 ⊢
  by_cases c3 : s3.inconsistent = true
  · rw [if_pos c3]; exact i3.fine
  rw [if_neg c3]
  have v3 := v3.resolve_left c3
  have S3 := S2.grow i3 g3
  have cl3 : ∀ r, r < s1.arena.length → s3.clause r = s1.clause r := fun r hr => by rw [g3.clause, b2.added.clause r hr]
  have hLlt : ∀ r ∈ deleted ++ removed, r < s.arena.length := fun r hr => List.mem_range.1 (b2.mem r hr).1
  have hLG : ∀ r ∈ deleted ++ removed, ¬ (s.arena.length ≤ r ∧ r < s1.arena.length) := fun r hr hG =>
    absurd (hLlt r hr) (by omega)
  have hl1 : s.arena.length ≤ s1.arena.length := a1.length
  have hRest := S3.rest hLG
  obtain ⟨i4, k4⟩ := i3.deleteAll (deleted ++ removed) b2.nodup (fun r hr => by
      rw [cl3 r (by have := hLlt r hr; omega)]; exact (b2.mem r hr).2.1) (fun r hr => by
    right
    rw [cl3 r (by have := hLlt r hr; omega)]
    intro σ hσ
    have hsat := fun l => hRest.sat hR.neg hσ l
    rcases List.mem_append.1 hr with hd | hd
    · rcases b2.del r hd with ⟨a, ha, b, hb, hab⟩ | ⟨u, hu, l, hl, hlu⟩
      · by_cases hta : litTrue σ a
        · exact ⟨a, ha, hta⟩
        · refine ⟨b, hb, (hsat b).1 ?_⟩
          rw [hab, litTrue_neg, hsat]; exact hta
      · refine ⟨l, hl, (hsat l).1 ?_⟩
        rw [hlu]
        exact satUnit hσ (Or.inl ⟨u, (i3.struct.trail u).2 (v3 u hu), rfl⟩)
    · obtain ⟨k, k1, k2, k3, k4⟩ := b2.rem r hd
      have hkL : k ∉ deleted ++ removed := fun hk => by have := hLlt k hk; omega
      obtain ⟨m, m1, m2⟩ := hσ (s3.clause k).lits (Or.inr ⟨k, hkL, by rw [g3.clause]; exact k2, by rw [g3.clause]; exact k3, rfl⟩)
      rw [g3.clause] at m1
      obtain ⟨l, l1, l2⟩ := k4 m m1
      exact ⟨l, l1, (hsat l).1 (by rw [← l2]; exact m2)⟩)
  generalize s3.deleteAll (deleted ++ removed) = s4 at i4 k4 ⊢
  have S4 := S3.cut i4 k4 hLG
  have len4 : s1.arena.length ≤ s4.arena.length := by
    rw [k4.length, g3.arena]; exact b2.added.length
  have cl4 : ∀ r, s.arena.length ≤ r → r < s1.arena.length → s4.clause r = s1.clause r := fun r h1 h2 => by
    rw [k4.clause r (fun hk => hLG r hk ⟨h1, h2⟩), cl3 r h2]
  have G4 : ∀ r, (s.arena.length ≤ r ∧ r < s1.arena.length) → (s4.clause r).lits.length = 2 := fun r hr => by
    rw [cl4 r hr.1 hr.2]; exact G2 r hr
  obtain ⟨i5, c5⟩ := S4.substituteClauses hR.idem hR.neg (List.range s4.arena.length) G4 List.nodup_range
    (fun r hr => List.mem_range.1 hr)
  cases hc : s4.substituteClauses repr (List.range s4.arena.length) with
  | mk s5 rest =>
  obtain ⟨units5, delayed⟩ := rest
  rw [hc] at i5 c5
  dsimp only at i5 c5 ⊢
  by_cases n5 : s5.inconsistent = true
  · rw [if_pos n5]; exact i5.fine
  rw [if_neg n5]
  have c5 := c5 (by simpa using n5)
  have cl5 : ∀ r, (s.arena.length ≤ r ∧ r < s1.arena.length) → s5.clause r = s4.clause r := fun r hr =>
    c5.old r (by omega) (Or.inr (G4 r hr))
  have S5 : SInvariant orig repr (fun r => s.arena.length ≤ r ∧ r < s1.arena.length) s5 :=
    ⟨i5, S4.linked.mono fun c hc' => hc'.mono (fun l hl => by rw [c5.trail]; exact hl) (fun _ h => h) fun r hr => cl5 r hr,
      fun r hr => Nat.lt_of_lt_of_le (S4.ghost r hr) c5.length,
      fun l hl => by unfold State.InRange at hl ⊢; rw [c5.exports] at hl ⊢; exact S4.range l hl,
      fun l hl => by rw [c5.removed] at hl ⊢; exact S4.kept l hl⟩
  have hforced5 : ∀ u ∈ units5, Forced orig (fun l => repr l = l) s5 u := by
    intro u hu
    obtain ⟨_, r, r1, ⟨l, hl, hlu⟩, r3, r4⟩ := c5.why u hu
    obtain ⟨_, d2, d3, d4, _⟩ := c5.del r r1
    have hVu : repr u = u := by rw [← hlu]; exact hR.idem l
    refine ⟨?_, ?_, ⟨hVu, by rw [hR.neg, hVu]⟩, fun s' h' hg A hA => ?_⟩
    · rw [← hlu]
      refine S5.range l (i5.struct.clause r (by rw [d2]; exact d3) l (by rw [d2]; exact hl))
    · rw [← hlu]
      refine S5.kept l (by rw [c5.removed]; exact r3 l hl)
    · have hval : ∀ m, s4.values m < 0 → UP s'.formula A (Spec.neg m) := by
        intro m hm
        refine up_unit (Or.inl ⟨Spec.neg m, ?_, rfl⟩)
        rw [h'.struct.trail, h'.struct.neg, hg.keep m (by rw [c5.values]; omega), c5.values]
        omega
      refine (S5.grow h' hg).formula.clause (c := (s4.clause r).lits) ?_ fun m hm => ?_
      · exact Or.inr ⟨r, by rw [hg.clause, d2]; exact d3, by rw [hg.clause, d2]⟩
      · rcases r4 m hm with hm | hm | hm
        · exact Or.inl (hval m hm)
        · exact Or.inr (hval _ hm)
        · exact Or.inr (by rw [hm]; exact hA)
  obtain ⟨i6, g6, _, v6⟩ := i5.assignUnits (order := o.order) units5 (watched_repr hR.neg s5) hforced5
  generalize s5.assignUnits (fun r => (s5.clause r).lits.all fun l => decide (repr l = l)) o.order units5 = s6 at i6 g6 v6 ⊢
  by_cases n6 : s6.inconsistent = true
  · rw [if_pos n6]; exact i6.fine
  rw [if_neg n6]
  have v6 := v6.resolve_left n6
  have S6 := S5.grow i6 g6
  have hDG : ∀ r ∈ delayed, ¬ (s.arena.length ≤ r ∧ r < s1.arena.length) := fun r hr hG =>
    (c5.del r hr).2.2.2.1 (G4 r hG)
  have hRest6 := S6.rest hDG
  obtain ⟨i7, k7⟩ := i6.deleteAll delayed c5.nodup (fun r hr => by
      rw [g6.clause, (c5.del r hr).2.1]; exact (c5.del r hr).2.2.1) (fun r hr => by
    right
    rw [g6.clause, (c5.del r hr).2.1]
    intro σ hσ
    obtain ⟨_, _, _, _, u, hu, l, hl, hlu⟩ := c5.del r hr
    refine ⟨l, hl, (hRest6.sat hR.neg hσ l).1 ?_⟩
    rw [hlu]
    exact satUnit hσ (Or.inl ⟨u, (i6.struct.trail u).2 (v6 u hu), rfl⟩))
  generalize s6.deleteAll delayed = s7 at i7 k7 ⊢
  -- eliminating the variables
  have cl7 : ∀ r, (s.arena.length ≤ r ∧ r < s1.arena.length) → s7.clause r = s1.clause r := fun r hr => by
    rw [k7.clause r (fun hk => hDG r hk hr), g6.clause, cl5 r hr, cl4 r hr.1 hr.2]
  obtain ⟨j1, _⟩ := i7.removeEquivalences (inc := o.incremental) hR.idem hR.neg eqs p1.nodup (fun i e he => by
      obtain ⟨p1', p2, p3, p4, p5, p6, p7⟩ := p1.mem i e he
      obtain ⟨q1, q2, q3⟩ := active_iff.1 p2
      refine ⟨?_, ?_, ?_, p3, ?_, ?_⟩
      · rw [k7.exports, g6.exports, c5.exports, k4.exports, g3.exports, b2.added.exports, a1.exports]; exact q1
      · rw [k7.removed, g6.removed, c5.removed, k4.removed, g3.removed, b2.added.removed, a1.removed]; exact q2
      · have z3 : s3.values (2 * i) = 0 := by
          have z2 : s2.values (2 * i) = 0 := by rw [b2.added.values, a1.values]; exact q3
          by_cases z : s3.values (2 * i) = 0
          · exact z
          · exact absurd (g3.new _ z2 z) p3
        have z5 : s5.values (2 * i) = 0 := by rw [c5.values, k4.values]; exact z3
        rw [k7.values]
        by_cases z : s6.values (2 * i) = 0
        · exact z
        · exact absurd (g6.new _ z5 z) p3
      · rw [cl7 e ⟨p4, by omega⟩]; exact p6
      · rw [cl7 (e + 1) ⟨by omega, p5⟩]; exact p7) (fun r hg hirr => by
    have hr7 : r ∉ delayed := fun hk => by rw [k7.garbage r hk] at hg; cases hg
    rw [k7.clause r hr7, g6.clause] at hg hirr ⊢
    by_cases hr4 : r < s4.arena.length
    · have he : s5.clause r = s4.clause r := by
        rcases c5.keep r hr4 with e | e
        · exact e
        · rw [e] at hg; cases hg
      rcases c5.cover r (List.mem_range.2 hr4) hg hirr with h2 | h2 | h2
      · rw [he] at hg hirr ⊢
        have hrL : r ∉ deleted ++ removed := fun hk => by rw [k4.garbage r hk] at hg; cases hg
        rw [k4.clause r hrL, g3.clause] at hg hirr h2 ⊢
        by_cases hr1 : r < s1.arena.length
        · by_cases hr0 : r < s.arena.length
          · rw [b2.added.clause r hr1] at hg hirr h2 ⊢
            exact Or.inl ((b2.cover r (List.mem_range.2 hr0) hg hirr h2).resolve_right hrL)
          · exact Or.inr (p1.only r (by omega) hr1)
        · exact Or.inl (b2.new r (by omega) (clause_lt hg))
      · exact absurd h2 hr7
      · rw [he]; exact Or.inl h2
    · exact Or.inl (c5.new r (by omega) (clause_lt hg)))
  exact j1.fine

/-- A round of substitution. -/
theorem Fine.substituteRound {orig : List (List Nat)} {s : State} (h : Inv orig none s) (o : SubstituteOptions) :
    Fine orig (s.substituteRound o) := by
  unfold State.substituteRound
  cases ht : Scc.determine s.implied (fun a => s.active (a / 2)) (2 * s.exports.length) o.fuel with
  | none => exact h.fine
  | some t =>
    obtain ⟨d1, d2⟩ := h.determine ht o.order
    dsimp only
    by_cases hi : (s.assignUnits (fun _ => true) o.order t.units).inconsistent = true
    · rw [if_pos hi]; exact d1.fine
    · rw [if_neg hi]
      exact Fine.substituteWith d1 (d2.resolve_left hi).2.2 o

end Verif.Simp
