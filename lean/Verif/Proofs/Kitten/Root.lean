import Verif.Proofs.Kitten.Search

/-! # Root level of kitten -/

namespace Verif.Kitten

open Verif.Spec
open Verif.Core (upd)

/-- What is left alone when the clauses are found inconsistent. -/
abbrev Closes (k k' : Kitten) : Prop := Keeps { k with inconsistent := k'.inconsistent } k'

theorem Keeps.closes {a b c : Kitten} (h : Keeps a b) (h' : Closes b c) : Closes a c :=
  ⟨rfl, h'.2.trans h.2, h'.3.trans h.3, h'.4.trans h.4, h'.5.trans h.5, h'.6.trans h.6,
    h'.7.trans h.7, h'.8.trans h.8, h'.9.trans h.9, rfl, h.11.trans h'.11⟩

/-- A clause falsified on root level. -/
theorem falsify_ok {k : Kitten} {ref : Nat} {kl : Klause} (h : Inv k) (hl : k.level = 0) (hi : k.inconsistent = none)
    (hr : k.klauses[ref]? = some kl) (hf : ∀ m ∈ kl.lits, k.values m = -1) :
    ∃ k', k.falsify ref = some k' ∧ Inv k' ∧ Closes k k' ∧ k'.inconsistent ≠ none ∧ k'.level = 0 := by
  have hreason : ∀ m ∈ kl.lits, ∃ r kl', k.why m = some r ∧ k.klauses[r]? = some kl' ∧ kl'.lits = [neg m] := by
    intro m hm
    have h1 := h.vals.neg_true.2 (hf m hm)
    obtain ⟨r, kl', g1, g2⟩ := h.why.root _ h1 (by have := h.vals.levle _ h1; omega)
    exact ⟨r, kl', (why_neg k m).symm.trans g1, g2⟩
  unfold Kitten.falsify
  by_cases ha : k.antecedents = true
  · rw [if_pos ha]
    obtain ⟨resolved, marks, e, p1, p2, p3, _, p4⟩ := emptyLoop_ok h.toBase hl (k.exports.length + 2) ref [] [] [] kl hr
      (fun m hm => by rw [hf m hm]; omega) (by simp) (by simp) (by simp) (by simp) (by simp) (by simp)
      (by show k.exports.length + 0 < _; simp)
    rw [e]
    simp only
    have hrup : RUP (Fml k.klauses (· ∈ resolved)) [] := by
      refine Or.inl ⟨kl.lits, ⟨ref, kl, p2 ref (by simp), hr, rfl⟩, fun m hm => ?_⟩
      obtain ⟨r, g1, g2⟩ := p4 _ (p3 m hm)
      obtain ⟨r', kl', q1, q2, q3⟩ := hreason m hm
      have : r' = r := by
        have : k.why m = some r := g2
        rw [q1] at this; exact Option.some.inj this
      subst this
      exact .unit (c := [neg m]) ⟨r', kl', g1, q2, q3.symm⟩ (by simp) fun x hx hne => absurd (by simpa using hx) hne
    obtain ⟨g1, _, g3⟩ := learn_ok h (lits := []) (resolved := resolved) (by simp) (by simp) p1 hrup
    have he : { k.newLearned [] resolved with inconsistent := some k.klauses.length } = k.newLearned [] resolved := by
      unfold Kitten.newLearned Kitten.connect
      simp only [hi, if_true]
    rw [he]
    refine ⟨_, rfl, g1, g3, ?_, ?_⟩
    · unfold Kitten.newLearned Kitten.connect
      simp [hi]
    · rw [newLearned_eq, add_level]; exact hl
  · rw [if_neg ha]
    refine ⟨_, rfl, ⟨⟨⟨h.vals.dom, h.vals.anti, h.vals.valid, h.vals.count, h.vals.nodup, h.vals.tval, h.vals.flushed,
      h.vals.levle, h.vals.sorted, h.vals.high, h.vals.pending⟩, ⟨h.why.root, h.why.decision, h.why.first, h.why.reason⟩,
      ⟨h.store.valid, h.store.distinct, h.store.learned, h.store.flag, fun _ _ _ => by simp, h.store.units, h.store.unit,
        fun r hr' => ?_⟩⟩, ⟨h.watch.watched, h.watch.back, h.watch.once⟩⟩,
      ⟨rfl, rfl, rfl, rfl, rfl, rfl, rfl, rfl, rfl, rfl, .refl _⟩, by simp, hl⟩
    cases hr'
    refine ⟨⟨kl, hr, fun hc => absurd hc ha⟩, ?_⟩
    rintro ⟨σ, hs⟩
    have hen := h.store.entailed hs
    obtain ⟨m, hm, ht⟩ := hen ref kl hr
    obtain ⟨r', kl', _, q2, q3⟩ := hreason m hm
    have := hen r' kl' q2
    rw [q3] at this
    obtain ⟨x, hx, hx'⟩ := this
    rw [show x = neg m by simpa using hx] at hx'
    exact (litTrue_neg σ m).1 hx' ht

/-- The units before a position are true. -/
def UnitsUpto (k : Kitten) (next : Nat) : Prop :=
  ∀ (i r : Nat) (kl : Klause) (l : Nat), i < next → k.units[i]? = some r → k.klauses[r]? = some kl → kl.lits = [l] →
    k.values l = 1

theorem UnitsUpto.grows {k k' : Kitten} {next : Nat} (h : UnitsUpto k next) (hb : Base k) (hg : Grows k k') (hu : UnitsGrow k k')
    (hn : next ≤ k.units.length) : UnitsUpto k' next := by
  intro i r kl l hi hr hk hl
  obtain ⟨t, ht⟩ := hu.append
  rw [ht, List.getElem?_append_left (by omega)] at hr
  obtain ⟨kl', l', g1, g2⟩ := hb.store.unit r (List.mem_of_getElem? hr)
  obtain ⟨kl'', e, p, _⟩ := hg.frame.evolve.old r kl' g1
  rw [hk] at e
  cases e
  rw [hl, g2] at p
  have hll : l = l' := by simpa using perm_singleton p
  subst hll
  have := h i r kl' l hi hr g1 g2
  rw [(hg.keep l (by omega)).1]; exact this

theorem unitLoop_ok : ∀ (n next : Nat) (k : Kitten), Inv k → k.level = 0 → k.inconsistent = none →
    k.propagated = k.trail.length → AllSemi k k.trail.length → next ≤ k.units.length → UnitsUpto k next →
    k.units.length + k.unassigned < n + next →
    ∃ k' b, Kitten.unitLoop n next k = some (k', b) ∧ Inv k' ∧ k'.level = 0 ∧
      (b = false → Grows k k' ∧ UnitsTrue k' ∧ k'.propagated = k'.trail.length ∧ AllSemi k' k'.trail.length) ∧
      (b = true → Closes k k' ∧ k'.inconsistent ≠ none) := by
  intro n
  induction n with
  | zero =>
    intro next k _ _ _ _ _ h1 _ h2
    omega
  | succ n ih =>
    intro next k h hl hi hp hs hn hu hfuel
    unfold Kitten.unitLoop
    cases hr : k.units[next]? with
    | none =>
      simp only
      have hlen : k.units.length ≤ next := List.getElem?_eq_none_iff.1 hr
      refine ⟨k, false, rfl, h, hl, fun _ => ⟨.refl k, fun r kl l hk he => ?_, hp, hs⟩, fun hc => by cases hc⟩
      obtain ⟨i, hi'⟩ := List.getElem?_of_mem (h.store.units r kl l hk he)
      have hv := hu i r kl l (by have := lt_of_get hi'; omega) hi' hk he
      exact ⟨hv, by have := h.vals.levle l hv; omega⟩
    | some ref =>
      simp only
      have hlt := lt_of_get hr
      obtain ⟨kl, unit, hk, he⟩ := h.store.unit ref (List.mem_of_getElem? hr)
      obtain ⟨f1, f2, f3, lits, f5⟩ := kl
      simp only at he
      subst he
      rw [hk]
      simp only
      have hstep : ∀ k', Grows k k' → UnitsGrow k k' → k'.values unit = 1 → UnitsUpto k' (next + 1) := by
        intro k' hg hug hv i r kl l hi' hr' hk' hl'
        by_cases hin : i < next
        · exact hu.grows h.toBase hg hug hn i r kl l hin hr' hk' hl'
        · have hin : i = next := by omega
          subst hin
          obtain ⟨t, ht⟩ := hug.append
          rw [ht, List.getElem?_append_left hlt, hr] at hr'
          cases hr'
          obtain ⟨kl'', e, p, _⟩ := hg.frame.evolve.old ref _ hk
          rw [hk'] at e
          cases e
          rw [hl'] at p
          have hll : l = unit := by simpa using perm_singleton p
          rw [hll]; exact hv
      by_cases h1 : 0 < k.values unit
      · rw [if_pos h1]
        exact ih (next + 1) k h hl hi hp hs (by omega) (hstep k (.refl k) (.refl k) (h.vals.pos.1 h1)) (by omega)
      rw [if_neg h1]
      by_cases h2 : k.values unit < 0
      · rw [if_pos h2]
        obtain ⟨k', e, g1, g2, g3, g4⟩ := falsify_ok h hl hi hk (fun m hm => by
          rw [show m = unit by simpa using hm]; exact h.vals.neg'.1 h2)
        rw [e]
        exact ⟨k', true, rfl, g1, g4, fun hc => (by cases hc), fun _ => ⟨g2, g3⟩⟩
      rw [if_neg h2]
      have hz : k.values unit = 0 := by omega
      obtain ⟨k1, r1, e1, hA, hb1, hw1, hm1, extra, hx1, hx2⟩ := assign_ok h.toBase hz hk (by simp)
        (fun m hm hne => absurd (by simpa using hm) hne)
      rw [e1]
      simp only
      have hg1 := hA.grows hz h.vals
      have hi1 : Inv k1 := ⟨hb1, h.watch.extend hw1 hx1 fun c hc => by rw [(hx2 c hc).1]; simp⟩
      have hs1 : AllSemi k1 k1.propagated := by
        intro r kl hr' h2'
        rw [hA.propagated]
        rw [hx1] at hr'
        by_cases hlt : r < k.klauses.length
        · rw [List.getElem?_append_left hlt] at hr'
          have := hs r kl hr' h2'
          rw [← hp] at this
          exact this.grows hg1 (by omega)
        · rw [List.getElem?_append_right (by omega)] at hr'
          have := (hx2 kl (List.mem_of_getElem? hr')).1
          rw [this] at h2'; simp at h2'
      obtain ⟨k2, conflict, e2, hi2, hg2, _, hm2, hno, hyes⟩ := propagate_ok hi1 (by
        rw [hA.propagated, hA.trail, hp]; simp) hs1
      rw [e2]
      have hg := hg1.trans hg2
      have hlev2 : k2.level = 0 := hg.frame.level.trans hl
      have hinc2 : k2.inconsistent = none := hg.frame.inconsistent.trans hi
      cases hcon : conflict with
      | none =>
        simp only
        obtain ⟨q1, q2⟩ := hno hcon
        have hug := hm1.trans hm2
        have hlen : k.units.length ≤ k2.units.length := by
          obtain ⟨t, ht⟩ := hug.append; rw [ht]; simp
        obtain ⟨k3, b, e3, g1, g2, g3, g4⟩ := ih (next + 1) k2 hi2 hlev2 hinc2 q1 q2 (by omega)
          (hstep k2 hg hug (by rw [(hg2.keep unit (by rw [hA.true]; omega)).1, hA.true]))
          (by have := hug.le; omega)
        exact ⟨k3, b, e3, g1, g2, fun hb => ⟨hg.trans (g3 hb).1, (g3 hb).2⟩, fun hb =>
          ⟨Keeps.closes hg.frame.keeps (g4 hb).1, (g4 hb).2⟩⟩
      | some c =>
        simp only
        obtain ⟨_, ckl, q1, q2, _⟩ := hyes c hcon
        obtain ⟨k3, e3, g1, g2, g3, g4⟩ := falsify_ok hi2 hlev2 hinc2 q1 q2
        rw [e3]
        exact ⟨k3, true, rfl, g1, g4, fun hc => (by cases hc), fun _ => ⟨Keeps.closes hg.frame.keeps g2, g3⟩⟩

end Verif.Kitten
