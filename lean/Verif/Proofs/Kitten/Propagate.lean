import Verif.Proofs.Kitten.Assign
import Verif.Proofs.Core.Propagate

/-! # Propagation of kitten -/

namespace Verif.Kitten

open Verif.Spec
open Verif.Core (upd)

theorem Evolve.back {ks ks' : List Klause} (h : Evolve ks ks') (hl : ks'.length = ks.length) {r : Nat} {kl' : Klause}
    (hr : ks'[r]? = some kl') : ∃ kl : Klause, ks[r]? = some kl ∧ kl'.lits.Perm kl.lits ∧
    kl'.learned = kl.learned ∧ kl'.id = kl.id ∧ kl'.ants = kl.ants ∧ kl'.core = kl.core := by
  have hlt : r < ks.length := by have := lt_of_get hr; omega
  obtain ⟨kl'', e, p⟩ := h.old r ks[r] (List.getElem?_eq_getElem hlt)
  rw [hr] at e
  cases e
  exact ⟨_, List.getElem?_eq_getElem hlt, p⟩

/-- Permuting clauses. -/
theorem Base.permute {k k' : Kitten} (h : Base k) (he : Evolve k.klauses k'.klauses)
    (hl : k'.klauses.length = k.klauses.length) (hk : k' = { k with klauses := k'.klauses, watches := k'.watches }) : Base k' := by
  generalize k'.klauses = ks at *
  generalize k'.watches = ws at *
  subst hk
  have mem : ∀ kl' ∈ ks, ∃ kl ∈ k.klauses, kl'.lits.Perm kl.lits ∧ kl'.learned = kl.learned := by
    intro kl' hm
    obtain ⟨r, hr⟩ := List.getElem?_of_mem hm
    obtain ⟨kl, g1, g2, g3, _⟩ := he.back hl hr
    exact ⟨kl, List.mem_of_getElem? g1, g2, g3⟩
  refine ⟨⟨h.vals.dom, h.vals.anti, h.vals.valid, h.vals.count, h.vals.nodup, h.vals.tval, h.vals.flushed,
    h.vals.levle, h.vals.sorted, h.vals.high, h.vals.pending⟩, ⟨?_, h.why.decision, h.why.first, ?_⟩, ?_⟩
  · intro l hv hl'
    obtain ⟨r, kl, g1, g2, g3⟩ := h.why.root l hv hl'
    obtain ⟨kl', e, p, _⟩ := he.old r kl g2
    rw [g3] at p
    exact ⟨r, kl', g1, e, perm_singleton p⟩
  · intro a l b r ht hp hr
    obtain ⟨kl, g1, g2, g3⟩ := h.why.reason a l b r ht hp hr
    obtain ⟨kl', e, p, _⟩ := he.old r kl g1
    exact ⟨kl', e, p.mem_iff.2 g2, fun m hm => g3 m (p.mem_iff.1 hm)⟩
  · constructor
    · intro kl' hm l hl'
      obtain ⟨kl, g1, g2, _⟩ := mem kl' hm
      exact h.store.valid kl g1 l (g2.mem_iff.1 hl')
    · intro kl' hm
      obtain ⟨kl, g1, g2, _⟩ := mem kl' hm
      exact (g2.map _).nodup_iff.2 (h.store.distinct kl g1)
    · intro r kl' hr hlr
      obtain ⟨kl, g1, g2, g3, _, g5, _⟩ := he.back hl hr
      obtain ⟨A, a1, a2, a3⟩ := h.store.learned r kl g1 (g3 ▸ hlr)
      exact ⟨A, a1, fun ha => (a2 ha).trans g5.symm, a3.mono (he.fml _) fun l hl => g2.mem_iff.2 hl⟩
    · intro hf kl' hm
      obtain ⟨kl, g1, _, g3⟩ := mem kl' hm
      rw [g3]; exact h.store.flag hf kl g1
    · intro kl' hm hn
      obtain ⟨kl, g1, g2, _⟩ := mem kl' hm
      rw [hn] at g2
      exact h.store.empty kl g1 g2.symm.eq_nil
    · intro r kl' l hr hn
      obtain ⟨kl, g1, g2, _⟩ := he.back hl hr
      rw [hn] at g2
      exact h.store.units r kl l g1 (perm_singleton g2.symm)
    · intro r hr
      obtain ⟨kl, l, g1, g2⟩ := h.store.unit r hr
      obtain ⟨kl', e, p, _⟩ := he.old r kl g1
      rw [g2] at p
      exact ⟨kl', l, e, perm_singleton p⟩
    · intro r hr
      obtain ⟨⟨kl, g1, g2⟩, g3⟩ := h.store.inconsistent r hr
      obtain ⟨kl', e, p, _⟩ := he.old r kl g1
      refine ⟨⟨kl', e, fun ha => ?_⟩, fun hs => g3 (he.satisfiable.2 hs)⟩
      rw [g2 ha] at p
      exact p.eq_nil

/-- More literals are assigned. -/
structure Grows (k k' : Kitten) : Prop where
  frame : Frame k k'
  trail : ∃ t, k'.trail = k.trail ++ t
  keep : ∀ m, k.values m ≠ 0 → k'.values m = k.values m ∧ k'.lev m = k.lev m ∧ k'.why m = k.why m
  fresh : ∀ m, k'.values m = -1 → k.values m = 0 → k'.lev m = k.level ∧
    ∀ p, p ≤ k.trail.length → neg m ∈ k'.trail.drop p

theorem mem_drop_append {a b : List Nat} {p x : Nat} (h : x ∈ a.drop p) : x ∈ (a ++ b).drop p := by
  rw [List.drop_append]
  exact List.mem_append_left _ h

theorem Grows.refl (k : Kitten) : Grows k k :=
  ⟨.refl k, ⟨[], by simp⟩, fun _ _ => ⟨rfl, rfl, rfl⟩, fun m h1 h2 => by omega⟩

theorem Grows.trans {a b c : Kitten} (h : Grows a b) (h' : Grows b c) : Grows a c := by
  obtain ⟨t, ht⟩ := h.trail
  obtain ⟨t', ht'⟩ := h'.trail
  refine ⟨h.frame.trans h'.frame, ⟨t ++ t', by rw [ht', ht, List.append_assoc]⟩, fun m hm => ?_, fun m h1 h2 => ?_⟩
  · obtain ⟨g1, g2, g3⟩ := h.keep m hm
    obtain ⟨q1, q2, q3⟩ := h'.keep m (by rw [g1]; exact hm)
    exact ⟨q1.trans g1, q2.trans g2, q3.trans g3⟩
  · by_cases hb : b.values m = 0
    · obtain ⟨g1, g2⟩ := h'.fresh m h1 hb
      exact ⟨g1.trans h.frame.level, fun p hp => g2 p (by rw [ht]; simp; omega)⟩
    · obtain ⟨q1, q2, _⟩ := h'.keep m hb
      obtain ⟨g1, g2⟩ := h.fresh m (by omega) h2
      exact ⟨q2.trans g1, fun p hp => by rw [ht']; exact mem_drop_append (g2 p hp)⟩

theorem Assigned.grows {k k' : Kitten} {lit : Nat} {reason : Option Nat} (h : Assigned k k' lit reason)
    (hz : k.values lit = 0) (hv : Vals k) : Grows k k' := by
  refine ⟨h.frame, ⟨[lit], h.trail⟩, fun m hm => ?_, fun m h1 h2 => ?_⟩
  · have := h.keep hz hv hm rfl
    exact ⟨this.1, h.lev this.2, h.why this.2⟩
  · rcases h.isFalse h1 with rfl | hc
    · refine ⟨by rw [lev_neg]; exact h.lev_self, fun p hp => ?_⟩
      rw [h.trail, Spec.neg_neg, List.drop_append_of_le_length hp]
      simp
    · omega

theorem Semi.grows {k k' : Kitten} {p : Nat} {lits : List Nat} (h : Semi k p lits) (hg : Grows k k')
    (hp : p ≤ k.trail.length) : Semi k' p lits := by
  obtain ⟨w, hw, h⟩ := h
  refine ⟨w, hw, fun h1 h2 => ?_⟩
  by_cases hz : k.values w = 0
  · exact absurd ((hg.fresh w h1 hz).2 p hp) h2
  · obtain ⟨g1, g2, _⟩ := hg.keep w hz
    obtain ⟨t', ht'⟩ := hg.trail
    obtain ⟨t, hm, q1, q2⟩ := h (by omega) (fun hc => h2 (by rw [ht']; exact mem_drop_append hc))
    obtain ⟨r1, r2, _⟩ := hg.keep t (by omega)
    exact ⟨t, hm, by omega, by omega⟩

theorem Below.grows {k k' : Kitten} {lits : List Nat} (h : Below k lits) (hg : Grows k k') : Below k' lits := by
  obtain ⟨w, hw, h⟩ := h
  refine ⟨w, hw, fun h1 h2 => ?_⟩
  rw [hg.frame.level] at h2
  by_cases hz : k.values w = 0
  · have := (hg.fresh w h1 hz).1
    omega
  · obtain ⟨g1, g2, _⟩ := hg.keep w hz
    obtain ⟨t, hm, q1, q2⟩ := h (by omega) (by omega)
    obtain ⟨r1, r2, _⟩ := hg.keep t (by omega)
    exact ⟨t, hm, by omega, by omega⟩

theorem Semi.below {k : Kitten} {p : Nat} {lits : List Nat} (h : Semi k p lits)
    (hp : ∀ l ∈ k.trail.drop p, k.lev l = k.level) : Below k lits := by
  obtain ⟨w, hw, h⟩ := h
  refine ⟨w, hw, fun h1 h2 => h h1 fun hc => ?_⟩
  have := hp _ hc
  rw [lev_neg] at this
  omega

/-- Units are true on root level. -/
def UnitsTrue (k : Kitten) : Prop :=
  ∀ (r : Nat) (kl : Klause) (l : Nat), k.klauses[r]? = some kl → kl.lits = [l] → k.values l = 1 ∧ k.lev l = 0

theorem Grows.units {k k' : Kitten} (hg : Grows k k') (hu : UnitsTrue k) {extra : List Klause}
    (he : k'.klauses = k.klauses ++ extra)
    (hx : ∀ c ∈ extra, ∀ l, c.lits = [l] → k'.values l = 1 ∧ k'.lev l = 0) : UnitsTrue k' := by
  intro r kl l hr hl
  rw [he] at hr
  by_cases hlt : r < k.klauses.length
  · rw [List.getElem?_append_left hlt] at hr
    obtain ⟨g1, g2⟩ := hu r kl l hr hl
    obtain ⟨q1, q2, _⟩ := hg.keep l (by omega)
    exact ⟨by omega, by omega⟩
  · rw [List.getElem?_append_right (by omega)] at hr
    exact hx kl (List.mem_of_getElem? hr) l hl

/-- Watch lists and units. -/
theorem Watches.extend {k k' : Kitten} (h : Watches k) (hw : k'.watches = k.watches) {extra : List Klause}
    (he : k'.klauses = k.klauses ++ extra) (hx : ∀ c ∈ extra, c.lits.length < 2) : Watches k' := by
  refine ⟨fun r kl w hr hi => ?_, fun w x hx' => ?_, by rw [hw]; exact h.once⟩
  · rw [hw]
    rw [he] at hr
    by_cases hlt : r < k.klauses.length
    · rw [List.getElem?_append_left hlt] at hr
      exact h.watched r kl w hr hi
    · rw [List.getElem?_append_right (by omega)] at hr
      have := hx kl (List.mem_of_getElem? hr)
      have := hi.1
      omega
  · rw [hw] at hx'
    obtain ⟨kl, g1, g2⟩ := h.back w x hx'
    refine ⟨kl, ?_, g2⟩
    rw [he, List.getElem?_append_left (lt_of_get g1)]
    exact g1

/-- The watch list that is visited. -/
def Kitten.withList (k : Kitten) (nl : Nat) (ws : List Katch) : Kitten := { k with watches := upd k.watches nl ws }

theorem withList_self (k : Kitten) (nl : Nat) (ws : List Katch) : (k.withList nl ws).watches nl = ws := upd_self _ _ _

theorem withList_other (k : Kitten) {nl w : Nat} (ws : List Katch) (h : w ≠ nl) :
    (k.withList nl ws).watches w = k.watches w := upd_other _ _ h

/-- A new blocking literal. -/
theorem Watches.blit {k : Kitten} {nl : Nat} {a b : List Katch} {x : Katch} {other : Nat} {kl : Klause}
    (h : Watches (k.withList nl (a ++ x :: b))) (hk : k.klauses[x.ref]? = some kl) (ho : other ∈ kl.lits)
    (hne : other ≠ nl) : Watches (k.withList nl (a ++ { x with blit := other } :: b)) := by
  have hmap : (a ++ { x with blit := other } :: b).map Katch.ref = (a ++ x :: b).map Katch.ref := by simp
  refine ⟨fun r kl' w hr hi => ?_, fun w y hy => ?_, fun w => ?_⟩
  · obtain ⟨y, hy, e⟩ := h.watched r kl' w hr hi
    by_cases hw : w = nl
    · subst hw
      rw [withList_self] at hy ⊢
      have : r ∈ (a ++ x :: b).map Katch.ref := List.mem_map.2 ⟨y, hy, e⟩
      rw [← hmap] at this
      obtain ⟨z, hz, e'⟩ := List.mem_map.1 this
      exact ⟨z, hz, e'⟩
    · rw [withList_other _ _ hw] at hy ⊢
      exact ⟨y, hy, e⟩
  · by_cases hw : w = nl
    · subst hw
      rw [withList_self] at hy
      have old := fun y hy => h.back w y (by rw [withList_self]; exact hy)
      rcases List.mem_append.1 hy with hy | hy
      · exact old y (List.mem_append_left _ hy)
      · rcases List.mem_cons.1 hy with rfl | hy
        · obtain ⟨kl', g1, g2, _, _, g5⟩ := old x (by simp)
          have g1 : k.klauses[x.ref]? = some kl' := g1
          rw [hk] at g1
          cases g1
          exact ⟨kl, hk, g2, ho, hne, g5⟩
        · exact old y (by simp [hy])
    · rw [withList_other _ _ hw] at hy
      exact h.back w y (by rw [withList_other _ _ hw]; exact hy)
  · by_cases hw : w = nl
    · subst hw
      have := h.once w
      rw [withList_self] at this ⊢
      rw [hmap]; exact this
    · have := h.once w
      rw [withList_other _ _ hw] at this ⊢
      exact this

theorem modify_get (ks : List Klause) (ref : Nat) (lits : List Nat) (r : Nat) :
    (ks.modify ref fun c => { c with lits := lits })[r]? =
      if ref = r then ks[r]?.map fun c => { c with lits := lits } else ks[r]? := by
  rw [List.getElem?_modify]
  by_cases h : ref = r
  · rw [if_pos h]; cases ks[r]? <;> simp [h]
  · rw [if_neg h]; cases ks[r]? <;> simp [h]

theorem evolve_setLits {k : Kitten} {ref : Nat} {kl : Klause} {lits : List Nat} (hr : k.klauses[ref]? = some kl)
    (hp : lits.Perm kl.lits) : Evolve k.klauses (k.setLits ref lits).klauses := by
  refine ⟨fun r c hc => ?_, fun r c hc => ?_, ?_⟩
  · show ∃ kl' : Klause, (k.klauses.modify ref fun c => { c with lits := lits })[r]? = some kl' ∧ _
    rw [modify_get]
    by_cases h : ref = r
    · subst h
      rw [hr] at hc
      cases hc
      rw [if_pos rfl, hr]
      exact ⟨_, rfl, hp, rfl, rfl, rfl, rfl⟩
    · rw [if_neg h]
      exact ⟨c, hc, .refl _, rfl, rfl, rfl, rfl⟩
  · left
    have := lt_of_get hc
    simpa [Kitten.setLits] using this
  · simp [Kitten.setLits]

/-- A watch moves to the replacement. -/
theorem Watches.move {k : Kitten} {nl : Nat} {a b : List Katch} {x : Katch} {other repl : Nat} {kl : Klause}
    {lits : List Nat} (h : Watches (k.withList nl (a ++ x :: b))) (hk : k.klauses[x.ref]? = some kl)
    (hold : ∀ w, IsWatch kl.lits w ↔ w = nl ∨ w = other) (hno : nl ≠ other) (hnr : nl ≠ repl) (hor : other ≠ repl)
    (hnew : ∀ w, IsWatch lits w ↔ w = other ∨ w = repl) (hp : lits.Perm kl.lits) (h3 : kl.lits.length ≠ 2) :
    Watches (((k.setLits x.ref lits).watch repl other x.ref false).withList nl (a ++ b)) := by
  have hnl : ∀ y ∈ a ++ b, y.ref ≠ x.ref := by
    have := h.once nl
    rw [withList_self, List.map_append, List.map_cons] at this
    intro y hy hc
    rcases List.mem_append.1 hy with hy | hy
    · have := (List.nodup_append.1 this).2.2 _ (List.mem_map.2 ⟨y, hy, rfl⟩) _ List.mem_cons_self
      exact this hc
    · have := (List.nodup_cons.1 (List.nodup_append.1 this).2.1).1
      exact this (List.mem_map.2 ⟨y, hy, hc⟩)
  have hwat : ∀ w, w ≠ nl → (((k.setLits x.ref lits).watch repl other x.ref false).withList nl (a ++ b)).watches w =
      if w = repl then k.watches w ++ [⟨other, x.ref, false⟩] else k.watches w := by
    intro w hw
    rw [withList_other _ _ hw]
    show upd k.watches repl _ w = _
    by_cases hr : w = repl
    · subst hr; rw [upd_self, if_pos rfl]; rfl
    · rw [upd_other _ _ hr, if_neg hr]
  have hkl : ∀ r, (((k.setLits x.ref lits).watch repl other x.ref false).withList nl (a ++ b)).klauses[r]? =
      if x.ref = r then k.klauses[r]?.map fun c => { c with lits := lits } else k.klauses[r]? := modify_get _ _ _
  have hsub : ∀ w y, w ≠ nl → y ∈ k.watches w → y ∈ (((k.setLits x.ref lits).watch repl other x.ref false).withList nl (a ++ b)).watches w := by
    intro w y hw hy
    rw [hwat w hw]
    split
    · exact List.mem_append_left _ hy
    · exact hy
  refine ⟨fun r kl' w hr hi => ?_, fun w y hy => ?_, fun w => ?_⟩
  · rw [hkl] at hr
    by_cases hx : x.ref = r
    · subst hx
      rw [if_pos rfl, hk] at hr
      cases hr
      rcases (hnew w).1 hi with rfl | rfl
      · obtain ⟨y, hy, e⟩ := h.watched x.ref kl w hk ((hold w).2 (Or.inr rfl))
        rw [withList_other _ _ (Ne.symm hno)] at hy
        exact ⟨y, hsub _ _ (Ne.symm hno) hy, e⟩
      · exact ⟨⟨other, x.ref, false⟩, by rw [hwat w (Ne.symm hnr), if_pos rfl]; simp, rfl⟩
    · rw [if_neg hx] at hr
      obtain ⟨y, hy, e⟩ := h.watched r kl' w hr hi
      by_cases hw : w = nl
      · subst hw
        rw [withList_self] at hy ⊢
        refine ⟨y, ?_, e⟩
        rcases List.mem_append.1 hy with hy | hy
        · exact List.mem_append_left _ hy
        · rcases List.mem_cons.1 hy with rfl | hy
          · exact absurd e hx
          · exact List.mem_append_right _ hy
      · rw [withList_other _ _ hw] at hy
        exact ⟨y, hsub _ _ hw hy, e⟩
  · have unchanged : ∀ y, y.ref ≠ x.ref → y ∈ (k.withList nl (a ++ x :: b)).watches w → ∃ kl',
        (((k.setLits x.ref lits).watch repl other x.ref false).withList nl (a ++ b)).klauses[y.ref]? = some kl' ∧
        IsWatch kl'.lits w ∧ y.blit ∈ kl'.lits ∧ y.blit ≠ w ∧ y.binary = decide (kl'.lits.length = 2) := by
      intro y hy hm
      rw [hkl, if_neg (Ne.symm hy)]
      exact h.back w y hm
    by_cases hw : w = nl
    · subst hw
      rw [withList_self] at hy
      refine unchanged y (hnl y hy) ?_
      rw [withList_self]
      rcases List.mem_append.1 hy with hy | hy
      · exact List.mem_append_left _ hy
      · exact List.mem_append_right _ (List.mem_cons_of_mem _ hy)
    · have old : y ∈ k.watches w → ∃ kl',
        (((k.setLits x.ref lits).watch repl other x.ref false).withList nl (a ++ b)).klauses[y.ref]? = some kl' ∧
        IsWatch kl'.lits w ∧ y.blit ∈ kl'.lits ∧ y.blit ≠ w ∧ y.binary = decide (kl'.lits.length = 2) := by
        intro hy
        have hy' : y ∈ (k.withList nl (a ++ x :: b)).watches w := by rw [withList_other _ _ hw]; exact hy
        by_cases hx : y.ref = x.ref
        · obtain ⟨kl', g1, g2, g3, g4, g5⟩ := h.back w y hy'
          have g1 : k.klauses[y.ref]? = some kl' := g1
          rw [hx, hk] at g1
          cases g1
          rw [hkl, if_pos hx.symm, hx, hk]
          refine ⟨_, rfl, ?_, hp.mem_iff.2 g3, g4, ?_⟩
          · exact (hnew w).2 (Or.inl (((hold w).1 g2).resolve_left hw))
          · show _ = decide (lits.length = 2)
            rw [hp.length_eq]; exact g5
        · exact unchanged y hx hy'
      rw [hwat w hw] at hy
      by_cases hr : w = repl
      · rw [if_pos hr] at hy
        rcases List.mem_append.1 hy with hy | hy
        · exact old hy
        · have : y = ⟨other, x.ref, false⟩ := by simpa using hy
          subst this
          rw [hkl, if_pos rfl, hk]
          refine ⟨_, rfl, (hnew w).2 (Or.inr hr), ?_, by rw [hr]; exact hor, ?_⟩
          · show other ∈ lits
            have := (hnew other).2 (Or.inl rfl)
            rcases this.2 with e | e <;> exact List.mem_of_getElem? e
          · show false = decide (lits.length = 2)
            rw [hp.length_eq]; simp [h3]
      · rw [if_neg hr] at hy
        exact old hy
  · by_cases hw : w = nl
    · subst hw
      have := h.once w
      rw [withList_self] at this ⊢
      refine this.sublist (List.Sublist.map _ ?_)
      exact List.Sublist.append (List.Sublist.refl _) (List.sublist_cons_self _ _)
    · have ho := h.once w
      rw [withList_other _ _ hw] at ho
      rw [hwat w hw]
      by_cases hr : w = repl
      · rw [if_pos hr, List.map_append]
        refine List.nodup_append.2 ⟨ho, by simp, fun r hr' s hs hrs => ?_⟩
        obtain ⟨y, hy, e⟩ := List.mem_map.1 hr'
        have hs : s = x.ref := by simpa using hs
        obtain ⟨kl', g1, g2, _⟩ := h.back w y (by rw [withList_other _ _ hw]; exact hy)
        have g1 : k.klauses[y.ref]? = some kl' := g1
        rw [e, hrs, hs, hk] at g1
        cases g1
        rcases (hold w).1 g2 with e | e
        · exact hw e
        · exact hor (e.symm.trans hr)
      · rw [if_neg hr]; exact ho

/-- The state while the watches of a literal are visited. -/
structure Visiting (nl p : Nat) (kept rest : List Katch) (k : Kitten) : Prop where
  base : Base k
  watch : Watches (k.withList nl (kept ++ rest))
  value : k.values nl = -1
  lev : k.lev nl = k.level
  pos : p < k.trail.length
  semi : ∀ (r : Nat) (kl : Klause), k.klauses[r]? = some kl → 2 ≤ kl.lits.length → r ∉ rest.map Katch.ref →
    Semi k (p + 1) kl.lits
  below : ∀ (r : Nat) (kl : Klause), k.klauses[r]? = some kl → 2 ≤ kl.lits.length → Below k kl.lits

section

variable {nl p : Nat} {kept rest : List Katch} {k : Kitten} {w : Katch}

theorem ref_once (h : Visiting nl p kept (w :: rest) k) : w.ref ∉ rest.map Katch.ref := by
  have := h.watch.once nl
  rw [withList_self, List.map_append, List.map_cons] at this
  exact (List.nodup_cons.1 (List.nodup_append.1 this).2.1).1

/-- The watch is kept because the clause has a true literal. -/
theorem Visiting.skip (h : Visiting nl p kept (w :: rest) k) {kl : Klause} {t : Nat}
    (hr : k.klauses[w.ref]? = some kl) (hw : IsWatch kl.lits nl) (ht : t ∈ kl.lits) (hv : k.values t = 1) :
    Visiting nl p (kept ++ [w]) rest k := by
  refine ⟨h.base, by rw [List.append_assoc]; exact h.watch, h.value, h.lev, h.pos, fun r c hc h2 hn => ?_, h.below⟩
  by_cases he : r = w.ref
  · subst he
    rw [hr] at hc
    cases hc
    exact ⟨nl, hw, fun _ _ => ⟨t, ht, hv, by rw [h.lev]; exact h.base.vals.levle t hv⟩⟩
  · exact h.semi r c hc h2 (by simp [he]; simpa using hn)

/-- An assignment while visiting. -/
theorem Visiting.assigned (h : Visiting nl p kept rest k) {lit ref : Nat} {kl : Klause} (hz : k.values lit = 0)
    (hr : k.klauses[ref]? = some kl) (hl : lit ∈ kl.lits) (ho : ∀ m ∈ kl.lits, m ≠ lit → k.values m = -1) :
    ∃ k', k.assign lit (some ref) = some k' ∧ Grows k k' ∧ Visiting nl p kept rest k' ∧ k'.values lit = 1 ∧
      k'.klauses[ref]? = some kl ∧ k'.propagated = k.propagated ∧ (UnitsTrue k → UnitsTrue k') ∧
      UnitsGrow k k' := by
  obtain ⟨k', r, e, hA, hb, hwat, hmea, extra, he, hx'⟩ := assign_ok h.base hz hr hl ho
  have hx : ∀ c ∈ extra, c.lits.length < 2 := fun c hc => by rw [(hx' c hc).1]; simp
  have hg := hA.grows hz h.base.vals
  refine ⟨k', e, hg, ⟨hb, ?_, ?_, ?_, ?_, ?_, ?_⟩, hA.true, ?_, hA.propagated, fun hu => hg.units hu he
    fun c hc l hl => ?_, hmea⟩
  · refine h.watch.extend (k' := k'.withList nl (kept ++ rest)) ?_ he hx
    show upd k'.watches _ _ = upd k.watches _ _
    rw [hwat]
  · rw [(hg.keep nl (by rw [h.value]; omega)).1]; exact h.value
  · rw [(hg.keep nl (by rw [h.value]; omega)).2.1, h.lev, hg.frame.level]
  · obtain ⟨t, ht⟩ := hg.trail
    rw [ht]; simp; have := h.pos; omega
  · intro i c hc h2 hn
    rw [he] at hc
    by_cases hlt : i < k.klauses.length
    · rw [List.getElem?_append_left hlt] at hc
      exact (h.semi i c hc h2 hn).grows hg (by have := h.pos; omega)
    · rw [List.getElem?_append_right (by omega)] at hc
      have := hx c (List.mem_of_getElem? hc); omega
  · intro i c hc h2
    rw [he] at hc
    by_cases hlt : i < k.klauses.length
    · rw [List.getElem?_append_left hlt] at hc
      exact (h.below i c hc h2).grows hg
    · rw [List.getElem?_append_right (by omega)] at hc
      have := hx c (List.mem_of_getElem? hc); omega
  · rw [he, List.getElem?_append_left (lt_of_get hr)]; exact hr
  · rw [(hx' c hc).1] at hl
    have : l = lit := by simpa using hl.symm
    rw [this, hA.true, hA.lev_self]
    exact ⟨rfl, (hx' c hc).2⟩

/-- What the visit of a watch list yields. -/
structure Visited (nl p : Nat) (k k' : Kitten) (kept : List Katch) (conflict : Option Nat) : Prop where
  base : Base k'
  watch : Watches (k'.withList nl kept)
  grows : Grows k k'
  propagated : k'.propagated = k.propagated
  units : UnitsTrue k → UnitsTrue k'
  measure : UnitsGrow k k'
  below : ∀ (r : Nat) (kl : Klause), k'.klauses[r]? = some kl → 2 ≤ kl.lits.length → Below k' kl.lits
  semi : conflict = none → ∀ (r : Nat) (kl : Klause), k'.klauses[r]? = some kl → 2 ≤ kl.lits.length →
    Semi k' (p + 1) kl.lits
  conflict : ∀ c, conflict = some c → ∃ kl : Klause, k'.klauses[c]? = some kl ∧ nl ∈ kl.lits ∧
    ∀ m ∈ kl.lits, k'.values m = -1

theorem Visited.cons {k' k'' : Kitten} {kept : List Katch} {conflict : Option Nat} (hg : Grows k k')
    (hp : k'.propagated = k.propagated) (hu : UnitsTrue k → UnitsTrue k')
    (hm : UnitsGrow k k') (h : Visited nl p k' k'' kept conflict) : Visited nl p k k'' kept conflict :=
  ⟨h.base, h.watch, hg.trans h.grows, h.propagated.trans hp, fun h' => h.units (hu h'), hm.trans h.measure, h.below, h.semi, h.conflict⟩

end

theorem binary_lits {lits : List Nat} (h : lits.length = 2) {a b : Nat} (ha : a ∈ lits) (hb : b ∈ lits) (hne : a ≠ b) :
    ∀ m ∈ lits, m = a ∨ m = b := by
  match lits, h with
  | [x, y], _ =>
    simp at ha hb ⊢
    omega

theorem visit_ok {nl p : Nat} : ∀ (rest kept : List Katch) (k : Kitten), Visiting nl p kept rest k →
    ∃ k' kept' conflict, Kitten.visit nl rest kept k = some (k', kept', conflict) ∧
      Visited nl p k k' kept' conflict := by
  intro rest
  induction rest with
  | nil =>
    intro kept k h
    refine ⟨k, kept, none, rfl, h.base, by simpa using h.watch, .refl k, rfl, id, .refl k, h.below, fun _ r kl hr h2 => ?_,
      fun c hc => by cases hc⟩
    exact h.semi r kl hr h2 (by simp)
  | cons w rest ih =>
    intro kept k h
    obtain ⟨kl, hr, hw, hb, hbn, hbin⟩ := h.watch.back nl w (by rw [withList_self]; simp)
    have hr : k.klauses[w.ref]? = some kl := hr
    have stop : ∀ c, (∀ m ∈ kl.lits, k.values m = -1) → c = w.ref →
        Visited nl p k k (kept ++ w :: rest) (some c) := by
      intro c hc e
      refine ⟨h.base, h.watch, .refl k, rfl, id, .refl k, h.below, fun hc => (by cases hc), fun c' hc' => ?_⟩
      cases hc'
      rw [e]
      exact ⟨kl, hr, by rcases hw.2 with e | e <;> exact List.mem_of_getElem? e, hc⟩
    unfold Kitten.visit
    by_cases h1 : 0 < k.values w.blit
    · rw [if_pos h1]
      exact ih _ k (h.skip hr hw hb (h.base.vals.pos.1 h1))
    rw [if_neg h1]
    have hnl : nl ∈ kl.lits := by rcases hw.2 with e | e <;> exact List.mem_of_getElem? e
    by_cases h2 : w.binary = true
    · rw [if_pos h2]
      have hlen : kl.lits.length = 2 := by rw [h2] at hbin; simpa using hbin.symm
      have hall := binary_lits hlen hb hnl hbn
      by_cases h3 : k.values w.blit < 0
      · rw [if_pos h3]
        refine ⟨_, _, _, rfl, stop _ (fun m hm => ?_) rfl⟩
        rcases hall m hm with rfl | rfl
        · exact h.base.vals.neg'.1 h3
        · exact h.value
      · rw [if_neg h3]
        have hz : k.values w.blit = 0 := by omega
        obtain ⟨k', e, hg, hvis, ht, hr', hpp, huu, hmm⟩ := h.assigned hz hr hb (fun m hm hne => by
          rcases hall m hm with e | rfl
          · exact absurd e hne
          · exact h.value)
        rw [e]
        obtain ⟨k'', kept', c, e', hV⟩ := ih _ k' (hvis.skip hr' hw hb ht)
        exact ⟨k'', kept', c, e', hV.cons hg hpp huu hmm⟩
    · rw [if_neg h2]
      obtain ⟨a, b, others, hl, hab⟩ := hw.cases
      obtain ⟨f1, f2, f3, lits, f5⟩ := kl
      simp only at hl hr hw hb hbin hnl stop
      subst hl
      rw [hr]
      simp only
      have hdist := h.base.store.distinct _ (List.mem_of_getElem? hr)
      simp only [List.map_cons] at hdist
      have hlen : (a :: b :: others).length ≠ 2 := by
        intro hc
        rw [hc] at hbin
        exact h2 (by simpa using hbin)
      generalize ho : a ^^^ b ^^^ nl = other
      have hpair : (nl = a ∧ other = b) ∨ (nl = b ∧ other = a) := by
        rcases hab with e | e
        · exact Or.inl ⟨e, by rw [← ho, e]; exact Core.xor_cancel a b⟩
        · exact Or.inr ⟨e, by rw [← ho, e]; exact Core.xor_cancel' a b⟩
      have hot : other ∈ a :: b :: others := by rcases hpair with ⟨_, e⟩ | ⟨_, e⟩ <;> rw [e] <;> simp
      have hna : a ≠ b := by rintro rfl; simp at hdist
      have hno : nl ≠ other := by
        rcases hpair with ⟨e1, e2⟩ | ⟨e1, e2⟩ <;> rw [e1, e2]
        · exact hna
        · exact Ne.symm hna
      have hsplit : ∀ m ∈ a :: b :: others, m = nl ∨ m = other ∨ m ∈ others := by
        intro m hm
        simp only [List.mem_cons] at hm
        rcases hpair with ⟨e1, e2⟩ | ⟨e1, e2⟩ <;> rw [e1, e2] <;> rcases hm with h | h | h <;> simp [h]
      by_cases h3 : 0 < k.values other
      · rw [if_pos h3]
        have hW := h.watch.blit hr hot (Ne.symm hno)
        have hvis : Visiting nl p kept ({ w with blit := other } :: rest) k :=
          ⟨h.base, hW, h.value, h.lev, h.pos, h.semi, h.below⟩
        exact ih _ k (hvis.skip hr hw hot (h.base.vals.pos.1 h3))
      rw [if_neg h3]
      cases hf : others.findIdx? fun m => decide (0 ≤ k.values m) with
      | none =>
        simp only
        have hfalse : ∀ m ∈ others, k.values m = -1 := by
          intro m hm
          have := List.findIdx?_eq_none_iff.1 hf m hm
          simp at this
          exact h.base.vals.neg'.1 this
        by_cases h4 : k.values other < 0
        · rw [if_pos h4]
          refine ⟨_, _, _, rfl, stop _ (fun m hm => ?_) rfl⟩
          rcases hsplit m hm with rfl | rfl | hm
          · exact h.value
          · exact h.base.vals.neg'.1 h4
          · exact hfalse m hm
        · rw [if_neg h4]
          have hz : k.values other = 0 := by omega
          obtain ⟨k', e, hg, hvis, ht, hr', hpp, huu, hmm⟩ := h.assigned hz hr hot (fun m hm hne => by
            rcases hsplit m hm with rfl | rfl | hm
            · exact h.value
            · exact absurd rfl hne
            · exact hfalse m hm)
          rw [e]
          obtain ⟨k'', kept', c, e', hV⟩ := ih _ k' (hvis.skip hr' hw hot ht)
          exact ⟨k'', kept', c, e', hV.cons hg hpp huu hmm⟩
      | some i =>
        simp only
        obtain ⟨hi, hval, _⟩ := List.findIdx?_eq_some_iff_getElem.1 hf
        generalize hrepl : others.getD i 0 = repl
        have hget : others[i] = repl := by rw [← hrepl]; simp [List.getD, hi]
        have hrm : repl ∈ others := by rw [← hget]; exact List.getElem_mem hi
        have hrv : 0 ≤ k.values repl := by rw [← hget]; simpa using hval
        have hdiv : ∀ m ∈ others, m / 2 ≠ a / 2 ∧ m / 2 ≠ b / 2 := by
          intro m hm
          simp only [List.nodup_cons, List.mem_cons, List.mem_map, not_or, not_exists, not_and] at hdist
          exact ⟨hdist.1.2 m hm, hdist.2.1 m hm⟩
        have hnr : nl ≠ repl := by
          intro hc
          have := hdiv repl hrm
          rcases hpair with ⟨e, _⟩ | ⟨e, _⟩ <;> rw [← hc, e] at this
          · exact this.1 rfl
          · exact this.2 rfl
        have hor : other ≠ repl := by
          intro hc
          have := hdiv repl hrm
          rcases hpair with ⟨_, e⟩ | ⟨_, e⟩ <;> rw [← hc, e] at this
          · exact this.2 rfl
          · exact this.1 rfl
        have hperm : (other :: repl :: others.set i nl).Perm (a :: b :: others) := by
          have h1 : (repl :: others.set i nl).Perm (nl :: others) := by
            have := List.set_set_perm (as := nl :: others) (i := 0) (j := i + 1) (by simp) (by simpa using hi)
            simpa [hget] using this
          rcases hpair with ⟨e1, e2⟩ | ⟨e1, e2⟩
          · subst e1 e2
            exact (h1.cons _).trans (List.Perm.swap _ _ _)
          · subst e1 e2
            exact h1.cons _
        have hev := evolve_setLits hr hperm
        have hW := h.watch.move (lits := other :: repl :: others.set i nl) hr
          (fun m => by
            show IsWatch (a :: b :: others) m ↔ _
            rw [isWatch_two]
            rcases hpair with ⟨e1, e2⟩ | ⟨e1, e2⟩ <;> rw [e1, e2]
            exact Or.comm) hno hnr hor (fun m => isWatch_two) hperm hlen
        have hbase : Base ((k.setLits w.ref (other :: repl :: others.set i nl)).watch repl other w.ref false) :=
          h.base.permute hev (by simp [Kitten.setLits, Kitten.watch]) rfl
        have hgr : Grows k ((k.setLits w.ref (other :: repl :: others.set i nl)).watch repl other w.ref false) :=
          ⟨⟨rfl, rfl, rfl, rfl, rfl, rfl, rfl, rfl, rfl, rfl, hev⟩, ⟨[], by simp [Kitten.setLits, Kitten.watch]⟩,
            fun _ _ => ⟨rfl, rfl, rfl⟩, fun m h1 h2 => by
              have h1 : k.values m = -1 := h1
              omega⟩
        have hvis : Visiting nl p kept rest
            ((k.setLits w.ref (other :: repl :: others.set i nl)).watch repl other w.ref false) := by
          refine ⟨hbase, hW, h.value, h.lev, h.pos, fun r c hc h2' hn => ?_, fun r c hc h2' => ?_⟩
          all_goals
            have hc : (k.klauses.modify w.ref fun c => { c with lits := other :: repl :: others.set i nl })[r]? = some c := hc
            rw [modify_get] at hc
            by_cases hx : w.ref = r
            · subst hx
              rw [if_pos rfl, hr] at hc
              cases hc
              refine ⟨repl, isWatch_two.2 (Or.inr rfl), fun h1 => ?_⟩
              have h1 : k.values repl = -1 := h1
              omega
            · rw [if_neg hx] at hc
              first
              | exact h.semi r c hc h2' (by
                  rw [List.map_cons, List.mem_cons, not_or]; exact ⟨fun hc => hx hc.symm, hn⟩)
              | exact h.below r c hc h2'
        obtain ⟨k'', kept', c, e', hV⟩ := ih _ _ hvis
        refine ⟨k'', kept', c, e', hV.cons hgr rfl (fun hu r c l hc hl => ?_) ⟨⟨[], by simp [Kitten.setLits, Kitten.watch]⟩, Nat.le_refl _⟩⟩
        obtain ⟨c', g1, g2, _⟩ := hev.back (by simp [Kitten.setLits]) hc
        rw [hl] at g2
        exact hu r c' l g1 (perm_singleton g2.symm)

/-- All clauses of two and more literals. -/
def AllSemi (k : Kitten) (p : Nat) : Prop :=
  ∀ (r : Nat) (kl : Klause), k.klauses[r]? = some kl → 2 ≤ kl.lits.length → Semi k p kl.lits

def AllBelow (k : Kitten) : Prop :=
  ∀ (r : Nat) (kl : Klause), k.klauses[r]? = some kl → 2 ≤ kl.lits.length → Below k kl.lits

/-- A falsified clause with a literal of the current level. -/
def Falsified (k : Kitten) (c : Nat) : Prop := ∃ kl : Klause, k.klauses[c]? = some kl ∧
  (∀ m ∈ kl.lits, k.values m = -1) ∧ ∃ m ∈ kl.lits, k.lev m = k.level

theorem propagateLoop_ok : ∀ (n : Nat) (k : Kitten), Inv k → k.propagated ≤ k.trail.length →
    AllSemi k k.propagated → k.n < n + k.propagated →
    ∃ k' conflict, Kitten.propagateLoop n k = some (k', conflict) ∧ Inv k' ∧ Grows k k' ∧ (UnitsTrue k → UnitsTrue k') ∧
      UnitsGrow k k' ∧
      (conflict = none → k'.propagated = k'.trail.length ∧ AllSemi k' k'.trail.length) ∧
      (∀ c, conflict = some c → AllBelow k' ∧ Falsified k' c) := by
  intro n
  induction n with
  | zero =>
    intro k h hp _ hn
    have := h.vals.trail_le
    omega
  | succ n ih =>
    intro k h hp hs hn
    unfold Kitten.propagateLoop
    cases ht : k.trail[k.propagated]? with
    | none =>
      simp only
      have hlen : k.trail.length ≤ k.propagated := List.getElem?_eq_none_iff.1 ht
      have he : k.propagated = k.trail.length := by omega
      exact ⟨k, none, rfl, h, .refl k, id, .refl k, fun _ => ⟨he, by rw [← he]; exact hs⟩, fun c hc => by cases hc⟩
    | some lit =>
      simp only
      have hlt : k.propagated < k.trail.length := lt_of_get ht
      have hdrop : k.trail.drop k.propagated = lit :: k.trail.drop (k.propagated + 1) := by
        rw [List.drop_eq_getElem_cons hlt]
        congr 1
        rw [List.getElem?_eq_getElem hlt] at ht
        exact Option.some.inj ht
      have hlev : k.lev lit = k.level := h.vals.pending lit (by rw [hdrop]; simp)
      have hmem : lit ∈ k.trail := List.mem_of_getElem? ht
      have hvis : Visiting (neg lit) k.propagated [] (k.watches (neg lit)) k := by
        refine ⟨h.toBase, ?_, ?_, by rw [lev_neg]; exact hlev, hlt, fun r kl hr h2 hn' => ?_,
          fun r kl hr h2 => (hs r kl hr h2).below h.vals.pending⟩
        · have : k.withList (neg lit) ([] ++ k.watches (neg lit)) = k := by
            unfold Kitten.withList
            have : upd k.watches (neg lit) ([] ++ k.watches (neg lit)) = k.watches := by
              funext x; unfold upd; split
              · rename_i e; rw [e]; rfl
              · rfl
            rw [this]
          rw [this]; exact h.watch
        · rw [h.vals.anti, h.vals.tval lit hmem]
        · obtain ⟨w, hw, hsem⟩ := hs r kl hr h2
          refine ⟨w, hw, fun h1 h2' => hsem h1 fun hc => ?_⟩
          rw [hdrop] at hc
          rcases List.mem_cons.1 hc with e | hc
          · obtain ⟨x, hx, e'⟩ := h.watch.watched r kl w hr hw
            refine hn' (List.mem_map.2 ⟨x, ?_, e'⟩)
            rw [← e, Spec.neg_neg]; exact hx
          · exact h2' hc
      obtain ⟨k', kept, conflict, e, hV⟩ := visit_ok _ _ _ hvis
      unfold Kitten.propagateLit
      rw [e]
      simp only
      obtain ⟨t, htr⟩ := hV.grows.trail
      have hinv : Inv { k' with watches := upd k'.watches (neg lit) kept, propagated := k'.propagated + 1 } := by
        refine ⟨⟨⟨hV.base.vals.dom, hV.base.vals.anti, hV.base.vals.valid, hV.base.vals.count, hV.base.vals.nodup,
          hV.base.vals.tval, hV.base.vals.flushed, hV.base.vals.levle, hV.base.vals.sorted, hV.base.vals.high,
          fun l hl => hV.base.vals.pending l ?_⟩, ⟨hV.base.why.root, hV.base.why.decision, hV.base.why.first,
          hV.base.why.reason⟩, ⟨hV.base.store.valid, hV.base.store.distinct, hV.base.store.learned,
          hV.base.store.flag, hV.base.store.empty, hV.base.store.units, hV.base.store.unit,
          hV.base.store.inconsistent⟩⟩, ⟨hV.watch.watched, hV.watch.back, hV.watch.once⟩⟩
        have hl : l ∈ k'.trail.drop (k'.propagated + 1) := hl
        rw [← List.drop_drop] at hl
        exact List.mem_of_mem_drop hl
      have hgr : Grows k { k' with watches := upd k'.watches (neg lit) kept, propagated := k'.propagated + 1 } :=
        ⟨⟨hV.grows.frame.level, hV.grows.frame.exports, hV.grows.frame.imports, hV.grows.frame.antecedents,
          hV.grows.frame.assumptions, hV.grows.frame.failed, hV.grows.frame.failing, hV.grows.frame.status,
          hV.grows.frame.core, hV.grows.frame.inconsistent, hV.grows.frame.evolve⟩, ⟨t, htr⟩, hV.grows.keep,
          hV.grows.fresh⟩
      cases hcon : conflict with
      | some c =>
        refine ⟨_, _, rfl, hinv, hgr, hV.units, ⟨hV.measure.append, hV.measure.le⟩, fun hc => (by cases hc), fun c' hc' => ⟨hV.below, ?_⟩⟩
        cases hc'
        obtain ⟨kl, g1, g2, g3⟩ := hV.conflict c hcon
        refine ⟨kl, g1, g3, neg lit, g2, ?_⟩
        show k'.lev (neg lit) = k'.level
        rw [(hV.grows.keep (neg lit) (by rw [hvis.value]; omega)).2.1, hV.grows.frame.level]
        exact hvis.lev
      | none =>
        simp only
        have hn' : ({ k' with watches := upd k'.watches (neg lit) kept, propagated := k'.propagated + 1 } : Kitten).n = k.n := by
          show k'.exports.length = _
          rw [hV.grows.frame.exports]
        obtain ⟨k'', c, e2, g1, g2, gu, gm, g3, g4⟩ := ih _ hinv (by
          show k'.propagated + 1 ≤ k'.trail.length
          rw [hV.propagated, htr]; simp; omega) (by
          show AllSemi _ (k'.propagated + 1)
          rw [hV.propagated]
          exact hV.semi hcon) (by
          rw [hn']
          show k.n < n + (k'.propagated + 1)
          rw [hV.propagated]; omega)
        exact ⟨k'', c, e2, g1, hgr.trans g2, fun h' => gu (hV.units h'), hV.measure.trans ⟨gm.append, gm.le⟩, g3, g4⟩

/-- Propagation either completes without falsified clause or finds a falsified clause. -/
theorem propagate_ok {k : Kitten} (h : Inv k) (hp : k.propagated ≤ k.trail.length) (hs : AllSemi k k.propagated) :
    ∃ k' conflict, k.propagate = some (k', conflict) ∧ Inv k' ∧ Grows k k' ∧ (UnitsTrue k → UnitsTrue k') ∧
      UnitsGrow k k' ∧
      (conflict = none → k'.propagated = k'.trail.length ∧ AllSemi k' k'.trail.length) ∧
      (∀ c, conflict = some c → AllBelow k' ∧ Falsified k' c) := by
  unfold Kitten.propagate
  exact propagateLoop_ok _ k h hp hs (by show k.exports.length < _; omega)

end Verif.Kitten
