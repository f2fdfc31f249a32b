import Verif.Proofs.Simp.Substitute

/-!
# Equivalent literal substitution: one round
-/

namespace Verif.Simp

open Verif.Spec Verif.Model Verif.Model.Extend

/-- The invariant while clauses are substituted. -/
structure SInvariant (orig : List (List Nat)) (repr : Nat → Nat) (G : Nat → Prop) (s : State) : Prop where
  inv : Inv orig none s
  linked : Linked (Ghost G s) repr
  ghost : ∀ r, G r → r < s.arena.length
  range : ∀ l, s.InRange l → s.InRange (repr l)
  kept : ∀ l, s.removed (l / 2) = false → s.removed (repr l / 2) = false

theorem SInvariant.added {orig : List (List Nat)} {repr : Nat → Nat} {G : Nat → Prop} {s s' : State}
    (h : SInvariant orig repr G s) (hi : Inv orig none s') (ha : Added s s') : SInvariant orig repr G s' :=
  ⟨hi, h.linked.mono fun c hc => hc.mono (fun l hl => by rw [ha.trail]; exact hl) (fun _ h => h) fun r hr => ha.clause r (h.ghost r hr),
    fun r hr => Nat.lt_of_lt_of_le (h.ghost r hr) ha.length,
    fun l hl => by unfold State.InRange at hl ⊢; rw [ha.exports] at hl ⊢; exact h.range l hl,
    fun l hl => by rw [ha.removed] at hl ⊢; exact h.kept l hl⟩

theorem SInvariant.grow {orig : List (List Nat)} {repr : Nat → Nat} {G V : Nat → Prop} {s s' : State}
    (h : SInvariant orig repr G s) (hi : Inv orig none s') (ha : Grow V s s') : SInvariant orig repr G s' :=
  ⟨hi, h.linked.mono fun c hc => hc.mono (fun l hl => ha.mem_trail h.inv.struct hi.struct hl) (fun _ h => h) fun r _ => ha.clause r,
    fun r hr => by rw [ha.arena]; exact h.ghost r hr,
    fun l hl => (ha.inRange _).2 (h.range l ((ha.inRange _).1 hl)),
    fun l hl => by rw [ha.removed] at hl ⊢; exact h.kept l hl⟩

theorem SInvariant.formula {orig : List (List Nat)} {repr : Nat → Nat} {G : Nat → Prop} {s : State}
    (h : SInvariant orig repr G s) : Linked s.formula repr := h.linked.mono fun _ hc => hc.formula

/-! ## Binary clauses -/

/-- Result of substituting binary clauses. -/
structure BOut (repr : Nat → Nat) (s s' : State) (rs units deleted removed : List Nat) : Prop where
  added : Added s s'
  why : ∀ u ∈ units, ∃ r ∈ rs, (s.clause r).garbage = false ∧ (s.clause r).redundant = false ∧
    (∃ l, l ∈ (s.clause r).lits) ∧ ∀ l ∈ (s.clause r).lits, repr l = u
  nodup : (deleted ++ removed).Nodup
  mem : ∀ r ∈ deleted ++ removed, r ∈ rs ∧ (s.clause r).garbage = false ∧ (s.clause r).redundant = false
  del : ∀ r ∈ deleted, (∃ a ∈ (s.clause r).lits, ∃ b ∈ (s.clause r).lits, repr b = Spec.neg (repr a)) ∨
    ∃ u ∈ units, ∃ l ∈ (s.clause r).lits, repr l = u
  rem : ∀ r ∈ removed, ∃ k, s.arena.length ≤ k ∧ (s'.clause k).garbage = false ∧ (s'.clause k).redundant = false ∧
    ∀ m ∈ (s'.clause k).lits, ∃ l ∈ (s.clause r).lits, m = repr l
  cover : ∀ r ∈ rs, (s.clause r).garbage = false → (s.clause r).redundant = false → (s.clause r).lits.length = 2 →
    (∀ l ∈ (s.clause r).lits, repr l = l) ∨ r ∈ deleted ++ removed
  new : ∀ k, s.arena.length ≤ k → k < s'.arena.length → ∀ l ∈ (s'.clause k).lits, repr l = l

theorem SInvariant.substituteBinaries {orig : List (List Nat)} {repr : Nat → Nat} {G : Nat → Prop}
    (hidem : ∀ l, repr (repr l) = repr l) : ∀ (rs : List Nat) {s : State},
    SInvariant orig repr G s → rs.Nodup → (∀ r ∈ rs, r < s.arena.length) →
    Inv orig none (s.substituteBinaries repr rs).1 ∧
    BOut repr s (s.substituteBinaries repr rs).1 rs (s.substituteBinaries repr rs).2.1
      (s.substituteBinaries repr rs).2.2.1 (s.substituteBinaries repr rs).2.2.2
  | [], s, h, _, _ => ⟨h.inv, .refl _, fun u hu => (by cases hu), List.nodup_nil, fun r hr => (by cases hr),
      fun r hr => (by cases hr), fun r hr => (by cases hr), fun r hr => (by cases hr),
      fun k h1 h2 => absurd h2 (Nat.not_lt.2 h1)⟩
  | r :: rs, s, h, hn, hlt => by
    obtain ⟨n1, n2⟩ := List.nodup_cons.1 hn
    have hlt' : ∀ k ∈ rs, k < s.arena.length := fun k hk => hlt k (List.mem_cons_of_mem _ hk)
    have skip : ((s.clause r).garbage = false → (s.clause r).redundant = false → (s.clause r).lits.length = 2 →
        ∀ l ∈ (s.clause r).lits, repr l = l) → Inv orig none (s.substituteBinaries repr rs).1 ∧
        BOut repr s (s.substituteBinaries repr rs).1 (r :: rs) (s.substituteBinaries repr rs).2.1
          (s.substituteBinaries repr rs).2.2.1 (s.substituteBinaries repr rs).2.2.2 := by
      intro hs
      obtain ⟨i1, i2⟩ := SInvariant.substituteBinaries hidem rs h n2 hlt'
      refine ⟨i1, i2.added, fun u hu => ?_, i2.nodup, fun k hk => ?_, i2.del, i2.rem, fun k hk g1 g2 g3 => ?_, i2.new⟩
      · obtain ⟨k, k1, k2⟩ := i2.why u hu
        exact ⟨k, List.mem_cons_of_mem _ k1, k2⟩
      · obtain ⟨k1, k2⟩ := i2.mem k hk
        exact ⟨List.mem_cons_of_mem _ k1, k2⟩
      · rcases List.mem_cons.1 hk with e | hk
        · subst e; exact Or.inl (hs g1 g2 g3)
        · exact i2.cover k hk g1 g2 g3
    unfold State.substituteBinaries
    cases hb : ((s.clause r).garbage || (s.clause r).redundant) with
    | true =>
      dsimp only
      refine skip fun g1 g2 => ?_
      rw [g1, g2] at hb; cases hb
    | false =>
      rw [Bool.or_eq_false_iff] at hb
      obtain ⟨hg, hred⟩ := hb
      match hl : (s.clause r).lits with
      | [] => dsimp only; exact skip fun _ _ g3 => by rw [hl] at g3; cases g3
      | [_] => dsimp only; exact skip fun _ _ g3 => by rw [hl] at g3; cases g3
      | _ :: _ :: _ :: _ => dsimp only; exact skip fun _ _ g3 => by rw [hl] at g3; simp at g3
      | [a, b] =>
        dsimp only
        have hab : ∀ m, m ∈ (s.clause r).lits ↔ (m = (if a < b then a else b) ∨ m = (if a < b then b else a)) := by
          intro m
          rw [hl]
          simp only [List.mem_cons, List.not_mem_nil, or_false]
          split
          · exact Iff.rfl
          · exact Or.comm
        generalize (if a < b then a else b) = x at hab ⊢
        generalize (if a < b then b else a) = y at hab ⊢
        have hx := (hab x).2 (Or.inl rfl)
        have hy := (hab y).2 (Or.inr rfl)
        by_cases c1 : repr y = Spec.neg (repr x)
        · rw [if_pos c1]
          obtain ⟨i1, i2⟩ := SInvariant.substituteBinaries hidem rs h n2 hlt'
          cases hp : s.substituteBinaries repr rs with
          | mk s' q =>
            obtain ⟨us, ds, rms⟩ := q
            rw [hp] at i1 i2
            dsimp only at i1 i2 ⊢
            refine ⟨i1, i2.added, fun u hu => ?_, ?_, fun k hk => ?_, fun k hk => ?_, i2.rem, fun k hk g1 g2 g3 => ?_, i2.new⟩
            · obtain ⟨k, k1, k2⟩ := i2.why u hu
              exact ⟨k, List.mem_cons_of_mem _ k1, k2⟩
            · rw [List.cons_append, List.nodup_cons]
              exact ⟨fun hm => n1 (i2.mem r hm).1, i2.nodup⟩
            · rcases List.mem_cons.1 (show k ∈ r :: (ds ++ rms) from hk) with e | hk
              · subst e; exact ⟨by simp, hg, hred⟩
              · obtain ⟨k1, k2⟩ := i2.mem k hk
                exact ⟨List.mem_cons_of_mem _ k1, k2⟩
            · rcases List.mem_cons.1 hk with e | hk
              · subst e; exact Or.inl ⟨x, hx, y, hy, c1⟩
              · exact i2.del k hk
            · rcases List.mem_cons.1 hk with e | hk
              · subst e; exact Or.inr (by simp)
              · exact (i2.cover k hk g1 g2 g3).imp (fun h => h) fun h => List.mem_cons_of_mem _ h
        · rw [if_neg c1]
          by_cases c2 : repr y = repr x
          · rw [if_pos c2]
            obtain ⟨i1, i2⟩ := SInvariant.substituteBinaries hidem rs h n2 hlt'
            cases hp : s.substituteBinaries repr rs with
            | mk s' q =>
              obtain ⟨us, ds, rms⟩ := q
              rw [hp] at i1 i2
              dsimp only at i1 i2 ⊢
              refine ⟨i1, i2.added, fun u hu => ?_, ?_, fun k hk => ?_, fun k hk => ?_, i2.rem, fun k hk g1 g2 g3 => ?_, i2.new⟩
              · rcases List.mem_append.1 hu with hu | hu
                · obtain ⟨k, k1, k2⟩ := i2.why u hu
                  exact ⟨k, List.mem_cons_of_mem _ k1, k2⟩
                · refine ⟨r, by simp, hg, hred, ⟨x, hx⟩, fun l hl' => ?_⟩
                  rw [List.mem_singleton.1 hu]
                  rcases (hab l).1 hl' with e | e
                  · rw [e]
                  · rw [e]; exact c2
              · rw [List.cons_append, List.nodup_cons]
                exact ⟨fun hm => n1 (i2.mem r hm).1, i2.nodup⟩
              · rcases List.mem_cons.1 (show k ∈ r :: (ds ++ rms) from hk) with e | hk
                · subst e; exact ⟨by simp, hg, hred⟩
                · obtain ⟨k1, k2⟩ := i2.mem k hk
                  exact ⟨List.mem_cons_of_mem _ k1, k2⟩
              · rcases List.mem_cons.1 hk with e | hk
                · subst e; exact Or.inr ⟨repr x, by simp, x, hx, rfl⟩
                · rcases i2.del k hk with h1 | ⟨u, u1, u2⟩
                  · exact Or.inl h1
                  · exact Or.inr ⟨u, List.mem_append_left _ u1, u2⟩
              · rcases List.mem_cons.1 hk with e | hk
                · subst e; exact Or.inr (by simp)
                · exact (i2.cover k hk g1 g2 g3).imp (fun h => h) fun h => List.mem_cons_of_mem _ h
          · rw [if_neg c2]
            by_cases c3 : (decide (x = repr x) && decide (y = repr y)) = true
            · rw [if_pos c3]
              simp only [Bool.and_eq_true, decide_eq_true_eq] at c3
              refine skip fun _ _ _ l hl' => ?_
              rcases (hab l).1 hl' with e | e
              · rw [e]; exact c3.1.symm
              · rw [e]; exact c3.2.symm
            · rw [if_neg c3]
              have hS := h.inv.struct
              have hrup : RUP s.formula [repr x, repr y] := by
                refine Or.inl (h.formula.clause (Struct.clause_formula hg) fun m hm => Or.inr (.assumed ?_))
                rw [neg_neg]
                rcases (hab m).1 hm with e | e <;> rw [e] <;> simp
              have hinv : Inv orig none (s.newClause [repr x, repr y] false) := by
                refine h.inv.newClause ?_ ?_ ?_ (by simp) ?_ hrup
                · intro l hl'
                  simp only [List.mem_cons, List.not_mem_nil, or_false] at hl'
                  rcases hl' with e | e <;> rw [e]
                  · exact h.range _ (hS.clause r hg x hx)
                  · exact h.range _ (hS.clause r hg y hy)
                · simp only [List.nodup_cons, List.mem_cons, List.not_mem_nil, or_false, not_false_eq_true, List.nodup_nil, and_true]
                  exact fun e => c2 e.symm
                · intro l hl' h1
                  simp only [List.mem_cons, List.not_mem_nil, or_false] at hl' h1
                  rcases hl' with e | e <;> rw [e] at h1 <;> rcases h1 with h1 | h1
                  · exact neg_ne _ h1
                  · exact c1 h1.symm
                  · exact c1 (by rw [← h1, neg_neg])
                  · exact neg_ne _ h1
                · intro _ l hl'
                  simp only [List.mem_cons, List.not_mem_nil, or_false] at hl'
                  rcases hl' with e | e <;> rw [e]
                  · exact h.kept _ (hS.removed r hg hred x hx)
                  · exact h.kept _ (hS.removed r hg hred y hy)
              have ha := added_new s [repr x, repr y] false
              have hlen := length_new s [repr x, repr y] false
              have hk0 : (s.newClause [repr x, repr y] false).clause s.arena.length = ⟨[repr x, repr y], false, false⟩ := by
                rw [clause_new, if_pos rfl]; rfl
              generalize s.newClause [repr x, repr y] false = s1 at hinv ha hlen hk0 ⊢
              obtain ⟨i1, i2⟩ := SInvariant.substituteBinaries hidem rs (h.added hinv ha) n2
                (fun k hk => by rw [hlen]; have := hlt' k hk; omega)
              cases hp : s1.substituteBinaries repr rs with
              | mk s' q =>
                obtain ⟨us, ds, rms⟩ := q
                rw [hp] at i1 i2
                dsimp only at i1 i2 ⊢
                have cl : ∀ k ∈ rs, s1.clause k = s.clause k := fun k hk => ha.clause k (hlt' k hk)
                refine ⟨i1, ha.trans i2.added, fun u hu => ?_, ?_, fun k hk => ?_, fun k hk => ?_, fun k hk => ?_,
                  fun k hk g1 g2 g3 => ?_, fun k h1 h2 => ?_⟩
                · obtain ⟨k, k1, k2⟩ := i2.why u hu
                  rw [cl k k1] at k2
                  exact ⟨k, List.mem_cons_of_mem _ k1, k2⟩
                · rw [List.perm_middle.nodup_iff, List.nodup_cons]
                  exact ⟨fun hm => n1 (i2.mem r hm).1, i2.nodup⟩
                · rcases List.mem_cons.1 (List.perm_middle.mem_iff.1 hk) with e | hk
                  · subst e; exact ⟨by simp, hg, hred⟩
                  · obtain ⟨k1, k2⟩ := i2.mem k hk
                    rw [cl k k1] at k2
                    exact ⟨List.mem_cons_of_mem _ k1, k2⟩
                · have := i2.del k hk
                  rwa [cl k (i2.mem k (List.mem_append_left _ hk)).1] at this
                · rcases List.mem_cons.1 hk with e | hk
                  · subst e
                    refine ⟨s.arena.length, Nat.le_refl _, ?_⟩
                    rw [i2.added.clause _ (by omega), hk0]
                    refine ⟨rfl, rfl, fun m hm => ?_⟩
                    simp only [List.mem_cons, List.not_mem_nil, or_false] at hm
                    rcases hm with e | e
                    · exact ⟨x, hx, e⟩
                    · exact ⟨y, hy, e⟩
                  · obtain ⟨j, j1, j2⟩ := i2.rem k hk
                    rw [cl k (i2.mem k (List.mem_append_right _ hk)).1] at j2
                    exact ⟨j, by omega, j2⟩
                · rcases List.mem_cons.1 hk with e | hk
                  · subst e; exact Or.inr (List.mem_append_right _ (by simp))
                  · have := i2.cover k hk
                    rw [cl k hk] at this
                    exact (this g1 g2 g3).imp (fun h => h) fun h => List.perm_middle.mem_iff.2 (List.mem_cons_of_mem _ h)
                · by_cases hk : k < s1.arena.length
                  · have e : k = s.arena.length := by omega
                    rw [i2.added.clause _ hk, e, hk0]
                    intro l hl'
                    simp only [List.mem_cons, List.not_mem_nil, or_false] at hl'
                    rcases hl' with e | e <;> rw [e] <;> exact hidem _
                  · exact i2.new k (by omega) h2

/-! ## Deleting clauses -/

/-- The clauses in the list became garbage. -/
structure Cut (L : List Nat) (s s' : State) : Prop where
  toState : s'.toState = s.toState
  trail : s'.trail = s.trail
  removed : s'.removed = s.removed
  inconsistent : s'.inconsistent = s.inconsistent
  clause : ∀ k, k ∉ L → s'.clause k = s.clause k
  garbage : ∀ k ∈ L, (s'.clause k).garbage = true
  length : s'.arena.length = s.arena.length

theorem Cut.values {L : List Nat} {s s' : State} (h : Cut L s s') : s'.values = s.values := by
  show s'.toState.values = s.toState.values
  rw [h.toState]

theorem Cut.exports {L : List Nat} {s s' : State} (h : Cut L s s') : s'.exports = s.exports := by
  show s'.toState.exports = s.toState.exports
  rw [h.toState]

theorem length_garbage (s : State) (r : Nat) : (s.markGarbage r).arena.length = s.arena.length := by
  show (s.arena.set r _).length = _
  simp

theorem cut_one {s : State} {r : Nat} (hg : (s.clause r).garbage = false) : Cut [r] s (s.markGarbage r) := by
  have hc := clause_garbage (s := s) (clause_lt hg)
  refine ⟨rfl, rfl, rfl, rfl, fun k hk => ?_, fun k hk => ?_, length_garbage s r⟩
  · rw [hc, if_neg (by simpa using hk)]
  · rw [hc, if_pos (by simpa using hk)]

theorem Cut.cons {r : Nat} {L : List Nat} {a b c : State} (h : Cut [r] a b) (h' : Cut L b c) : Cut (r :: L) a c := by
  refine ⟨h'.toState.trans h.toState, h'.trail.trans h.trail, h'.removed.trans h.removed,
    h'.inconsistent.trans h.inconsistent, fun k hk => ?_, fun k hk => ?_, h'.length.trans h.length⟩
  · simp only [List.mem_cons, not_or] at hk
    rw [h'.clause k hk.2, h.clause k (by simpa using hk.1)]
  · by_cases hkL : k ∈ L
    · exact h'.garbage k hkL
    · rw [h'.clause k hkL]
      rcases List.mem_cons.1 hk with e | hk
      · exact h.garbage k (by simpa using e)
      · exact absurd hk hkL

/-- What remains when the clauses in the list are deleted. -/
def Rest (L : List Nat) (s : State) : Formula := Ghost (fun r => r ∉ L) s

theorem Inv.deleteAll {orig : List (List Nat)} : ∀ (L : List Nat) {s : State}, Inv orig none s → L.Nodup →
    (∀ r ∈ L, (s.clause r).garbage = false) →
    (∀ r ∈ L, (s.clause r).redundant = true ∨ Entails (Rest L s) (s.clause r).lits) →
    Inv orig none (s.deleteAll L) ∧ Cut L s (s.deleteAll L)
  | [], s, h, _, _, _ => ⟨h, rfl, rfl, rfl, rfl, fun _ _ => rfl, fun k hk => (by cases hk), rfl⟩
  | r :: L, s, h, hn, hg, he => by
    obtain ⟨n1, n2⟩ := List.nodup_cons.1 hn
    have hgr := hg r (by simp)
    have hcut := cut_one hgr
    have cl : ∀ k ∈ L, (s.markGarbage r).clause k = s.clause k := fun k hk =>
      hcut.clause k (by simp only [List.mem_singleton]; rintro rfl; exact n1 hk)
    have i1 : Inv orig none (s.markGarbage r) := by
      refine h.markGarbage hgr ((he r (by simp)).imp (fun h => h) fun hE σ hσ => hE σ fun c hc => hσ c ?_)
      rcases hc with hc | ⟨k, k0, k1, k2, rfl⟩
      · exact Or.inl hc
      · simp only [List.mem_cons, not_or] at k0
        rw [← hcut.clause k (by simpa using k0.1)] at k1 k2 ⊢
        exact Or.inr ⟨k, k1, k2, rfl⟩
    unfold State.deleteAll
    obtain ⟨j1, j2⟩ := Inv.deleteAll L i1 n2 (fun k hk => by rw [cl k hk]; exact hg k (List.mem_cons_of_mem _ hk))
      (fun k hk => by
        rw [cl k hk]
        refine (he k (List.mem_cons_of_mem _ hk)).imp (fun h => h) fun hE σ hσ => hE σ fun c hc => hσ c ?_
        rcases hc with hc | ⟨j, j0, j1, j2, rfl⟩
        · exact Or.inl hc
        · simp only [List.mem_cons, not_or] at j0
          rw [← hcut.clause j (by simpa using j0.1)] at j1 j2 ⊢
          exact Or.inr ⟨j, j0.2, j1, j2, rfl⟩)
    exact ⟨j1, hcut.cons j2⟩

theorem SInvariant.cut {orig : List (List Nat)} {repr : Nat → Nat} {G : Nat → Prop} {s s' : State} {L : List Nat}
    (h : SInvariant orig repr G s) (hi : Inv orig none s') (hc : Cut L s s') (hL : ∀ r ∈ L, ¬ G r) : SInvariant orig repr G s' :=
  ⟨hi, h.linked.mono fun c hc' => hc'.mono (fun l hl => by rw [hc.trail]; exact hl) (fun _ h => h)
      fun r hr => hc.clause r fun hm => hL r hm hr,
    fun r hr => by rw [hc.length]; exact h.ghost r hr,
    fun l hl => by unfold State.InRange at hl ⊢; rw [hc.exports] at hl ⊢; exact h.range l hl,
    fun l hl => by rw [hc.removed] at hl ⊢; exact h.kept l hl⟩

theorem SInvariant.rest {orig : List (List Nat)} {repr : Nat → Nat} {G : Nat → Prop} {s : State} {L : List Nat}
    (h : SInvariant orig repr G s) (hL : ∀ r ∈ L, ¬ G r) : Linked (Rest L s) repr :=
  h.linked.mono fun c hc' => hc'.mono (fun l hl => hl) (fun r hr hm => hL r hm hr) fun r _ => rfl

end Verif.Simp
