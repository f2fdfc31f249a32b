import Verif.Proofs.Simp.Core

/-!
# Gates
-/

namespace Verif.Simp

open Verif.Spec Verif.Model Verif.Model.Extend

/-- What resolution relies on: the gate clauses without the literal are inconsistent, and resolving
gate clauses with each other is useless unless `resolve`. -/
structure GateOk (s : State) (x : Nat) (P N : List Nat) (G : Gates) : Prop where
  pos : ∀ r ∈ G.pos, r ∈ P
  neg : ∀ r ∈ G.neg, r ∈ N
  unsat : ∀ σ, (∀ l ∈ s.trail, litTrue σ l) → (∀ r ∈ G.pos, SatClause σ (except (s.clause r).lits x)) →
    (∀ r ∈ G.neg, SatClause σ (except (s.clause r).lits (Spec.neg x))) → False
  cover : G.resolve = true ∨ ∀ r ∈ G.pos, ∀ q ∈ G.neg,
    (∀ σ, SatClause σ (except (s.clause r).lits x) ∨
      SatClause σ (except (s.clause q).lits (Spec.neg x))) ∨
    (∃ r' ∈ P, r' ∉ G.pos ∧ SameLits (s.clause r').lits (s.clause r).lits) ∨
    ∃ q' ∈ N, q' ∉ G.neg ∧ SameLits (s.clause q').lits (s.clause q).lits

theorem GateOk.swap {s : State} {x : Nat} {P N : List Nat} {G : Gates}
    (h : GateOk s (Spec.neg x) N P G) : GateOk s x P N G.swap := by
  refine ⟨h.neg, h.pos, fun σ h1 h2 h3 => ?_, ?_⟩
  · exact h.unsat σ h1 h3 (by rw [neg_neg]; exact h2)
  · rcases h.cover with h1 | h1
    · exact Or.inl h1
    · refine Or.inr fun r hr q hq => ?_
      rcases h1 q hq r hr with h2 | h2 | h2
      · refine Or.inl fun σ => ?_
        have := h2 σ
        rw [neg_neg] at this
        exact this.symm
      · exact Or.inr (Or.inr h2)
      · exact Or.inr (Or.inl h2)

/-- The result of looking for a gate. -/
structure Found (orig : List (List Nat)) (v : Option Nat) (x : Nat) (P N : List Nat) (s : State)
    (out : State × Option Gates) : Prop where
  inv : GInv orig v x P N out.1 []
  step : GStep x s [] out.1 []
  gate : ∀ G, out.2 = some G → GateOk out.1 x P N G

theorem Found.swap {orig : List (List Nat)} {v : Option Nat} {x : Nat} {P N : List Nat} {s s' : State}
    {o : Option Gates} (h : Found orig v (Spec.neg x) N P s (s', o)) :
    Found orig v x P N s (s', o.map Gates.swap) := by
  refine ⟨by have := h.inv.symm; rwa [neg_neg] at this,
    by have := h.step.symm; rwa [neg_neg] at this, fun G hG => ?_⟩
  obtain ⟨G', h1, rfl⟩ := Option.map_eq_some_iff.1 hG
  exact (h.gate G' h1).swap

theorem Found.after {orig : List (List Nat)} {v : Option Nat} {x : Nat} {P N : List Nat} {s s' : State}
    {o : State × Option Gates} (h : GStep x s [] s' []) (h' : Found orig v x P N s' o) :
    Found orig v x P N s o := ⟨h'.inv, h.trans h'.step, h'.gate⟩

theorem Found.none {orig : List (List Nat)} {v : Option Nat} {x : Nat} {P N : List Nat} {s s' : State}
    (h : GInv orig v x P N s' []) (h' : GStep x s [] s' []) : Found orig v x P N s (s', none) :=
  ⟨h, h', fun G hG => (by cases hG)⟩

/-- Binary clauses have a single other literal. -/
theorem sat_binary {s : State} {x r o : Nat} (hx : x ∈ (s.clause r).lits)
    (h : s.binaryOther x r = some o) {σ : Assignment} :
    SatClause σ (except (s.clause r).lits x) ↔ litTrue σ o := by
  obtain ⟨h1, h2, h3⟩ := binaryOther_some h
  constructor
  · rintro ⟨m, hm, ht⟩
    obtain ⟨m1, m2⟩ := mem_except.1 hm
    rcases binary_lits h1 hx h2 h3 m1 with e | e
    · exact absurd e m2
    · rw [← e]; exact ht
  · exact fun ht => ⟨o, mem_except.2 ⟨h2, h3⟩, ht⟩

/-! ## Equivalences -/

theorem GInv.findEquivalence {orig : List (List Nat)} {v : Option Nat} {x : Nat} {P N : List Nat}
    {s : State} (h : GInv orig v x P N s []) : Found orig v x P N s (s, s.findEquivalence x P N) := by
  refine ⟨h, .refl _ _ _, fun G hG => ?_⟩
  dsimp only at hG ⊢
  unfold State.findEquivalence at hG
  dsimp only at hG
  split at hG
  · cases hG
  · rename_i r hr
    have hr' := List.find?_some hr
    cases hq : P.find? fun q => decide (s.binaryOther x q = (s.binaryOther (Spec.neg x) r).map Spec.neg) with
    | none =>
      exfalso
      cases ho : s.binaryOther (Spec.neg x) r with
      | none => rw [ho] at hr'; cases hr'
      | some o =>
        rw [ho] at hr' hq
        simp only [List.contains_iff_mem] at hr'
        obtain ⟨q, q1, q2⟩ := List.mem_filterMap.1 hr'
        exact List.find?_eq_none.1 hq q q1 (by rw [q2]; simp)
    | some q =>
      rw [hq] at hG
      cases hG
      dsimp only [Option.getD_some]
      have hrN := List.mem_of_find?_eq_some hr
      have hqP := List.mem_of_find?_eq_some hq
      have hq' := List.find?_some hq
      simp only [decide_eq_true_eq] at hq'
      cases ho : s.binaryOther (Spec.neg x) r with
      | none => rw [ho] at hr'; cases hr'
      | some o =>
        rw [ho, Option.map_some] at hq'
        have sr := fun σ => sat_binary (σ := σ) (h.neg.mem r hrN) ho
        have sq := fun σ => sat_binary (σ := σ) (h.pos.mem q hqP) hq'
        refine ⟨by simpa using hqP, by simpa using hrN, fun σ _ h1 h2 => ?_, Or.inr ?_⟩
        · have h3 := (sr σ).1 (h2 r (by simp))
          have h4 := (sq σ).1 (h1 q (by simp))
          rw [litTrue_neg] at h4
          exact h4 h3
        · intro a ha b hb
          rw [List.mem_singleton.1 ha, List.mem_singleton.1 hb]
          left
          intro σ
          rw [sr, sq, litTrue_neg]
          exact (Classical.em _).symm

/-! ## And gates -/

theorem checkBase_spec (s : State) (marked : List Nat) (n : Nat) : ∀ (c : List Nat),
    (s.checkBase marked n c = .satisfied → ∃ o ∈ c, 0 < s.values o) ∧
    (s.checkBase marked n c = .yes → ∀ o ∈ c, o ≠ n →
      s.values o < 0 ∨ (s.values o = 0 ∧ Spec.neg o ∈ marked))
  | [] => ⟨fun h => (by cases h), fun _ o ho => (by cases ho)⟩
  | o :: c => by
    obtain ⟨i1, i2⟩ := checkBase_spec s marked n c
    have keep : (o = n ∨ s.values o < 0 ∨ (s.values o = 0 ∧ Spec.neg o ∈ marked)) →
        (s.checkBase marked n c = .satisfied → ∃ p ∈ o :: c, 0 < s.values p) ∧
        (s.checkBase marked n c = .yes → ∀ p ∈ o :: c, p ≠ n →
          s.values p < 0 ∨ (s.values p = 0 ∧ Spec.neg p ∈ marked)) := by
      intro ho
      refine ⟨fun h => ?_, fun h p hp hne => ?_⟩
      · obtain ⟨p, p1, p2⟩ := i1 h
        exact ⟨p, List.mem_cons_of_mem _ p1, p2⟩
      · rcases List.mem_cons.1 hp with rfl | hp
        · exact ho.resolve_left hne
        · exact i2 h p hp hne
    unfold State.checkBase
    by_cases h1 : o = n
    · rw [if_pos h1]; exact keep (Or.inl h1)
    · rw [if_neg h1]
      by_cases h2 : s.values o > 0
      · rw [if_pos h2]
        exact ⟨fun _ => ⟨o, by simp, h2⟩, fun h => (by cases h)⟩
      · rw [if_neg h2]
        by_cases h3 : s.values o < 0
        · rw [if_pos h3]; exact keep (Or.inr (Or.inl h3))
        · rw [if_neg h3]
          by_cases h4 : marked.contains (Spec.neg o) = true
          · rw [if_pos h4]
            exact keep (Or.inr (Or.inr ⟨by omega, List.contains_iff_mem.1 h4⟩))
          · rw [if_neg h4]
            exact ⟨fun h => (by cases h), fun h => (by cases h)⟩

theorem GInv.findBase {orig : List (List Nat)} {v : Option Nat} {x : Nat} {P N : List Nat}
    (marked : List Nat) : ∀ (rs : List Nat) {s : State}, GInv orig v x P N s [] → (∀ r ∈ rs, r ∈ N) →
    GInv orig v x P N (s.findBase marked (Spec.neg x) rs).1 [] ∧
    GStep x s [] (s.findBase marked (Spec.neg x) rs).1 [] ∧
    ∀ b, (s.findBase marked (Spec.neg x) rs).2 = some b → b ∈ N ∧
      ∀ o ∈ ((s.findBase marked (Spec.neg x) rs).1.clause b).lits, o ≠ Spec.neg x →
        (s.findBase marked (Spec.neg x) rs).1.values o < 0 ∨
        ((s.findBase marked (Spec.neg x) rs).1.values o = 0 ∧ Spec.neg o ∈ marked)
  | [], s, h, _ => ⟨h, .refl _ _ _, fun b hb => (by cases hb)⟩
  | r :: rs, s, h, hrs => by
    have hr := hrs r (by simp)
    have hrs' : ∀ k ∈ rs, k ∈ N := fun k hk => hrs k (List.mem_cons_of_mem _ hk)
    unfold State.findBase
    by_cases hg : ((s.clause r).garbage || decide ((s.clause r).lits.length = 2)) = true
    · rw [if_pos hg]
      exact GInv.findBase marked rs h hrs'
    · rw [if_neg hg]
      simp only [Bool.or_eq_true, decide_eq_true_eq, not_or, Bool.not_eq_true] at hg
      obtain ⟨c1, c2⟩ := checkBase_spec s marked (Spec.neg x) (s.clause r).lits
      cases hc : s.checkBase marked (Spec.neg x) (s.clause r).lits with
      | satisfied =>
        obtain ⟨o, o1, o2⟩ := c1 hc
        obtain ⟨k1, k2⟩ := h.garbage hg.1 (Or.inr (h.neg.mem r hr)) o1 o2
        obtain ⟨i1, i2, i3⟩ := GInv.findBase marked rs k1 hrs'
        exact ⟨i1, k2.trans i2, i3⟩
      | no => exact GInv.findBase marked rs h hrs'
      | yes =>
        refine ⟨h, .refl _ _ _, fun b hb => ?_⟩
        cases hb
        exact ⟨hr, c2 hc⟩

theorem andBinaries_mem (s : State) (x : Nat) : ∀ (rs marks : List Nat) (r : Nat),
    r ∈ s.andBinaries x rs marks → r ∈ rs ∧ ∃ o, s.binaryOther x r = some o
  | [], _, r, h => by cases h
  | q :: rs, marks, r, h => by
    unfold State.andBinaries at h
    cases ho : s.binaryOther x q with
    | none =>
      rw [ho] at h
      have := andBinaries_mem s x rs marks r h
      exact ⟨List.mem_cons_of_mem _ this.1, this.2⟩
    | some o =>
      rw [ho] at h
      dsimp only at h
      split at h
      · have := andBinaries_mem s x rs _ r h
        exact ⟨List.mem_cons_of_mem _ this.1, this.2⟩
      · rcases List.mem_cons.1 h with rfl | h
        · exact ⟨by simp, o, ho⟩
        · have := andBinaries_mem s x rs _ r h
          exact ⟨List.mem_cons_of_mem _ this.1, this.2⟩

theorem andBinaries_all (s : State) (x : Nat) : ∀ (rs marks : List Nat) (r o : Nat), r ∈ rs →
    s.binaryOther x r = some o → o ∉ marks → r ∈ s.andBinaries x rs marks
  | [], _, r, o, h, _, _ => by cases h
  | q :: rs, marks, r, o, h, hb, ho => by
    unfold State.andBinaries
    cases hq : s.binaryOther x q with
    | none =>
      dsimp only
      rcases List.mem_cons.1 h with rfl | h
      · rw [hq] at hb; cases hb
      · exact andBinaries_all s x rs marks r o h hb ho
    | some p =>
      dsimp only
      split
      · rename_i hm
        rcases List.mem_cons.1 h with rfl | h
        · rw [hq] at hb; cases hb
          exact absurd (List.contains_iff_mem.1 hm) ho
        · exact andBinaries_all s x rs _ r o h hb fun hh => ho (List.mem_filter.1 hh).1
      · rcases List.mem_cons.1 h with rfl | h
        · simp
        · exact List.mem_cons_of_mem _ (andBinaries_all s x rs marks r o h hb ho)

/-- One copy of a clause outside the gate is not in the gate. -/
theorem andBinaries_copy (s : State) (x : Nat) : ∀ (rs marks : List Nat) (r o : Nat), rs.Nodup →
    r ∈ rs → s.binaryOther x r = some o → o ∈ marks →
    ∃ q ∈ rs, s.binaryOther x q = some o ∧ q ∉ s.andBinaries x rs marks
  | [], _, r, o, _, h, _, _ => by cases h
  | q :: rs, marks, r, o, hn, h, hb, ho => by
    obtain ⟨hn1, hn2⟩ := List.nodup_cons.1 hn
    have self : ∀ m, q ∉ s.andBinaries x rs m := fun m hh => hn1 (andBinaries_mem s x rs m q hh).1
    unfold State.andBinaries
    cases hq : s.binaryOther x q with
    | none =>
      dsimp only
      rcases List.mem_cons.1 h with rfl | h
      · rw [hq] at hb; cases hb
      · obtain ⟨k, k1, k2, k3⟩ := andBinaries_copy s x rs marks r o hn2 h hb ho
        exact ⟨k, List.mem_cons_of_mem _ k1, k2, k3⟩
    | some p =>
      dsimp only
      by_cases hm : marks.contains p = true
      · rw [if_pos hm]
        by_cases hp : p = o
        · subst hp
          exact ⟨q, by simp, hq, self _⟩
        · rcases List.mem_cons.1 h with rfl | h
          · rw [hq] at hb; cases hb; exact absurd rfl hp
          · obtain ⟨k, k1, k2, k3⟩ := andBinaries_copy s x rs (marks.filter (· ≠ p)) r o hn2 h hb
              (List.mem_filter.2 ⟨ho, by simpa using fun e => hp e.symm⟩)
            exact ⟨k, List.mem_cons_of_mem _ k1, k2, k3⟩
      · rw [if_neg hm]
        have hp : p ≠ o := by rintro rfl; exact hm (List.contains_iff_mem.2 ho)
        rcases List.mem_cons.1 h with rfl | h
        · rw [hq] at hb; cases hb; exact absurd rfl hp
        · obtain ⟨k, k1, k2, k3⟩ := andBinaries_copy s x rs marks r o hn2 h hb ho
          refine ⟨k, List.mem_cons_of_mem _ k1, k2, fun hh => ?_⟩
          rcases List.mem_cons.1 hh with rfl | hh
          · exact hn1 k1
          · exact k3 hh

theorem binaryOther_frame {s s' : State} (h : Frame s s') (x r : Nat) :
    s'.binaryOther x r = s.binaryOther x r := by
  unfold State.binaryOther
  rw [h.lits]

theorem GInv.findAnd {orig : List (List Nat)} {v : Option Nat} {x : Nat} {P N : List Nat}
    {s : State} (h : GInv orig v x P N s []) (hP : P.Nodup) :
    Found orig v x P N s (s.findAnd x P N) := by
  unfold State.findAnd
  dsimp only
  by_cases hl : ((P.filterMap (s.binaryOther x)).eraseDups).length < 2
  · rw [if_pos hl]
    exact .none h (.refl _ _ _)
  · rw [if_neg hl]
    generalize hmk : (P.filterMap (s.binaryOther x)).eraseDups = marked
    have hmarked : ∀ m, m ∈ marked ↔ ∃ r ∈ P, s.binaryOther x r = some m := by
      intro m
      rw [← hmk, List.mem_eraseDups, List.mem_filterMap]
    obtain ⟨i1, i2, i3⟩ := GInv.findBase marked N h (fun r hr => hr)
    cases hb : s.findBase marked (Spec.neg x) N with
    | mk s' o =>
      rw [hb] at i1 i2 i3
      dsimp only at i1 i2 i3
      cases o with
      | none => exact .none i1 i2
      | some b =>
        dsimp only
        obtain ⟨hbN, hbase⟩ := i3 b rfl
        refine ⟨i1, i2, fun G hG => ?_⟩
        cases hG
        have hm' : ∀ m, m ∈ marked ↔ ∃ r ∈ P, s'.binaryOther x r = some m := by
          intro m
          rw [hmarked]
          simp only [binaryOther_frame i2.frame]
        -- literals marked and not in the base clause
        generalize hin : ((s'.clause b).lits.filter fun other =>
          decide (other ≠ Spec.neg x ∧ s'.values other = 0)) = inBase
        have hin' : ∀ o, o ∈ inBase ↔ o ∈ (s'.clause b).lits ∧ o ≠ Spec.neg x ∧ s'.values o = 0 := by
          intro o; rw [← hin, List.mem_filter]; simp
        generalize hms : (marked.filter fun m => decide (¬ Spec.neg m ∈ inBase)) = marks
        have hms' : ∀ m, m ∈ marks ↔ m ∈ marked ∧ Spec.neg m ∉ inBase := by
          intro m; rw [← hms, List.mem_filter]; simp
        dsimp only
        refine ⟨fun r hr => (andBinaries_mem _ _ _ _ _ hr).1, by simpa using hbN, ?_, Or.inr ?_⟩
        · intro σ htr h1 h2
          obtain ⟨o, o1, o2⟩ := h2 b (by simp)
          obtain ⟨o3, o4⟩ := mem_except.1 o1
          rcases hbase o o3 o4 with h3 | ⟨h3, h4⟩
          · have : Spec.neg o ∈ s'.trail := by
              rw [i1.inv.struct.trail, i1.inv.struct.neg]; omega
            have := htr _ this
            rw [litTrue_neg] at this
            exact this o2
          · obtain ⟨r, r1, r2⟩ := (hm' _).1 h4
            have hr : r ∈ s'.andBinaries x P marks := by
              refine andBinaries_all _ _ _ _ _ _ r1 r2 fun hh => ?_
              refine ((hms' _).1 hh).2 ((hin' _).2 ?_)
              rw [neg_neg]
              exact ⟨o3, o4, h3⟩
            have := (sat_binary (i1.pos.mem r r1) r2).1 (h1 r hr)
            rw [litTrue_neg] at this
            exact this o2
        · intro r hr q hq
          rw [List.mem_singleton.1 hq]
          obtain ⟨r1, o, r2⟩ := andBinaries_mem _ _ _ _ _ hr
          by_cases ho : o ∈ marks
          · obtain ⟨k, k1, k2, k3⟩ := andBinaries_copy s' x P marks r o hP r1 r2 ho
            refine Or.inr (Or.inl ⟨k, k1, k3, ?_⟩)
            obtain ⟨a1, a2, a3⟩ := binaryOther_some k2
            obtain ⟨b1, b2, b3⟩ := binaryOther_some r2
            have c1 := i1.pos.mem k k1
            have c2 := i1.pos.mem r r1
            intro l
            constructor
            · intro hl
              rcases binary_lits a1 c1 a2 a3 hl with e | e <;> rw [e] <;> assumption
            · intro hl
              rcases binary_lits b1 c2 b2 b3 hl with e | e <;> rw [e] <;> assumption
          · have hneg : Spec.neg o ∈ inBase := by
              have h1 : o ∈ marked := (hm' o).2 ⟨r, r1, r2⟩
              exact Classical.byContradiction fun hh => ho ((hms' o).2 ⟨h1, hh⟩)
            obtain ⟨n1, n2, _⟩ := (hin' _).1 hneg
            left
            intro σ
            rw [sat_binary (i1.pos.mem r r1) r2]
            rcases litTrue_or_neg σ o with ht | ht
            · exact Or.inl ht
            · exact Or.inr ⟨_, mem_except.2 ⟨n1, n2⟩, ht⟩

/-! ## If-then-else gates -/

theorem ternary_spec (s : State) : ∀ (c acc : List Nat),
    (s.ternary c acc = .satisfied → ∃ o ∈ c, 0 < s.values o) ∧
    (∀ a b d, s.ternary c acc = .three a b d →
      acc ++ c.filter (fun o => ¬ s.values o < 0) = [a, b, d])
  | [], [] => ⟨fun h => (by cases h), fun a b d h => (by cases h)⟩
  | [], [_] => ⟨fun h => (by cases h), fun a b d h => (by cases h)⟩
  | [], [_, _] => ⟨fun h => (by cases h), fun a b d h => (by cases h)⟩
  | [], [_, _, _] => ⟨fun h => (by cases h), fun a b d h => (by cases h; rfl)⟩
  | [], _ :: _ :: _ :: _ :: _ => ⟨fun h => (by cases h), fun a b d h => (by cases h)⟩
  | o :: c, acc => by
    unfold State.ternary
    by_cases h1 : s.values o > 0
    · rw [if_pos h1]
      exact ⟨fun _ => ⟨o, by simp, h1⟩, fun a b d h => (by cases h)⟩
    · rw [if_neg h1]
      by_cases h2 : s.values o < 0
      · rw [if_pos h2]
        obtain ⟨i1, i2⟩ := ternary_spec s c acc
        refine ⟨fun h => ?_, fun a b d h => ?_⟩
        · obtain ⟨p, p1, p2⟩ := i1 h
          exact ⟨p, List.mem_cons_of_mem _ p1, p2⟩
        · rw [List.filter_cons_of_neg (by simpa using h2)]
          exact i2 a b d h
      · rw [if_neg h2]
        by_cases h3 : acc.length = 3
        · rw [if_pos h3]
          exact ⟨fun h => (by cases h), fun a b d h => (by cases h)⟩
        · rw [if_neg h3]
          obtain ⟨i1, i2⟩ := ternary_spec s c (acc ++ [o])
          refine ⟨fun h => ?_, fun a b d h => ?_⟩
          · obtain ⟨p, p1, p2⟩ := i1 h
            exact ⟨p, List.mem_cons_of_mem _ p1, p2⟩
          · rw [List.filter_cons_of_pos (by simpa using h2)]
            have := i2 a b d h
            rw [List.append_assoc] at this
            exact this

/-- The clause has, besides false literals, exactly `x`, `b` and `c`. -/
structure Three (s : State) (x r b c : Nat) : Prop where
  all : ∀ m ∈ (s.clause r).lits, s.values m < 0 ∨ m = x ∨ m = b ∨ m = c
  fst : b ∈ (s.clause r).lits ∧ b ≠ x
  snd : c ∈ (s.clause r).lits ∧ c ≠ x

theorem Three.frame {s s' : State} {x r b c : Nat} (h : Three s x r b c) (hf : Frame s s') :
    Three s' x r b c :=
  ⟨fun m hm => (h.all m (by rw [← hf.lits]; exact hm)).imp hf.neg id, by rw [hf.lits]; exact h.fst,
    by rw [hf.lits]; exact h.snd⟩

theorem Three.swap {s : State} {x r b c : Nat} (h : Three s x r b c) : Three s x r c b :=
  ⟨fun m hm => by
    rcases h.all m hm with h | h | h | h
    · exact Or.inl h
    · exact Or.inr (Or.inl h)
    · exact Or.inr (Or.inr (Or.inr h))
    · exact Or.inr (Or.inr (Or.inl h)), h.snd, h.fst⟩

theorem GInv.getTernary {orig : List (List Nat)} {v : Option Nat} {x : Nat} {P N : List Nat}
    {s : State} (h : GInv orig v x P N s []) {r : Nat} (hr : r ∈ P) :
    GInv orig v x P N (s.getTernary x r).1 [] ∧ GStep x s [] (s.getTernary x r).1 [] ∧
    ∀ b c, (s.getTernary x r).2 = some (b, c) → Three (s.getTernary x r).1 x r b c := by
  unfold State.getTernary
  by_cases hg : (s.clause r).garbage = true
  · rw [if_pos hg]
    exact ⟨h, .refl _ _ _, fun b c hh => (by cases hh)⟩
  · rw [if_neg hg]
    have hg : (s.clause r).garbage = false := by simpa using hg
    obtain ⟨t1, t2⟩ := ternary_spec s (s.clause r).lits []
    cases ht : s.ternary (s.clause r).lits [] with
    | satisfied =>
      obtain ⟨o, o1, o2⟩ := t1 ht
      obtain ⟨k1, k2⟩ := h.garbage hg (Or.inl (h.pos.mem r hr)) o1 o2
      exact ⟨k1, k2, fun b c hh => (by cases hh)⟩
    | no => exact ⟨h, .refl _ _ _, fun b c hh => (by cases hh)⟩
    | three a b d =>
      have he := t2 a b d ht
      rw [List.nil_append] at he
      have hx : x ∈ [a, b, d] := by
        rw [← he, List.mem_filter]
        exact ⟨h.pos.mem r hr, by rw [h.val]; decide⟩
      have hn : [a, b, d].Nodup := by
        rw [← he]; exact (h.inv.struct.nodup r hg).filter _
      have hmem : ∀ m ∈ [a, b, d], m ∈ (s.clause r).lits := by
        intro m hm; rw [← he] at hm; exact (List.mem_filter.1 hm).1
      have hall : ∀ m ∈ (s.clause r).lits, s.values m < 0 ∨ m ∈ [a, b, d] := by
        intro m hm
        by_cases hv : s.values m < 0
        · exact Or.inl hv
        · exact Or.inr (by rw [← he]; exact List.mem_filter.2 ⟨hm, by simpa using hv⟩)
      have ha := hmem a (by simp)
      have hb := hmem b (by simp)
      have hd := hmem d (by simp)
      simp only [List.nodup_cons, List.mem_cons, List.not_mem_nil, or_false, not_or] at hn hx hall
      obtain ⟨⟨n1, n2⟩, n3, _⟩ := hn
      dsimp only
      by_cases e1 : b = x
      · subst e1
        rw [if_pos rfl]
        dsimp only
        rw [if_neg (Ne.symm n3)]
        refine ⟨h, .refl _ _ _, fun p q hh => ?_⟩
        cases hh
        refine ⟨fun m hm => ?_, ⟨ha, n1⟩, ⟨hd, Ne.symm n3⟩⟩
        rcases hall m hm with h | h | h | h
        · exact Or.inl h
        · exact Or.inr (Or.inr (Or.inl h))
        · exact Or.inr (Or.inl h)
        · exact Or.inr (Or.inr (Or.inr h))
      · rw [if_neg e1]
        dsimp only
        by_cases e2 : d = x
        · subst e2
          rw [if_pos rfl]
          refine ⟨h, .refl _ _ _, fun p q hh => ?_⟩
          cases hh
          refine ⟨fun m hm => ?_, ⟨hb, n3⟩, ⟨ha, n2⟩⟩
          rcases hall m hm with h | h | h | h
          · exact Or.inl h
          · exact Or.inr (Or.inr (Or.inr h))
          · exact Or.inr (Or.inr (Or.inl h))
          · exact Or.inr (Or.inl h)
        · rw [if_neg e2]
          refine ⟨h, .refl _ _ _, fun p q hh => ?_⟩
          cases hh
          have ex : x = a := by
            rcases hx with h | h | h
            · exact h
            · exact absurd h.symm e1
            · exact absurd h.symm e2
          refine ⟨fun m hm => ?_, ⟨hb, e1⟩, ⟨hd, e2⟩⟩
          rw [ex]
          exact hall m hm

theorem matchTernary_spec (s : State) (a b c : Nat) : ∀ (d : List Nat) (n : Nat),
    (s.matchTernary a b c d n = .satisfied → ∃ o ∈ d, 0 < s.values o) ∧
    (∀ k, s.matchTernary a b c d n = .found k →
      (∀ m ∈ d, s.values m < 0 ∨ m = a ∨ m = b ∨ m = c) ∧
      k = n + (d.filter fun o => ¬ s.values o < 0).length)
  | [], n => ⟨fun h => (by cases h), fun k h => by
      cases h
      exact ⟨fun m hm => (by cases hm), by simp⟩⟩
  | o :: d, n => by
    unfold State.matchTernary
    by_cases h1 : s.values o > 0
    · rw [if_pos h1]
      exact ⟨fun _ => ⟨o, by simp, h1⟩, fun k h => (by cases h)⟩
    · rw [if_neg h1]
      by_cases h2 : s.values o < 0
      · rw [if_pos h2]
        obtain ⟨i1, i2⟩ := matchTernary_spec s a b c d n
        refine ⟨fun h => ?_, fun k h => ?_⟩
        · obtain ⟨p, p1, p2⟩ := i1 h
          exact ⟨p, List.mem_cons_of_mem _ p1, p2⟩
        · rw [List.filter_cons_of_neg (by simpa using h2)]
          obtain ⟨j1, j2⟩ := i2 k h
          refine ⟨fun m hm => ?_, j2⟩
          rcases List.mem_cons.1 hm with rfl | hm
          · exact Or.inl h2
          · exact j1 m hm
      · rw [if_neg h2]
        by_cases h3 : a ≠ o ∧ b ≠ o ∧ c ≠ o
        · rw [if_pos h3]
          exact ⟨fun h => (by cases h), fun k h => (by cases h)⟩
        · rw [if_neg h3]
          obtain ⟨i1, i2⟩ := matchTernary_spec s a b c d (n + 1)
          refine ⟨fun h => ?_, fun k h => ?_⟩
          · obtain ⟨p, p1, p2⟩ := i1 h
            exact ⟨p, List.mem_cons_of_mem _ p1, p2⟩
          · rw [List.filter_cons_of_pos (by simpa using h2)]
            obtain ⟨j1, j2⟩ := i2 k h
            refine ⟨fun m hm => ?_, by rw [j2, List.length_cons]; omega⟩
            rcases List.mem_cons.1 hm with rfl | hm
            · by_cases ha : a = m
              · exact Or.inr (Or.inl ha.symm)
              · by_cases hb : b = m
                · exact Or.inr (Or.inr (Or.inl hb.symm))
                · by_cases hc : c = m
                  · exact Or.inr (Or.inr (Or.inr hc.symm))
                  · exact absurd ⟨ha, hb, hc⟩ h3
            · exact j1 m hm

theorem three_of_length {L : List Nat} {a b c : Nat} (hn : L.Nodup) (hl : L.length = 3)
    (hm : ∀ m ∈ L, m = a ∨ m = b ∨ m = c) : b ∈ L ∧ c ∈ L := by
  match L, hl with
  | [p, q, r], _ =>
    simp only [List.nodup_cons, List.mem_cons, List.not_mem_nil, or_false, not_or] at hn hm ⊢
    obtain ⟨⟨n1, n2⟩, n3, _⟩ := hn
    have h1 := hm p (by simp)
    have h2 := hm q (by simp)
    have h3 := hm r (by simp)
    constructor <;> omega

/-- A clause with at most the literals `a`, `b`, `c` which are not false. -/
structure AtMost (s : State) (a b c r : Nat) (resolve : Bool) : Prop where
  all : ∀ m ∈ (s.clause r).lits, s.values m < 0 ∨ m = a ∨ m = b ∨ m = c
  full : resolve = false → b ∈ (s.clause r).lits ∧ c ∈ (s.clause r).lits

theorem AtMost.frame {s s' : State} {a b c r : Nat} {f : Bool} (h : AtMost s a b c r f)
    (hf : Frame s s') : AtMost s' a b c r f :=
  ⟨fun m hm => (h.all m (by rw [← hf.lits]; exact hm)).imp hf.neg id, by rw [hf.lits]; exact h.full⟩

theorem GInv.findTernary {orig : List (List Nat)} {v : Option Nat} {x : Nat} {P N : List Nat}
    (b c : Nat) (resolve : Bool) : ∀ (rs : List Nat) (steps : Nat) {s : State},
    GInv orig v x P N s [] → (∀ r ∈ rs, r ∈ N) →
    GInv orig v x P N (s.findTernary (Spec.neg x) b c resolve rs steps).1 [] ∧
    GStep x s [] (s.findTernary (Spec.neg x) b c resolve rs steps).1 [] ∧
    ∀ r f, (s.findTernary (Spec.neg x) b c resolve rs steps).2.2 = some (r, f) →
      r ∈ N ∧ AtMost (s.findTernary (Spec.neg x) b c resolve rs steps).1 (Spec.neg x) b c r f ∧
      (resolve = true → f = true)
  | [], _, s, h, _ => ⟨h, .refl _ _ _, fun r f hh => (by cases hh)⟩
  | r :: rs, steps, s, h, hrs => by
    have hr := hrs r (by simp)
    have hrs' : ∀ k ∈ rs, k ∈ N := fun k hk => hrs k (List.mem_cons_of_mem _ hk)
    have hx := h.neg.mem r hr
    unfold State.findTernary
    by_cases hg : (s.clause r).garbage = true
    · rw [if_pos hg]
      exact GInv.findTernary b c resolve rs (steps + 1) h hrs'
    · rw [if_neg hg]
      have hg : (s.clause r).garbage = false := by simpa using hg
      cases hb : s.binaryOther (Spec.neg x) r with
      | some other =>
        dsimp only
        by_cases ho : other ≠ b ∧ other ≠ c
        · rw [if_pos ho]
          exact GInv.findTernary b c resolve rs (steps + 1) h hrs'
        · rw [if_neg ho]
          refine ⟨h, .refl _ _ _, fun q f hh => ?_⟩
          cases hh
          obtain ⟨b1, b2, b3⟩ := binaryOther_some hb
          refine ⟨hr, ⟨fun m hm => ?_, fun e => (by cases e)⟩, fun _ => rfl⟩
          rcases binary_lits b1 hx b2 b3 hm with e | e
          · exact Or.inr (Or.inl e)
          · rw [e]
            by_cases h1 : other = b
            · exact Or.inr (Or.inr (Or.inl h1))
            · by_cases h2 : other = c
              · exact Or.inr (Or.inr (Or.inr h2))
              · exact absurd ⟨h1, h2⟩ ho
      | none =>
        dsimp only
        obtain ⟨m1, m2⟩ := matchTernary_spec s (Spec.neg x) b c (s.clause r).lits 0
        cases hm : s.matchTernary (Spec.neg x) b c (s.clause r).lits 0 with
        | satisfied =>
          obtain ⟨o, o1, o2⟩ := m1 hm
          obtain ⟨k1, k2⟩ := h.garbage hg (Or.inr hx) o1 o2
          obtain ⟨i1, i2, i3⟩ := GInv.findTernary b c resolve rs (steps + 1) k1 hrs'
          exact ⟨i1, k2.trans i2, i3⟩
        | no => exact GInv.findTernary b c resolve rs (steps + 1) h hrs'
        | found n =>
          obtain ⟨j1, j2⟩ := m2 n hm
          refine ⟨h, .refl _ _ _, fun q f hh => ?_⟩
          cases hh
          refine ⟨hr, ⟨j1, fun e => ?_⟩, fun e => by rw [e]; rfl⟩
          simp only [Bool.or_eq_false_iff, ne_eq, decide_not, Bool.not_eq_false',
            decide_eq_true_eq] at e
          have hlen : ((s.clause r).lits.filter fun o => ¬ s.values o < 0).length = 3 := by
            rw [Nat.zero_add] at j2; rw [← j2]; exact e.2
          have := three_of_length (a := Spec.neg x) (b := b) (c := c)
            ((h.inv.struct.nodup r hg).filter _) hlen (by
              intro m hm
              obtain ⟨m1, m2⟩ := List.mem_filter.1 hm
              simp only [decide_eq_true_eq] at m2
              exact (j1 m m1).resolve_left m2)
          exact ⟨(List.mem_filter.1 this.1).1, (List.mem_filter.1 this.2).1⟩

/-- The four clauses of an if-then-else gate. -/
theorem ite_gate {orig : List (List Nat)} {v : Option Nat} {x : Nat} {P N : List Nat}
    {s : State} (h : GInv orig v x P N s []) {r1 r2 r3 r4 b1 c1 b2 c2 : Nat} {f3 f4 : Bool}
    (h1 : r1 ∈ P) (h2 : r2 ∈ P) (h3 : r3 ∈ N) (h4 : r4 ∈ N) (t1 : Three s x r1 b1 c1)
    (t2 : Three s x r2 b2 c2) (hb : b1 = Spec.neg b2)
    (t3 : AtMost s (Spec.neg x) b1 (Spec.neg c1) r3 f3)
    (t4 : AtMost s (Spec.neg x) b2 (Spec.neg c2) r4 f4) (hf : f3 = true → f4 = true) :
    GateOk s x P N ⟨[r1, r2], [r3, r4], f4⟩ := by
  have two : ∀ {σ : Assignment}, (∀ l ∈ s.trail, litTrue σ l) → ∀ {r y b c : Nat},
      (∀ m ∈ (s.clause r).lits, s.values m < 0 ∨ m = y ∨ m = b ∨ m = c) →
      SatClause σ (except (s.clause r).lits y) → litTrue σ b ∨ litTrue σ c := by
    rintro σ htr r y b c hall ⟨m, m1, m2⟩
    obtain ⟨m3, m4⟩ := mem_except.1 m1
    rcases hall m m3 with e | e | e | e
    · have : Spec.neg m ∈ s.trail := by
        rw [h.inv.struct.trail, h.inv.struct.neg]; omega
      have := htr _ this
      rw [litTrue_neg] at this
      exact absurd m2 this
    · exact absurd e m4
    · rw [← e]; exact Or.inl m2
    · rw [← e]; exact Or.inr m2
  refine ⟨by simpa using ⟨h1, h2⟩, by simpa using ⟨h3, h4⟩, fun σ htr s1 s2 => ?_, ?_⟩
  · have k1 := two htr t1.all (s1 r1 (by simp))
    have k2 := two htr t2.all (s1 r2 (by simp))
    have k3 := two htr t3.all (s2 r3 (by simp))
    have k4 := two htr t4.all (s2 r4 (by simp))
    rw [hb] at k1 k3
    simp only [litTrue_neg] at k1 k3 k4
    rcases k1 with k1 | k1 <;> rcases k2 with k2 | k2 <;> rcases k3 with k3 | k3 <;>
      rcases k4 with k4 | k4 <;> contradiction
  · cases f4 with
    | true => exact Or.inl rfl
    | false =>
      right
      have f3' : f3 = false := by cases f3 with
        | false => rfl
        | true => exact absurd (hf rfl) (by simp)
      obtain ⟨p1, p2⟩ := t3.full f3'
      obtain ⟨q1, q2⟩ := t4.full rfl
      have taut : ∀ {r q l : Nat}, l ∈ (s.clause r).lits → l ≠ x → Spec.neg l ∈ (s.clause q).lits →
          ∀ σ, SatClause σ (except (s.clause r).lits x) ∨
            SatClause σ (except (s.clause q).lits (Spec.neg x)) := by
        intro r q l l1 l2 l3 σ
        rcases litTrue_or_neg σ l with ht | ht
        · exact Or.inl ⟨l, mem_except.2 ⟨l1, l2⟩, ht⟩
        · exact Or.inr ⟨_, mem_except.2 ⟨l3, fun e => l2 (neg_inj e)⟩, ht⟩
      have hb' : b2 = Spec.neg b1 := by rw [hb, neg_neg]
      intro r hr q hq
      left
      simp only [List.mem_cons, List.not_mem_nil, or_false] at hr hq
      rcases hr with rfl | rfl <;> rcases hq with rfl | rfl
      · exact taut t1.snd.1 t1.snd.2 p2
      · exact taut t1.fst.1 t1.fst.2 (by rw [← hb']; exact q1)
      · exact taut t2.fst.1 t2.fst.2 (by rw [← hb]; exact p1)
      · exact taut t2.snd.1 t2.snd.2 q2

theorem GInv.iteInner {orig : List (List Nat)} {v : Option Nat} {x : Nat} {P N : List Nat}
    (limit : Nat) {r1 b1 c1 : Nat} (hr1 : r1 ∈ P) : ∀ (rs : List Nat) (steps : Nat) {s : State},
    GInv orig v x P N s [] → (∀ r ∈ rs, r ∈ P) → Three s x r1 b1 c1 →
    Found orig v x P N s ((s.iteInner limit x N r1 b1 c1 rs steps).1,
      (s.iteInner limit x N r1 b1 c1 rs steps).2.2)
  | [], _, s, h, _, _ => .none h (.refl _ _ _)
  | r2 :: rs, steps, s, h, hrs, t1 => by
    have hr := hrs r2 (by simp)
    have hrs' : ∀ k ∈ rs, k ∈ P := fun k hk => hrs k (List.mem_cons_of_mem _ hk)
    have go : ∀ {s' : State} (steps : Nat), GInv orig v x P N s' [] → GStep x s [] s' [] →
        Found orig v x P N s ((s'.iteInner limit x N r1 b1 c1 rs steps).1,
          (s'.iteInner limit x N r1 b1 c1 rs steps).2.2) := fun steps k1 k2 =>
      .after k2 (GInv.iteInner limit hr1 rs steps k1 hrs' (t1.frame k2.frame))
    unfold State.iteInner
    by_cases hl : ¬ steps < limit
    · rw [if_pos hl]
      exact .none h (.refl _ _ _)
    · rw [if_neg hl]
      by_cases h2 : (s.clause r2).lits.length = 2
      · rw [if_pos h2]
        exact go steps h (.refl _ _ _)
      · rw [if_neg h2]
        obtain ⟨g1, g2, g3⟩ := h.getTernary hr
        cases hg : s.getTernary x r2 with
        | mk s1 o =>
          rw [hg] at g1 g2 g3
          dsimp only at g1 g2 g3
          cases o with
          | none => exact go steps g1 g2
          | some p =>
            obtain ⟨b2, c2⟩ := p
            dsimp only
            have t2 := g3 b2 c2 rfl
            have main : ∀ {b2 c2 : Nat}, Three s1 x r2 b2 c2 →
                Found orig v x P N s ((if c1 / 2 = c2 / 2 then s1.iteInner limit x N r1 b1 c1 rs steps
                  else if b1 ≠ Spec.neg b2 then s1.iteInner limit x N r1 b1 c1 rs steps
                  else match s1.findTernary (Spec.neg x) b1 (Spec.neg c1) false N steps with
                  | (s, steps, none) => s.iteInner limit x N r1 b1 c1 rs steps
                  | (s, steps, some (r3, resolve)) =>
                    match s.findTernary (Spec.neg x) b2 (Spec.neg c2) resolve N steps with
                    | (s, steps, none) => s.iteInner limit x N r1 b1 c1 rs steps
                    | (s, steps, some (r4, resolve)) => (s, steps, some ⟨[r1, r2], [r3, r4], resolve⟩)).1,
                  (if c1 / 2 = c2 / 2 then s1.iteInner limit x N r1 b1 c1 rs steps
                  else if b1 ≠ Spec.neg b2 then s1.iteInner limit x N r1 b1 c1 rs steps
                  else match s1.findTernary (Spec.neg x) b1 (Spec.neg c1) false N steps with
                  | (s, steps, none) => s.iteInner limit x N r1 b1 c1 rs steps
                  | (s, steps, some (r3, resolve)) =>
                    match s.findTernary (Spec.neg x) b2 (Spec.neg c2) resolve N steps with
                    | (s, steps, none) => s.iteInner limit x N r1 b1 c1 rs steps
                    | (s, steps, some (r4, resolve)) => (s, steps, some ⟨[r1, r2], [r3, r4], resolve⟩)).2.2) := by
              intro b2 c2 t2
              by_cases e1 : c1 / 2 = c2 / 2
              · rw [if_pos e1]; exact go steps g1 g2
              · rw [if_neg e1]
                by_cases e2 : b1 ≠ Spec.neg b2
                · rw [if_pos e2]; exact go steps g1 g2
                · rw [if_neg e2]
                  have e2 : b1 = Spec.neg b2 := Classical.byContradiction e2
                  obtain ⟨k1, k2, k3⟩ := GInv.findTernary b1 (Spec.neg c1) false N steps g1 fun r hr => hr
                  cases hf : s1.findTernary (Spec.neg x) b1 (Spec.neg c1) false N steps with
                  | mk s2 q =>
                    obtain ⟨steps2, o⟩ := q
                    rw [hf] at k1 k2 k3
                    dsimp only at k1 k2 k3
                    cases o with
                    | none => exact go steps2 k1 (g2.trans k2)
                    | some p3 =>
                      obtain ⟨r3, f3⟩ := p3
                      dsimp only
                      obtain ⟨m1, m2, _⟩ := k3 r3 f3 rfl
                      obtain ⟨l1, l2, l3⟩ := GInv.findTernary b2 (Spec.neg c2) f3 N steps2 k1 fun r hr => hr
                      cases hf' : s2.findTernary (Spec.neg x) b2 (Spec.neg c2) f3 N steps2 with
                      | mk s3 q =>
                        obtain ⟨steps3, o⟩ := q
                        rw [hf'] at l1 l2 l3
                        dsimp only at l1 l2 l3
                        have st := (g2.trans k2).trans l2
                        cases o with
                        | none => exact go steps3 l1 st
                        | some p4 =>
                          obtain ⟨r4, f4⟩ := p4
                          obtain ⟨n1, n2, n3⟩ := l3 r4 f4 rfl
                          refine ⟨l1, st, fun G hG => ?_⟩
                          cases hG
                          exact ite_gate l1 hr1 hr m1 n1 (t1.frame st.frame)
                            (t2.frame (k2.trans l2).frame) e2 (m2.frame l2.frame) n2 n3
            by_cases e : b1 / 2 = c2 / 2
            · rw [if_pos e]
              exact main t2.swap
            · rw [if_neg e]
              exact main t2

theorem GInv.iteOuter {orig : List (List Nat)} {v : Option Nat} {x : Nat} {P N : List Nat}
    (limit : Nat) : ∀ (rs : List Nat) (steps : Nat) {s : State},
    GInv orig v x P N s [] → (∀ r ∈ rs, r ∈ P) →
    Found orig v x P N s (s.iteOuter limit x N rs steps)
  | [], _, s, h, _ => .none h (.refl _ _ _)
  | r1 :: rs, steps, s, h, hrs => by
    have hr := hrs r1 (by simp)
    have hrs' : ∀ k ∈ rs, k ∈ P := fun k hk => hrs k (List.mem_cons_of_mem _ hk)
    have go : ∀ {s' : State} (steps : Nat), GInv orig v x P N s' [] → GStep x s [] s' [] →
        Found orig v x P N s (s'.iteOuter limit x N rs steps) := fun steps k1 k2 =>
      .after k2 (GInv.iteOuter limit rs steps k1 hrs')
    unfold State.iteOuter
    by_cases hl : ¬ steps < limit ∨ rs = []
    · rw [if_pos hl]
      exact .none h (.refl _ _ _)
    · rw [if_neg hl]
      by_cases h2 : (s.clause r1).lits.length = 2
      · rw [if_pos h2]
        exact go steps h (.refl _ _ _)
      · rw [if_neg h2]
        obtain ⟨g1, g2, g3⟩ := h.getTernary hr
        cases hg : s.getTernary x r1 with
        | mk s1 o =>
          rw [hg] at g1 g2 g3
          dsimp only at g1 g2 g3
          cases o with
          | none => exact go steps g1 g2
          | some p =>
            obtain ⟨b1, c1⟩ := p
            dsimp only
            have i := GInv.iteInner limit hr rs steps g1 hrs' (g3 b1 c1 rfl)
            cases hi : s1.iteInner limit x N r1 b1 c1 rs steps with
            | mk s2 q =>
              obtain ⟨steps2, o⟩ := q
              rw [hi] at i
              dsimp only at i
              cases o with
              | none => exact go steps2 i.inv (g2.trans i.step)
              | some G => exact .after g2 i

theorem GInv.findIte {orig : List (List Nat)} {v : Option Nat} {x : Nat} {P N : List Nat}
    (limit : Nat) {s : State} (h : GInv orig v x P N s []) :
    Found orig v x P N s (s.findIte limit x P N) := by
  unfold State.findIte
  dsimp only
  by_cases hl : (P.filter fun r => (s.clause r).lits.length ≠ 2).length *
      (P.filter fun r => (s.clause r).lits.length ≠ 2).length > limit
  · rw [if_pos hl]
    exact .none h (.refl _ _ _)
  · rw [if_neg hl]
    exact h.iteOuter limit P 0 fun r hr => hr

/-! ## Definitions -/

/-- After the attempt to find a definition: either the variable is assigned or a gate was found. -/
theorem GInv.findDefinition {orig : List (List Nat)} {v : Option Nat} {x : Nat} {P N : List Nat}
    {s : State} (h : GInv orig v x P N s []) {k : Kitten} (hk : k.Sound) :
    Inv orig v (s.findDefinition k x P N).1 ∧
    ((s.findDefinition k x P N).1.values x = 0 → Found orig v x P N s (s.findDefinition k x P N)) := by
  unfold State.findDefinition
  dsimp only
  cases hres : k (P.map (fun r => (s.clause r).lits.filter (· ≠ x)) ++
      N.map (fun r => (s.clause r).lits.filter (· ≠ Spec.neg x))) with
  | none => exact ⟨h.inv, fun _ => .none h (.refl _ _ _)⟩
  | some p =>
    obtain ⟨core, lemmas⟩ := p
    dsimp only
    have hne : ∀ c ∈ P.map (fun r => (s.clause r).lits.filter (· ≠ x)) ++
        N.map (fun r => (s.clause r).lits.filter (· ≠ Spec.neg x)), c ≠ [] := by
      intro c hc hnil
      rcases List.mem_append.1 hc with hc | hc
      · obtain ⟨r, hr, rfl⟩ := List.mem_map.1 hc
        obtain ⟨l, h1, h2⟩ := h.pos.more r hr
        have : l ∈ (s.clause r).lits.filter (· ≠ x) := List.mem_filter.2 ⟨h1, by simpa using h2⟩
        rw [hnil] at this
        cases this
      · obtain ⟨r, hr, rfl⟩ := List.mem_map.1 hc
        obtain ⟨l, h1, h2⟩ := h.neg.more r hr
        have : l ∈ (s.clause r).lits.filter (· ≠ Spec.neg x) := List.mem_filter.2 ⟨h1, by simpa using h2⟩
        rw [hnil] at this
        cases this
    obtain ⟨href, hvars⟩ := hk _ _ _ hne hres
    have hlem : ∀ c ∈ lemmas, ∀ l ∈ c, s.InRange l := by
      intro c hc l hl
      obtain ⟨d, hd, m, hm, e⟩ := hvars c hc l hl
      unfold State.InRange
      rw [← e]
      rcases List.mem_append.1 hd with hd | hd
      · obtain ⟨r, hr, rfl⟩ := List.mem_map.1 hd
        exact h.pos.range r hr m (List.mem_filter.1 hm).1
      · obtain ⟨r, hr, rfl⟩ := List.mem_map.1 hd
        exact h.neg.range r hr m (List.mem_filter.1 hm).1
    -- where the clauses of the core come from
    have hcore : ∀ c, (∃ i ∈ core, (P.map (fun r => (s.clause r).lits.filter (· ≠ x)) ++
        N.map (fun r => (s.clause r).lits.filter (· ≠ Spec.neg x)))[i]? = some c) →
        (∃ r ∈ (((List.range P.length).filter (fun i => core.contains i)).map fun i => P.getD i 0),
          r ∈ P ∧ c = except (s.clause r).lits x) ∨
        ∃ r ∈ (((List.range N.length).filter (fun i => core.contains (P.length + i))).map
          fun i => N.getD i 0), r ∈ N ∧ c = except (s.clause r).lits (Spec.neg x) := by
      rintro c ⟨i, hi, hc⟩
      by_cases hlt : i < P.length
      · left
        rw [List.getElem?_append_left (by simpa using hlt), List.getElem?_map,
          List.getElem?_eq_getElem hlt, Option.map_some, Option.some.injEq] at hc
        refine ⟨P[i], List.mem_map.2 ⟨i, List.mem_filter.2 ⟨List.mem_range.2 hlt,
          List.contains_iff_mem.2 hi⟩, by simp [List.getD_eq_getElem?_getD, hlt]⟩, List.getElem_mem hlt, hc.symm⟩
      · right
        rw [List.getElem?_append_right (by simpa using Nat.le_of_not_lt hlt), List.getElem?_map,
          List.length_map] at hc
        have hlt' : i - P.length < N.length := by
          by_cases hh : i - P.length < N.length
          · exact hh
          · rw [List.getElem?_eq_none (by omega)] at hc; cases hc
        rw [List.getElem?_eq_getElem hlt', Option.map_some, Option.some.injEq] at hc
        refine ⟨N[i - P.length], List.mem_map.2 ⟨i - P.length, List.mem_filter.2
          ⟨List.mem_range.2 hlt', List.contains_iff_mem.2 ?_⟩, by simp [List.getD_eq_getElem?_getD, hlt']⟩,
          List.getElem_mem hlt', hc.symm⟩
        rw [show P.length + (i - P.length) = i by omega]
        exact hi
    have hg0 : ∀ r ∈ (((List.range P.length).filter (fun i => core.contains i)).map fun i => P.getD i 0),
        r ∈ P := by
      intro r hr
      obtain ⟨i, hi, rfl⟩ := List.mem_map.1 hr
      have hlt := List.mem_range.1 (List.mem_filter.1 hi).1
      simp [List.getD_eq_getElem?_getD, hlt]
    have hg1 : ∀ r ∈ (((List.range N.length).filter (fun i => core.contains (P.length + i))).map
          fun i => N.getD i 0), r ∈ N := by
      intro r hr
      obtain ⟨i, hi, rfl⟩ := List.mem_map.1 hr
      have hlt := List.mem_range.1 (List.mem_filter.1 hi).1
      simp [List.getD_eq_getElem?_getD, hlt]
    generalize (((List.range P.length).filter (fun i => core.contains i)).map fun i => P.getD i 0) = g0
      at hcore hg0 ⊢
    generalize (((List.range N.length).filter (fun i => core.contains (P.length + i))).map
          fun i => N.getD i 0) = g1 at hcore hg1 ⊢
    have side : ∀ {y : Nat} {Q : List Nat}, Side s y Q → s.values y = 0 → ∀ {r : Nat}, r ∈ Q →
        (∃ d, s.formula d ∧ (∀ m ∈ except (s.clause r).lits y, m ∈ d) ∧
          ∀ m ∈ d, m ∈ except (s.clause r).lits y ∨ m = y) ∨
        ∃ o ∈ except (s.clause r).lits y, s.formula [o] := by
      intro y Q hs hy r hr
      cases hg : (s.clause r).garbage with
      | false =>
        refine Or.inl ⟨_, Struct.clause_formula hg, fun m hm => (mem_except.1 hm).1, fun m hm => ?_⟩
        by_cases e : m = y
        · exact Or.inr e
        · exact Or.inl (mem_except.2 ⟨hm, e⟩)
      | true =>
        obtain ⟨o, o1, o2⟩ := hs.sat r hr hg
        refine Or.inr ⟨o, mem_except.2 ⟨o1, ?_⟩, State.irr_formula (h.inv.struct.true_unit o2)⟩
        rintro rfl
        omega
    by_cases e0 : g0 = []
    · rw [if_pos e0]
      have hi : Inv orig v (s.learnCore (Spec.neg x) lemmas) := by
        refine h.inv.learnCore href ?_ hlem h.val' (inRange_neg.2 h.var.1) (by rw [neg_div]; exact h.var.2)
        intro c hc
        rcases hcore c hc with ⟨r, hr, _⟩ | ⟨r, _, hr, rfl⟩
        · rw [e0] at hr; cases hr
        · exact side h.neg h.val' hr
      refine ⟨hi, fun hz => ?_⟩
      exfalso
      rw [learnCore_eq] at hz
      rw [show ({ s.learnedUnit (Spec.neg x) with proof := _ } : State).values x =
        (s.learnedUnit (Spec.neg x)).values x from rfl, values_learned, if_neg (Ne.symm (neg_ne x)),
        if_pos (neg_neg x).symm] at hz
      omega
    · rw [if_neg e0]
      by_cases e1 : g1 = []
      · rw [if_pos e1]
        have hi : Inv orig v (s.learnCore x lemmas) := by
          refine h.inv.learnCore href ?_ hlem h.val h.var.1 h.var.2
          intro c hc
          rcases hcore c hc with ⟨r, _, hr, rfl⟩ | ⟨r, hr, _⟩
          · exact side h.pos h.val hr
          · rw [e1] at hr; cases hr
        refine ⟨hi, fun hz => ?_⟩
        exfalso
        rw [learnCore_eq] at hz
        rw [show ({ s.learnedUnit x with proof := _ } : State).values x =
          (s.learnedUnit x).values x from rfl, values_learned, if_pos rfl] at hz
        omega
      · rw [if_neg e1]
        refine ⟨h.inv, fun _ => ⟨h, .refl _ _ _, fun G hG => ?_⟩⟩
        cases hG
        refine ⟨hg0, hg1, fun σ _ s1 s2 => ?_, Or.inl rfl⟩
        refine refutation_false href σ fun c hc => ?_
        rcases hcore c hc with ⟨r, hr, _, rfl⟩ | ⟨r, hr, _, rfl⟩
        · exact s1 r hr
        · exact s2 r hr

/-! ## All gates -/

theorem GInv.findGates {orig : List (List Nat)} {v : Option Nat} {x : Nat} {P N : List Nat}
    {s : State} (h : GInv orig v x P N s []) (hP : P.Nodup) (hN : N.Nodup) (o : GateOptions)
    (hk : o.kitten.Sound) :
    Inv orig v (s.findGates o x P N).1 ∧
    ((s.findGates o x P N).1.values x = 0 → Found orig v x P N s (s.findGates o x P N)) := by
  have ok : ∀ {out : State × Option Gates}, Found orig v x P N s out →
      Inv orig v out.1 ∧ (out.1.values x = 0 → Found orig v x P N s out) := fun hf => ⟨hf.inv.inv, fun _ => hf⟩
  unfold State.findGates
  by_cases h0 : (!o.extract || N.isEmpty) = true
  · rw [if_pos h0]
    exact ok (.none h (.refl _ _ _))
  · rw [if_neg h0]
    have f1 : Found orig v x P N s (s, if o.equivalences then s.findEquivalence x P N else none) := by
      split
      · exact h.findEquivalence
      · exact .none h (.refl _ _ _)
    cases e1 : (if o.equivalences then s.findEquivalence x P N else none) with
    | some g => rw [e1] at f1; exact ok f1
    | none =>
      dsimp only
      have f2 : Found orig v x P N s (if o.ands then s.findAnd x P N else (s, none)) := by
        split
        · exact h.findAnd hP
        · exact .none h (.refl _ _ _)
      cases e2 : (if o.ands then s.findAnd x P N else (s, none)) with
      | mk s2 r2 =>
        rw [e2] at f2
        cases r2 with
        | some g => exact ok f2
        | none =>
          dsimp only
          have f3 : Found orig v (Spec.neg x) N P s2
              (if o.ands then s2.findAnd (Spec.neg x) N P else (s2, none)) := by
            split
            · exact f2.inv.symm.findAnd hN
            · exact .none f2.inv.symm (.refl _ _ _)
          cases e3 : (if o.ands then s2.findAnd (Spec.neg x) N P else (s2, none)) with
          | mk s3 r3 =>
            rw [e3] at f3
            have f3 := Found.after f2.step f3.swap
            cases r3 with
            | some g => exact ok f3
            | none =>
              dsimp only at f3 ⊢
              have f4 : Found orig v x P N s3
                  (if o.ifthenelse then s3.findIte o.occlim x P N else (s3, none)) := by
                split
                · exact f3.inv.findIte _
                · exact .none f3.inv (.refl _ _ _)
              cases e4 : (if o.ifthenelse then s3.findIte o.occlim x P N else (s3, none)) with
              | mk s4 r4 =>
                rw [e4] at f4
                have f4 := Found.after f3.step f4
                cases r4 with
                | some g => exact ok f4
                | none =>
                  dsimp only
                  have f5 : Found orig v (Spec.neg x) N P s4
                      (if o.ifthenelse then s4.findIte o.occlim (Spec.neg x) N P else (s4, none)) := by
                    split
                    · exact f4.inv.symm.findIte _
                    · exact .none f4.inv.symm (.refl _ _ _)
                  cases e5 : (if o.ifthenelse then s4.findIte o.occlim (Spec.neg x) N P
                      else (s4, none)) with
                  | mk s5 r5 =>
                    rw [e5] at f5
                    have f5 := Found.after f4.step f5.swap
                    cases r5 with
                    | some g => exact ok f5
                    | none =>
                      dsimp only at f5 ⊢
                      split
                      · obtain ⟨d1, d2⟩ := f5.inv.findDefinition hk
                        exact ⟨d1, fun hz => .after f5.step (d2 hz)⟩
                      · exact ok (.none f5.inv f5.step)

end Verif.Simp
