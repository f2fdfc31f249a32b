import Verif.Proofs.Core.Search

/-! # A conflict on the root level is found again

After a conflict on the root level the propagation pointer stands behind the literal whose
watches led to the conflict.  The other watched literal of the conflicting clause is still
to be propagated, thus propagating again finds a conflict again. -/

namespace Verif.Core

open Verif.Spec

/-- All literals of the clause `r` watched by `v` are false, as is the blocking literal `b`. -/
structure Dead (s : Solver) (v b r : Nat) : Prop where
  blocking : s.values b < 0
  live : s.Live r
  watched : (s.clause r).Watched v
  size : 3 ≤ (s.clause r).lits.length
  lits : ∀ l ∈ (s.clause r).lits, s.values l < 0

/-- A watch of `v` which leads to a conflict. -/
def DeadWatch (s : Solver) (v : Nat) : Watch → Prop
  | .binary u => s.values u < 0
  | .large b r => Dead s v b r

theorem findReplacement_values {values : Nat → Int} {lits : List Nat} {searched r : Nat}
    (h : findReplacement values lits searched = some r) (ha : ∀ l ∈ lits, values l < 0) : False := by
  unfold findReplacement at h
  cases h1 : (lits.drop searched).findIdx? (fun l => Decidable.decide (0 ≤ values l)) with
  | some i =>
    obtain ⟨hi, hv, _⟩ := List.findIdx?_eq_some_iff_getElem.1 h1
    have := ha _ (List.mem_of_mem_drop (List.getElem_mem hi))
    simp only [decide_eq_true_eq] at hv
    omega
  | none =>
    rw [h1] at h
    simp only at h
    cases h2 : ((lits.take searched).drop 2).findIdx? (fun l => Decidable.decide (0 ≤ values l)) with
    | some i =>
      obtain ⟨hi, hv, _⟩ := List.findIdx?_eq_some_iff_getElem.1 h2
      have := ha _ (List.mem_of_mem_take (List.mem_of_mem_drop (List.getElem_mem hi)))
      simp only [decide_eq_true_eq] at hv
      omega
    | none => rw [h2] at h; cases h

theorem DeadWatch.assign {s : Solver} {v : Nat} {w : Watch} (h : DeadWatch s v w) {level x : Nat}
    {reason : Reason} (hx : s.values x = 0) : DeadWatch (s.assign level x reason) v w := by
  have hval : ∀ y, s.values y < 0 → (s.assign level x reason).values y < 0 := by
    intro y hy
    rw [assign_values]
    by_cases e1 : y = x
    · subst e1; omega
    · by_cases e2 : y = neg x
      · subst e2; simp_all
      · simp_all
  have hc : ∀ r, (s.assign level x reason).clause r = s.clause r := by
    intro r
    unfold Solver.clause
    obtain ⟨r', _, _, e | e⟩ := assign_eq s level x reason <;> rw [e] <;> rfl
  cases w with
  | binary u => exact hval u h
  | large b r =>
    refine ⟨hval _ h.blocking, ?_, ?_, ?_, ?_⟩
    · unfold Solver.Live; rw [hc]; exact h.live
    · rw [hc]; exact h.watched
    · rw [hc]; exact h.size
    · rw [hc]; exact fun l hl => hval l (h.lits l hl)

/-- One watch without conflict. -/
theorem propagateWatch_dead {level notLit : Nat} {w : Watch} {t t' : Loop}
    (h : propagateWatch level notLit w t = (t', none)) :
    ¬ DeadWatch t.s notLit w ∧ (∀ v w', DeadWatch t.s v w' → DeadWatch t'.s v w') ∧
    t'.s.watches = t.s.watches ∧ t'.s.propagate = t.s.propagate ∧ ∃ e, t'.s.trail = t.s.trail ++ e := by
  have hassign : ∀ level x reason, (t.s.assign level x reason).watches = t.s.watches ∧
      (t.s.assign level x reason).propagate = t.s.propagate ∧
      ∃ e, (t.s.assign level x reason).trail = t.s.trail ++ e := by
    intro level x reason
    obtain ⟨r', _, _, e | e⟩ := assign_eq t.s level x reason <;> rw [e] <;> exact ⟨rfl, rfl, [x], rfl⟩
  have hsame : t'.s = t.s → (∀ v w', DeadWatch t.s v w' → DeadWatch t'.s v w') ∧
    t'.s.watches = t.s.watches ∧ t'.s.propagate = t.s.propagate ∧ ∃ e, t'.s.trail = t.s.trail ++ e := by
    intro e; rw [e]; exact ⟨fun _ _ h => h, rfl, rfl, [], by simp⟩
  unfold propagateWatch at h
  cases w with
  | binary other =>
    simp only at h
    by_cases h1 : 0 < t.s.values other
    · rw [if_pos h1] at h
      injection h with h _
      refine ⟨fun hd => ?_, hsame (by rw [← h])⟩
      have : t.s.values other < 0 := hd
      omega
    · rw [if_neg h1] at h
      by_cases h2 : t.s.values other < 0
      · rw [if_pos h2] at h; injection h with _ h; cases h
      · rw [if_neg h2] at h
        injection h with h _
        refine ⟨fun hd => h2 hd, ?_⟩
        rw [← h]
        exact ⟨fun v w' hd => hd.assign (by omega), hassign _ _ _⟩
  | large blocking ref =>
    simp only at h
    by_cases h1 : 0 < t.s.values blocking
    · rw [if_pos h1] at h
      injection h with h _
      refine ⟨fun hd => ?_, hsame (by rw [← h])⟩
      have := hd.blocking
      omega
    · rw [if_neg h1] at h
      unfold propagateLarge at h
      simp only at h
      by_cases hg : (t.s.clause ref).garbage = true
      · rw [if_pos hg] at h
        injection h with h _
        refine ⟨fun hd => ?_, hsame (by rw [← h])⟩
        have := hd.live
        unfold Solver.Live at this
        simp_all
      · rw [if_neg hg] at h
        have hother : ∀ {b : Nat}, Dead t.s notLit b ref →
            t.s.values ((t.s.clause ref).lits.getD 0 0 ^^^ (t.s.clause ref).lits.getD 1 0 ^^^ notLit) < 0 := by
          intro b hd
          have hs := hd.size
          have g0 : (t.s.clause ref).lits[0]? = some (t.s.clause ref).lits[0] := List.getElem?_eq_getElem _
          have g1 : (t.s.clause ref).lits[1]? = some (t.s.clause ref).lits[1] := List.getElem?_eq_getElem _
          rw [List.getD_eq_getElem?_getD, List.getD_eq_getElem?_getD, g0, g1]
          rcases hd.watched with hw | hw
          · rw [g0] at hw
            injection hw with hw
            rw [← hw]
            simp only [Option.getD_some]
            rw [xor_cancel]
            exact hd.lits _ (List.getElem_mem _)
          · rw [g1] at hw
            injection hw with hw
            rw [← hw]
            simp only [Option.getD_some]
            rw [xor_cancel']
            exact hd.lits _ (List.getElem_mem _)
        generalize ho : (t.s.clause ref).lits.getD 0 0 ^^^ (t.s.clause ref).lits.getD 1 0 ^^^ notLit = other
          at h hother
        by_cases h2 : 0 < t.s.values other
        · rw [if_pos h2] at h
          injection h with h _
          refine ⟨fun hd => ?_, hsame (by rw [← h])⟩
          have := hother hd
          omega
        · rw [if_neg h2] at h
          cases hf : findReplacement t.s.values (t.s.clause ref).lits (t.s.clause ref).searched with
          | some r =>
            rw [hf] at h
            simp only at h
            injection h with h _
            refine ⟨fun hd => findReplacement_values hf hd.lits, ?_⟩
            rw [← h]
            refine ⟨fun v w' hd => ?_, rfl, rfl, [], by simp [Solver.setClause]⟩
            cases w' with
            | binary u => exact hd
            | large b r' =>
              have hne : r' ≠ ref := by
                rintro rfl
                exact findReplacement_values hf hd.lits
              have hc : ∀ c, (t.s.setClause ref c).clause r' = t.s.clause r' := by
                intro c
                unfold Solver.setClause Solver.clause
                simp only
                rw [List.getD_eq_getElem?_getD, List.getD_eq_getElem?_getD,
                  List.getElem?_set_ne (Ne.symm hne)]
              refine ⟨hd.blocking, ?_, ?_, ?_, ?_⟩
              · unfold Solver.Live; rw [hc]; exact hd.live
              · rw [hc]; exact hd.watched
              · rw [hc]; exact hd.size
              · rw [hc]; exact hd.lits
          | none =>
            rw [hf] at h
            simp only at h
            by_cases h3 : t.s.values other ≠ 0
            · rw [if_pos h3] at h; injection h with _ h; cases h
            · rw [if_neg h3] at h
              injection h with h _
              refine ⟨fun hd => ?_, ?_⟩
              · have := hother hd
                omega
              · rw [← h]
                exact ⟨fun v w' hd => hd.assign (by omega), hassign _ _ _⟩

theorem propagateWatches_dead {level notLit : Nat} : ∀ {ws : List Watch} {t t' : Loop},
    propagateWatches level notLit ws t = (t', none) →
    (∀ w ∈ ws, ¬ DeadWatch t.s notLit w) ∧ (∀ v w', DeadWatch t.s v w' → DeadWatch t'.s v w') ∧
    t'.s.watches = t.s.watches ∧ t'.s.propagate = t.s.propagate ∧ ∃ e, t'.s.trail = t.s.trail ++ e
  | [], t, t', h => by
    unfold propagateWatches at h
    injection h with h _
    subst h
    exact ⟨by simp, fun _ _ h => h, rfl, rfl, [], by simp⟩
  | w :: ws, t, t', h => by
    unfold propagateWatches at h
    cases hp : propagateWatch level notLit w t with
    | mk u c =>
      rw [hp] at h
      cases c with
      | some c => simp only at h; injection h with _ h; cases h
      | none =>
        simp only at h
        obtain ⟨a1, a2, a3, a4, e, a5⟩ := propagateWatch_dead hp
        obtain ⟨b1, b2, b3, b4, e', b5⟩ := propagateWatches_dead h
        refine ⟨?_, fun v w' hd => b2 v w' (a2 v w' hd), b3.trans a3, b4.trans a4, e ++ e', by
          rw [b5, a5, List.append_assoc]⟩
        intro w' hw
        rcases List.mem_cons.1 hw with rfl | hw
        · exact a1
        · exact fun hd => b1 w' hw (a2 _ _ hd)

/-- Propagating one literal without conflict. -/
theorem propagateLiteral_dead {s s' : Solver} {lit : Nat} (h : propagateLiteral s lit = (s', none)) :
    (∀ w ∈ s.watches (neg lit), ¬ DeadWatch s (neg lit) w) ∧
    (∀ v, v ≠ neg lit → ∀ w ∈ s.watches v, DeadWatch s v w → w ∈ s'.watches v ∧ DeadWatch s' v w) ∧
    s'.propagate = s.propagate ∧ ∃ e, s'.trail = s.trail ++ e := by
  unfold propagateLiteral at h
  simp only at h
  cases hp : propagateWatches (s.lev lit) (neg lit) (s.watches (neg lit)) ⟨s, [], []⟩ with
  | mk t c =>
    rw [hp] at h
    simp only at h
    injection h with h hc
    subst hc
    obtain ⟨h1, h2, h3, h4, e, h5⟩ := propagateWatches_dead hp
    rw [watchDelayed_eq] at h
    subst h
    refine ⟨h1, ?_, h4, e, h5⟩
    intro v hv w hw hd
    refine ⟨?_, ?_⟩
    · show w ∈ upd t.s.watches (neg lit) t.kept v ++ _
      rw [upd_apply, if_neg hv, h3]
      exact List.mem_append_left _ hw
    · have := h2 v w hd
      cases w with
      | binary u => exact this
      | large b r => exact ⟨this.1, this.2, this.3, this.4, this.5⟩

/-- A watch whose clause is false is found by propagation. -/
theorem propagateLoop_dead : ∀ (n : Nat) {s : Solver} {v j : Nat} {w : Watch},
    w ∈ s.watches v → DeadWatch s v w → s.trail[s.propagate + j]? = some (neg v) → j < n →
    (propagateLoop n s).2 ≠ none
  | 0, s, v, j, w, _, _, _, hj => by omega
  | n + 1, s, v, j, w, hw, hd, ht, hj => by
    have hlt : s.propagate < s.trail.length := by
      have := (List.getElem?_eq_some_iff.1 ht).1
      omega
    unfold propagateLoop
    rw [List.getElem?_eq_getElem hlt]
    simp only
    cases hres : propagateLiteral { s with propagate := s.propagate + 1 } s.trail[s.propagate] with
    | mk s' c =>
      cases c with
      | some c => simp
      | none =>
        simp only
        obtain ⟨h1, h2, h3, e, h4⟩ := propagateLiteral_dead hres
        have h3 : s'.propagate = s.propagate + 1 := h3
        have h4 : s'.trail = s.trail ++ e := h4
        have hd' : DeadWatch { s with propagate := s.propagate + 1 } v w := by
          cases w with
          | binary u => exact hd
          | large b r => exact ⟨hd.1, hd.2, hd.3, hd.4, hd.5⟩
        by_cases hv : v = neg s.trail[s.propagate]
        · rw [← hv] at h1
          exact absurd hd' (h1 w hw)
        · obtain ⟨g1, g2⟩ := h2 v hv w hw hd'
          have hj0 : j ≠ 0 := by
            rintro rfl
            obtain ⟨_, e⟩ := List.getElem?_eq_some_iff.1 ht
            exact hv (by rw [← neg_neg v, ← e]; rfl)
          refine propagateLoop_dead n (j := j - 1) g1 g2 ?_ (by omega)
          rw [h3, h4, show s.propagate + 1 + (j - 1) = s.propagate + j by omega,
            List.getElem?_append_left (List.getElem?_eq_some_iff.1 ht).1]
          exact ht

/-- Where the propagation pointer stands after a conflict. -/
theorem propagateLoop_conflict {orig : Base} {G : Assignment → Prop} :
    ∀ (n : Nat) {s : Solver}, PropInv orig G s → (propagateLoop n s).2 ≠ none →
    ∃ c k, ConflictOk (propagateLoop n s).1 c ∧ Ok orig G (propagateLoop n s).1 ∧
      (propagateLoop n s).1.level = s.level ∧ Watching (propagateLoop n s).1 k ∧
      (propagateLoop n s).1.propagate = k + 1 ∧ k < (propagateLoop n s).1.trail.length
  | 0, s, h, hn => absurd rfl hn
  | n + 1, s, h, hn => by
    unfold propagateLoop at hn ⊢
    cases hk : s.trail[s.propagate]? with
    | none => rw [hk] at hn; exact absurd rfl hn
    | some lit =>
      rw [hk] at hn
      simp only at hn ⊢
      have hok : Ok orig G { s with propagate := s.propagate + 1 } :=
        h.ok.misc (s.propagate + 1) s.iterating s.conflicts s.decisions s.options
      have hw : Watching { s with propagate := s.propagate + 1 } s.propagate :=
        h.watching.misc (s.propagate + 1) s.inconsistent s.iterating s.conflicts s.decisions
          s.proof s.options
      have hp := propagateLiteral_ok hok hw (lit := lit) hk h.frames
      have hlt := (List.getElem?_eq_some_iff.1 hk).1
      cases hres : propagateLiteral { s with propagate := s.propagate + 1 } lit with
      | mk s' c =>
        rw [hres] at hp hn
        obtain ⟨hfz, hok', hp⟩ := hp
        simp only at hfz hok' hp hn
        obtain ⟨e, he⟩ := hfz.trail
        have he : s'.trail = s.trail ++ e := he
        cases c with
        | some c =>
          simp only at hp ⊢
          exact ⟨c, s.propagate, hp.2, hok', hfz.level, hp.1, hfz.propagate, by
            rw [he, List.length_append]; omega⟩
        | none =>
          simp only at hp hn ⊢
          have hprop : s'.propagate = s.propagate + 1 := hfz.propagate
          have hinv : PropInv orig G s' := by
            refine ⟨hok', by rw [hprop]; exact hp, ?_, ?_⟩
            · rw [hfz.frames, hprop]; intro f hf; exact Nat.le_succ_of_le (h.frames f hf)
            · rw [hprop, he, List.length_append]; omega
          obtain ⟨c, k, g1, g2, g3, g4⟩ := propagateLoop_conflict n hinv hn
          exact ⟨c, k, g1, g2, g3.trans hfz.level, g4⟩

/-- A conflict on the root level is found again if propagation goes on. -/
theorem propagateLoop_again {orig : Base} {G : Assignment → Prop} {s : Solver} (h : PropInv orig G s)
    (h0 : s.level = 0) (n : Nat) (hc : (propagateLoop n s).2 ≠ none) :
    ∃ v w j, w ∈ (propagateLoop n s).1.watches v ∧ DeadWatch (propagateLoop n s).1 v w ∧
      (propagateLoop n s).1.trail[(propagateLoop n s).1.propagate + j]? = some (neg v) ∧
      j < (propagateLoop n s).1.vars := by
  obtain ⟨c, k, hcf, hok, hl, hw, hp, hk⟩ := propagateLoop_conflict n h hc
  generalize (propagateLoop n s).1 = u at *
  have hl0 : u.level = 0 := hl.trans h0
  have ht := hok.inv.trail
  have hlen := ht.length_le
  have hlev : ∀ x, u.values x = -1 → u.lev x = 0 := by
    intro x hx
    have := ht.levle (neg x) (ht.neg_pos.2 hx)
    rw [lev_neg] at this
    omega
  -- one of two false literals which are still to be processed is behind the pointer
  have hone : ∀ {x y : Nat}, x ≠ y → neg x ∈ u.trail.drop k → neg y ∈ u.trail.drop k →
      ∃ v j, (v = x ∨ v = y) ∧ u.trail[u.propagate + j]? = some (neg v) ∧ j < u.vars := by
    intro x y hne hx hy
    rw [List.drop_eq_getElem_cons hk] at hx hy
    have hfin : ∀ v, neg v ∈ u.trail.drop (k + 1) →
        ∃ j, u.trail[u.propagate + j]? = some (neg v) ∧ j < u.vars := by
      intro v hv
      obtain ⟨j, hj⟩ := List.mem_iff_getElem?.1 hv
      rw [List.getElem?_drop, ← hp] at hj
      refine ⟨j, hj, ?_⟩
      have := (List.getElem?_eq_some_iff.1 hj).1
      omega
    rcases List.mem_cons.1 hx with hx | hx
    · rcases List.mem_cons.1 hy with hy | hy
      · exact absurd (by rw [← neg_neg x, hx, ← hy, neg_neg]) hne
      · obtain ⟨j, hj⟩ := hfin y hy
        exact ⟨y, j, .inr rfl, hj⟩
    · obtain ⟨j, hj⟩ := hfin x hx
      exact ⟨x, j, .inl rfl, hj⟩
  cases c with
  | binary a b =>
    obtain ⟨h1, h2, h3⟩ := hcf
    have hsym : Watch.binary a ∈ u.watches b := (hok.inv.clause.bin a b h1).1
    have hin : ∀ {x y : Nat}, Watch.binary y ∈ u.watches x → u.values x = -1 → u.values y = -1 →
        neg x ∈ u.trail.drop k := by
      intro x y hxy hx hy
      by_cases hn : neg x ∈ u.trail.drop k
      · exact hn
      · obtain ⟨t, t1, t2, _⟩ := hw.binary x y hxy hx hn
        rw [List.mem_singleton.1 t1] at t2
        omega
    obtain ⟨v, j, hv, hj⟩ := hone (hok.inv.clause.bin a b h1).2.1 (hin h1 h2 h3) (hin hsym h3 h2)
    rcases hv with rfl | rfl
    · exact ⟨_, .binary b, j, h1, (by show u.values b < 0; omega), hj⟩
    · exact ⟨_, .binary a, j, hsym, (by show u.values a < 0; omega), hj⟩
  | large r =>
    obtain ⟨hr, hall⟩ := hcf
    have hsize := hok.inv.clause.size r hr
    have hnd := hok.inv.clause.nodup r hr
    have hmem : ∀ w, (u.clause r).Watched w → w ∈ (u.clause r).lits := by
      rintro w (h | h) <;> exact List.mem_iff_getElem?.2 ⟨_, h⟩
    have hin : ∀ x, (u.clause r).Watched x → neg x ∈ u.trail.drop k := by
      intro x hx
      by_cases hn : neg x ∈ u.trail.drop k
      · exact hn
      · have hxv := hall x (hmem x hx)
        rcases hw.large r hr x hx hxv hn with ⟨t, t1, t2, _⟩ | hex
        · have := hall t t1
          omega
        · exact absurd (hlev x hxv) hex.2.1
    have hdead : ∀ x, (u.clause r).Watched x → ∃ w ∈ u.watches x, DeadWatch u x w := by
      intro x hx
      rcases hok.inv.watch.watched r hr x hx with ⟨b, hb⟩ | ⟨t, t1, t2, _⟩
      · refine ⟨_, hb, ?_, hr, hx, hsize, fun l hl => ?_⟩
        · have := hall b (hok.inv.watch.back x b r hb hr).2
          omega
        · have := hall l hl
          omega
      · have := hall t t1
        omega
    have w0 : (u.clause r).Watched (u.clause r).lits[0] := .inl (List.getElem?_eq_getElem _)
    have w1 : (u.clause r).Watched (u.clause r).lits[1] := .inr (List.getElem?_eq_getElem _)
    have hne : (u.clause r).lits[0] ≠ (u.clause r).lits[1] := by
      intro e
      exact absurd e (List.pairwise_iff_getElem.1 hnd 0 1 (by omega) (by omega) (by omega))
    obtain ⟨v, j, hv, hj⟩ := hone hne (hin _ w0) (hin _ w1)
    have hvw : (u.clause r).Watched v := by rcases hv with rfl | rfl <;> assumption
    obtain ⟨w, h1, h2⟩ := hdead v hvw
    exact ⟨v, w, j, h1, h2, hj⟩

/-- If `kissat_backtrack_propagate_and_flush_trail` ignores a conflict then the next propagation
finds it again. -/
theorem rootConflict_again {orig : Base} [Deletes orig] {G : Assignment → Prop} {s : Solver}
    (h : PropInv orig G s) (hn : s.rootConflict = true) : (searchPropagate s.flushToRoot).2 ≠ none := by
  unfold Solver.rootConflict at hn
  rw [Bool.and_eq_true] at hn
  obtain ⟨h0, hn⟩ := hn
  have h0 : s.level ≠ 0 := by simpa using h0
  unfold Solver.flushToRoot
  rw [if_pos h0]
  obtain ⟨h1, hk⟩ := h.backtrack 0
  obtain ⟨f, hb⟩ := h.ok.inv.trail.backtracked (m := 0) (Nat.pos_of_ne_zero h0)
  have hp := propagateLoop_ok ((s.backtrack 0).vars + 1) h1 (by omega)
  have hn : (propagateLoop ((s.backtrack 0).vars + 1) (s.backtrack 0)).2 ≠ none := by
    intro e
    unfold searchPropagate at hn
    simp only at hn
    rw [e] at hn
    cases hn
  obtain ⟨v, w, j, a1, a2, a3, a4⟩ := propagateLoop_again h1 hb.level _ hn
  unfold searchPropagate
  cases hres : propagateLoop ((s.backtrack 0).vars + 1) (s.backtrack 0) with
  | mk u c =>
    rw [hres] at a1 a2 a3 a4 hn hp
    cases c with
    | none => exact absurd rfl hn
    | some c =>
      simp only at a1 a2 a3 a4 ⊢
      unfold updateConflictsAndTrail
      simp only
      have hl : u.level = 0 := hp.1.level.trans hb.level
      rw [if_pos hl]
      refine propagateLoop_dead _ (v := v) (w := w) (j := j) a1 ?_ a3 (Nat.lt_succ_of_lt a4)
      cases w with
      | binary u => exact a2
      | large b r => exact ⟨a2.1, a2.2, a2.3, a2.4, a2.5⟩

end Verif.Core
