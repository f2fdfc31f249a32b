import Verif.Spec.Retention
import Verif.Proofs.Reduce

/-!
# C68: retention of learned clauses
-/

namespace Verif.Props

open Verif.Spec.Retention Verif.Model.Reduce

theorem Reduce_typed {cs : List Clause} (h : ∀ c ∈ cs, Typed c) :
    ∀ c ∈ cs, Verif.Proofs.Reduce.Typed c := fun c hc => h c hc

theorem Reduce_candidate (t1 t2 : Nat) (c : Clause) :
    Candidate t1 t2 c ↔ Verif.Proofs.Reduce.pushed t1 (max t1 t2) c := by
  unfold Candidate Verif.Proofs.Reduce.pushed
  constructor
  · rintro ⟨h1, h2, h3, h4, h5⟩
    exact ⟨h1, h2, h3, fun h => h.2 (h4 h.1), fun h => absurd (h5 h.1) (by omega)⟩
  · rintro ⟨h1, h2, h3, h4, h5⟩
    exact ⟨h1, h2, h3, fun h => Decidable.by_contra fun h' => h4 ⟨h, h'⟩,
      fun h => Decidable.by_contra fun h' => h5 ⟨h, by omega⟩⟩

theorem Reduce_chosen {t1 t2 : Nat} {target : Nat → Nat} {cs cs' : List Clause} {chosen : List Nat}
    (h : Verif.Proofs.Reduce.Reduced t1 t2 target cs cs' chosen) (k : Nat) :
    Discarded cs cs' k ↔ k ∈ chosen := by
  unfold Discarded
  rw [h.get k]
  constructor
  · rintro ⟨⟨c, h1, h2⟩, c', h3, h4⟩
    rw [h1] at h3
    cases h3
    refine Decidable.by_contra fun hn => ?_
    dsimp only at h4
    unfold Verif.Proofs.Reduce.chosenClause at h4
    rw [if_neg hn] at h4
    unfold Verif.Proofs.Reduce.aged at h4
    split at h4 <;> exact absurd (h4.symm.trans h2) (by decide)
  · intro hk
    obtain ⟨c, h1, h2⟩ := h.pushed k hk
    refine ⟨⟨c, h1, h2.2.1⟩, _, by rw [h1]; rfl, ?_⟩
    dsimp only
    unfold Verif.Proofs.Reduce.chosenClause
    rw [if_pos hk]

/-- **C68** A reduction always terminates normally, and it only throws away candidates: clauses of the input,
reasons, clauses of the first tier used since, and clauses of the second tier used recently are kept. -/
theorem C68_kept (tier1 tier2 : Nat) (target : Nat → Nat) (tmp : Nat → List Reducible) (junk : Nat → Nat)
    (cs : List Clause) (ht : ∀ c ∈ cs, Typed c) (htmp : ∀ n, (tmp n).length = n) :
    ∃ cs', reduce tier1 tier2 target tmp junk cs = some cs' ∧
      ∀ k, Discarded cs cs' k → ∃ c, cs[k]? = some c ∧ Candidate tier1 tier2 c := by
  obtain ⟨cs', chosen, h1, h2⟩ := Verif.Proofs.Reduce.reduce_spec tier1 tier2 target junk (Reduce_typed ht) htmp
  refine ⟨cs', h1, fun k hk => ?_⟩
  obtain ⟨c, h3, h4⟩ := h2.pushed k ((Reduce_chosen h2 k).1 hk)
  exact ⟨c, h3, (Reduce_candidate _ _ _).2 h4⟩

/-- **C68** Exactly as many clauses are thrown away as intended, unless there are fewer candidates. -/
theorem C68_number (tier1 tier2 : Nat) (target : Nat → Nat) (tmp : Nat → List Reducible) (junk : Nat → Nat)
    (cs cs' : List Clause) (ht : ∀ c ∈ cs, Typed c) (htmp : ∀ n, (tmp n).length = n)
    (hr : reduce tier1 tier2 target tmp junk cs = some cs') :
    ((List.range cs.length).countP fun k => Discarded cs cs' k) =
      min (target (cs.countP fun c => Candidate tier1 tier2 c)) (cs.countP fun c => Candidate tier1 tier2 c) := by
  obtain ⟨cs'', chosen, h1, h2⟩ := Verif.Proofs.Reduce.reduce_spec tier1 tier2 target junk (Reduce_typed ht) htmp
  rw [h1] at hr
  cases hr
  have e1 : (cs.countP fun c => Candidate tier1 tier2 c) =
      cs.countP fun c => Verif.Proofs.Reduce.pushed tier1 (max tier1 tier2) c :=
    List.countP_congr fun c _ => by simp [Reduce_candidate]
  rw [e1, ← h2.length]
  have e2 : ((List.range cs.length).countP fun k => Discarded cs cs' k) =
      (List.range cs.length).countP fun k => chosen.contains k :=
    List.countP_congr fun k _ => by simp [Reduce_chosen h2]
  rw [e2, List.countP_eq_length_filter]
  refine List.Perm.length_eq ((List.perm_ext_iff_of_nodup (List.nodup_range.filter _) h2.nodup).2 fun k => ?_)
  simp only [List.mem_filter, List.mem_range, List.contains_iff_mem, and_iff_right_iff_imp]
  intro hk
  obtain ⟨c, h3, _⟩ := h2.pushed k hk
  exact (List.getElem?_eq_some_iff.1 h3).1

/-- **C68** Worst first: no clause thrown away is better than a candidate kept, and of equally good candidates those
learned first are thrown away first. -/
theorem C68_worst_first (tier1 tier2 : Nat) (target : Nat → Nat) (tmp : Nat → List Reducible) (junk : Nat → Nat)
    (cs cs' : List Clause) (ht : ∀ c ∈ cs, Typed c) (htmp : ∀ n, (tmp n).length = n)
    (hr : reduce tier1 tier2 target tmp junk cs = some cs') (k j : Nat) (c d : Clause)
    (hk : Discarded cs cs' k) (hj : ¬ Discarded cs cs' j) (hc : cs[k]? = some c) (hd : cs[j]? = some d)
    (hd' : Candidate tier1 tier2 d) :
    Better d c ∨ (d.glue = c.glue ∧ d.size = c.size ∧ k < j) := by
  obtain ⟨cs'', chosen, h1, h2⟩ := Verif.Proofs.Reduce.reduce_spec tier1 tier2 target junk (Reduce_typed ht) htmp
  rw [h1] at hr
  cases hr
  rcases h2.worst k ((Reduce_chosen h2 k).1 hk) j (fun h => hj ((Reduce_chosen h2 j).2 h)) c d hc hd
    ((Reduce_candidate _ _ _).1 hd') with h | h | h
  · exact .inl (.inl h)
  · exact .inl (.inr h)
  · exact .inr h

/-- **C68** Nothing else happens to clauses, except that learned clauses get older. -/
theorem C68_frame (tier1 tier2 : Nat) (target : Nat → Nat) (tmp : Nat → List Reducible) (junk : Nat → Nat)
    (cs cs' : List Clause) (ht : ∀ c ∈ cs, Typed c) (htmp : ∀ n, (tmp n).length = n)
    (hr : reduce tier1 tier2 target tmp junk cs = some cs') :
    cs'.length = cs.length ∧ ∀ (k : Nat) (c c' : Clause), cs[k]? = some c → cs'[k]? = some c' →
      c'.redundant = c.redundant ∧ c'.reason = c.reason ∧ c'.glue = c.glue ∧ c'.size = c.size ∧
      (c.garbage = true → c' = c) ∧ (c.redundant = false → c' = c) ∧
      (c.redundant = true → c.garbage = false → c'.used = c.used - 1) := by
  obtain ⟨cs'', chosen, h1, h2⟩ := Verif.Proofs.Reduce.reduce_spec tier1 tier2 target junk (Reduce_typed ht) htmp
  rw [h1] at hr
  cases hr
  constructor
  · have h3 := h2.get cs.length
    have h4 := h2.get cs'.length
    rw [List.getElem?_eq_none (Nat.le_refl _)] at h3 h4
    have h5 := List.getElem?_eq_none_iff.1 h3
    have h6 := List.getElem?_eq_none_iff.1 (Option.map_eq_none_iff.1 h4.symm)
    omega
  · intro k c c' hc hc'
    have hp := h2.pushed k
    rw [h2.get k, hc] at hc'
    cases hc'
    dsimp only
    unfold Verif.Proofs.Reduce.chosenClause
    unfold Verif.Proofs.Reduce.aged
    by_cases hk : k ∈ chosen
    · rw [if_pos hk]
      obtain ⟨d, h3, h4⟩ := hp hk
      rw [hc] at h3
      cases h3
      rw [if_pos ⟨h4.1, h4.2.1⟩]
      exact ⟨rfl, rfl, rfl, rfl, fun h => absurd (h.symm.trans h4.2.1) (by decide),
        fun h => absurd (h4.1.symm.trans h) (by decide), fun _ _ => rfl⟩
    · rw [if_neg hk]
      split
      · rename_i h
        exact ⟨rfl, rfl, rfl, rfl, fun h' => absurd (h'.symm.trans h.2) (by decide),
          fun h' => absurd (h.1.symm.trans h') (by decide), fun _ _ => rfl⟩
      · rename_i h
        exact ⟨rfl, rfl, rfl, rfl, fun _ => rfl, fun _ => rfl, fun h1 h2 => absurd ⟨h1, h2⟩ h⟩

theorem Reduce_possible {e : Event} (h : Possible e) : Verif.Proofs.Reduce.EventTyped e := by
  cases e <;> exact h

theorem Reduce_count : ∀ es : List Event, reductions es = es.countP Verif.Proofs.Reduce.isReduction
  | [] => rfl
  | e :: es => by
    rw [List.countP_cons, ← Reduce_count es]
    cases e <;> rfl

theorem Reduce_fresh {cs cs1 : List Clause} {k : Nat} {e : Event} (h : Fresh cs k e) (hr : e.run cs = some cs1) :
    ∃ c, cs1[k]? = some c ∧ c.redundant = true ∧ c.garbage = false ∧ c.used = 31 := by
  cases e with
  | learn glue size =>
    cases hr
    have h' : k = cs.length := h
    subst h'
    exact ⟨_, by unfold Verif.Model.Reduce.learn; rw [List.getElem?_append_right (Nat.le_refl _)]; simp; rfl,
      rfl, rfl, rfl⟩
  | use ref glue =>
    cases hr
    obtain ⟨rfl, c, h1, h2, h3⟩ := h
    refine ⟨{ c with used := 31, glue := if glue < c.glue then glue else c.glue }, ?_, h2, h3, rfl⟩
    unfold Verif.Model.Reduce.use
    rw [List.getElem?_modify, h1]
    simp [h2]
  | reasons f => exact h.elim
  | reduce _ _ _ _ _ => exact h.elim

/-- **C68** A clause survives: from the moment it is learned or used, as long as at most 31 reductions happen, all
with the first limit at least the glue it had then. -/
theorem C68_first_tier (cs cs1 cs' : List Clause) (ht : ∀ c ∈ cs, Typed c) (k : Nat) (e : Event) (es : List Event)
    (hp : ∀ e' ∈ e :: es, Possible e') (hf : Fresh cs k e) (h1 : e.run cs = some cs1) (c : Clause)
    (hc : cs1[k]? = some c) (hl : LimitsAre (fun tier1 _ => c.glue ≤ tier1) es) (hn : reductions es ≤ 31)
    (h2 : runAll es cs1 = some cs') :
    ∃ c', cs'[k]? = some c' ∧ c'.redundant = true ∧ c'.garbage = false := by
  obtain ⟨c1, x1, x2, x3, x4⟩ := Reduce_fresh hf h1
  rw [hc] at x1
  cases x1
  obtain ⟨cs1', y1, y2⟩ := Verif.Proofs.Reduce.run_spec (Reduce_typed ht) (Reduce_possible (hp e (by simp)))
  rw [h1] at y1
  cases y1
  rw [Reduce_count] at hn
  exact Verif.Proofs.Reduce.alive_run (g := c.glue) (m := 0) (u := 31) (P := fun t1 _ => c.glue ≤ t1)
    (fun t1 t2 u h1 h2 => .inl ⟨h1, by omega⟩) es y2
    (fun e' h => Reduce_possible (hp e' (by simp [h]))) (Nat.le_refl _) (by omega)
    ⟨c, hc, x2, x3, Nat.le_refl _, by omega⟩
    (fun t1 t2 target tmp junk h => hl t1 t2 target tmp junk h) h2

/-- **C68** A clause survives: from the moment it is learned or used, as long as at most two reductions happen, all
with one of the limits at least the glue it had then. -/
theorem C68_second_tier (cs cs1 cs' : List Clause) (ht : ∀ c ∈ cs, Typed c) (k : Nat) (e : Event) (es : List Event)
    (hp : ∀ e' ∈ e :: es, Possible e') (hf : Fresh cs k e) (h1 : e.run cs = some cs1) (c : Clause)
    (hc : cs1[k]? = some c) (hl : LimitsAre (fun tier1 tier2 => c.glue ≤ tier1 ∨ c.glue ≤ tier2) es)
    (hn : reductions es ≤ 2) (h2 : runAll es cs1 = some cs') :
    ∃ c', cs'[k]? = some c' ∧ c'.redundant = true ∧ c'.garbage = false := by
  obtain ⟨c1, x1, x2, x3, x4⟩ := Reduce_fresh hf h1
  rw [hc] at x1
  cases x1
  obtain ⟨cs1', y1, y2⟩ := Verif.Proofs.Reduce.run_spec (Reduce_typed ht) (Reduce_possible (hp e (by simp)))
  rw [h1] at y1
  cases y1
  rw [Reduce_count] at hn
  exact Verif.Proofs.Reduce.alive_run (g := c.glue) (m := 29) (u := 31) (P := fun _ t2 => c.glue ≤ t2)
    (fun t1 t2 u h1 h2 => .inr ⟨h1, by omega⟩) es y2
    (fun e' h => Reduce_possible (hp e' (by simp [h]))) (Nat.le_refl _) (by omega)
    ⟨c, hc, x2, x3, Nat.le_refl _, by omega⟩
    (fun t1 t2 target tmp junk h => by have := hl t1 t2 target tmp junk h; omega) h2

/-! ## The hypotheses can be met -/

/-- An input clause, and learned clauses: a reason, of the first tier, of the second tier, and three others. -/
def Reduce_example : List Clause :=
  [⟨false, false, false, 0, 0, 3⟩, ⟨true, false, true, 0, 40, 50⟩, ⟨true, false, false, 1, 2, 3⟩,
    ⟨true, false, false, 30, 6, 9⟩, ⟨true, false, false, 29, 6, 9⟩, ⟨true, false, false, 31, 8, 9⟩,
    ⟨true, false, false, 31, 8, 20⟩]

def Reduce_tmp (n : Nat) : List Reducible := List.replicate n ⟨0, 0⟩

example : (∀ c ∈ Reduce_example, Typed c) ∧ (∀ n, (Reduce_tmp n).length = n) :=
  ⟨by decide +kernel, fun n => by simp [Reduce_tmp]⟩

/-- Two of the three candidates are thrown away: those with glue eight. -/
example : (reduce 2 6 (fun _ => 2) Reduce_tmp (fun _ => 0) Reduce_example).map (·.map (·.garbage)) =
    some [false, false, false, false, false, true, true] := by decide +kernel

example : (reduce 2 6 (fun _ => 1) Reduce_tmp (fun _ => 0) Reduce_example).map (·.map (·.garbage)) =
    some [false, false, false, false, false, false, true] := by decide +kernel

/-- A clause of the second tier which is not used again is gone after the third reduction. -/
example : (runAll [.learn 6 9, .reduce 2 6 id Reduce_tmp (fun _ => 0), .reduce 2 6 id Reduce_tmp (fun _ => 0)]
      []).map (·.map (·.garbage)) = some [false] ∧
    (runAll [.learn 6 9, .reduce 2 6 id Reduce_tmp (fun _ => 0), .reduce 2 6 id Reduce_tmp (fun _ => 0),
      .reduce 2 6 id Reduce_tmp (fun _ => 0)] []).map (·.map (·.garbage)) = some [true] := by
  decide +kernel

/-- Hypotheses of `C68_second_tier` and `C68_first_tier`. -/
example : Fresh [] 0 (.learn 6 9) ∧ Possible (.learn 6 9) ∧
    Possible (.reduce 2 6 id Reduce_tmp (fun _ => 0)) ∧
    LimitsAre (fun tier1 tier2 => 6 ≤ tier1 ∨ 6 ≤ tier2)
      [.reduce 2 6 id Reduce_tmp (fun _ => 0), .reasons fun _ => true, .reduce 2 6 id Reduce_tmp (fun _ => 0)] ∧
    reductions [.reduce 2 6 id Reduce_tmp (fun _ => 0), .reasons fun _ => true,
      .reduce 2 6 id Reduce_tmp (fun _ => 0)] = 2 := by
  refine ⟨rfl, by show 9 < 4294967296; omega, fun n => by simp [Reduce_tmp], ?_, rfl⟩
  intro t1 t2 target tmp junk h
  simp only [List.mem_cons, Event.reduce.injEq, List.not_mem_nil, reduceCtorEq, false_or, or_false] at h
  rcases h with h | h <;> omega

example : Fresh [⟨true, false, false, 3, 9, 9⟩] 0 (.use 0 2) ∧
    (Event.run [⟨true, false, false, 3, 9, 9⟩] (.use 0 2)) = some [⟨true, false, false, 31, 2, 9⟩] ∧
    (runAll (List.replicate 31 (.reduce 2 6 id Reduce_tmp (fun _ => 0))) [⟨true, false, false, 31, 2, 9⟩]) =
      some [⟨true, false, false, 0, 2, 9⟩] ∧
    ((runAll (List.replicate 32 (.reduce 2 6 id Reduce_tmp (fun _ => 0))) [⟨true, false, false, 31, 2, 9⟩]).map
      (·.map (·.garbage))) = some [true] :=
  ⟨⟨rfl, _, rfl, rfl, rfl⟩, by decide +kernel, by decide +kernel, by decide +kernel⟩

end Verif.Props
