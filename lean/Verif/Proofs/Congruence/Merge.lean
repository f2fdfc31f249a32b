import Verif.Proofs.Congruence.Base

/-!
# Merging literals
-/

namespace Verif.Congruence

open Verif.Spec Verif.Model Verif.Simp

variable {orig : List (List Nat)} {F0 : Formula} {E : List (List Nat)} {c c' : Closure}

theorem Bot.base_cut {s : State} {A B : List Nat} (h : Bot (base s E) B) (hA : ∀ b ∈ B, Imp s.irr A b) : Bot (base s E) A :=
  h.cut fun b hb => (hA b hb).le irr_base

theorem neg_lt {a b : Nat} (h : a < b) (hn : a ≠ neg b) : a / 2 < b / 2 := by
  unfold neg at hn
  split at hn <;> omega

theorem findRepr_congr (h : c'.repr = c.repr) (l : Nat) : c'.findRepr l = c.findRepr l := by
  unfold Closure.findRepr; rw [h]

/-- The representatives after merging. -/
theorem Base.findRepr_set (h : Base orig F0 E c) {larger smaller : Nat} (h1 : c.repr larger = larger) (h2 : c.repr smaller = smaller)
    (hlt : smaller / 2 < larger / 2) (l : Nat) : (c.setRepr larger smaller).findRepr l =
      if c.findRepr l = larger then smaller else if c.findRepr l = Spec.neg larger then Spec.neg smaller else c.findRepr l := by
  have hrepr : ∀ m, (c.setRepr larger smaller).repr m =
    if m = larger then smaller else if m = Spec.neg larger then Spec.neg smaller else c.repr m := fun _ => rfl
  have hwf : ∀ m, (c.setRepr larger smaller).repr m ≠ m → (c.setRepr larger smaller).repr m / 2 < m / 2 := by
    intro m hm
    rw [hrepr] at hm ⊢
    by_cases e1 : m = larger
    · rw [if_pos e1, e1]; exact hlt
    · rw [if_neg e1] at hm ⊢
      by_cases e2 : m = Spec.neg larger
      · rw [if_pos e2, e2, neg_div, neg_div]; exact hlt
      · rw [if_neg e2] at hm ⊢; exact h.lt m hm
  have hn1 : c.repr (Spec.neg larger) = Spec.neg larger := by rw [h.neg, h1]
  have hn2 : c.repr (Spec.neg smaller) = Spec.neg smaller := by rw [h.neg, h2]
  have hroot : ∀ m, c.repr m = m → (c.setRepr larger smaller).findRepr m =
      if m = larger then smaller else if m = Spec.neg larger then Spec.neg smaller else m := by
    intro m hm
    have hs : ∀ x, c.repr x = x → x / 2 = smaller / 2 → (c.setRepr larger smaller).findRepr x = x := by
      intro x hx hd
      refine findRepr_root rfl ?_
      rw [hrepr, if_neg (by intro e; rw [e] at hd; omega), if_neg (by intro e; rw [e, neg_div] at hd; omega), hx]
    by_cases e1 : m = larger
    · rw [if_pos e1, findRepr_step hwf (by rw [hrepr, if_pos e1]; intro e; rw [e, e1] at hlt; omega), hrepr, if_pos e1]
      exact hs smaller h2 rfl
    · rw [if_neg e1]
      by_cases e2 : m = Spec.neg larger
      · rw [if_pos e2, findRepr_step hwf (by
            rw [hrepr, if_neg e1, if_pos e2]; intro e; rw [← neg_inj (e.trans e2)] at hlt; omega), hrepr, if_neg e1, if_pos e2]
        exact hs _ hn2 (neg_div _)
      · rw [if_neg e2]
        exact findRepr_root rfl (by rw [hrepr, if_neg e1, if_neg e2, hm])
  refine findRepr_ind h.lt (p := fun l r => (c.setRepr larger smaller).findRepr l =
      if r = larger then smaller else if r = Spec.neg larger then Spec.neg smaller else r) hroot (fun m r hm ih => ?_) (l + 1) l (by omega)
  have e1 : m ≠ larger := fun e => hm (by rw [e, h1])
  have e2 : m ≠ Spec.neg larger := fun e => hm (by rw [e, hn1])
  have e3 : (c.setRepr larger smaller).repr m = c.repr m := by rw [hrepr, if_neg e1, if_neg e2]
  rw [findRepr_step hwf (by rw [e3]; exact hm), e3]; exact ih

theorem addBinary_new (order : State → List Nat) {a b : Nat} (hi : c.solver.inconsistent = false) (ha : c.solver.values a = 0)
    (hb : c.solver.values b = 0) (hab : a ≠ b) (hn : a ≠ neg b) : c.addBinary order a b = c.newBinary a b := by
  unfold Closure.addBinary
  rw [if_neg (by rw [hi]; simp), if_neg hn, if_neg (by omega), if_neg (by omega), if_neg hab, if_neg (by omega), if_neg (by omega)]

theorem Base.mergeReprs (h : Base orig F0 E c) (order : State → List Nat) {smaller larger : Nat} (h1 : c.repr larger = larger)
    (h2 : c.repr smaller = smaller) (hlt : smaller < larger) (v1 : c.solver.values smaller = 0) (v2 : c.solver.values larger = 0)
    (o1 : Ok c.solver smaller) (o2 : Ok c.solver larger) (b1 : Bot (base c.solver E) [larger, Spec.neg smaller])
    (b2 : Bot (base c.solver E) [Spec.neg larger, smaller]) : Out orig F0 E c (c.mergeReprs order smaller larger) ∧
    ((c.mergeReprs order smaller larger).solver.inconsistent = false →
      (c.mergeReprs order smaller larger).findRepr smaller = (c.mergeReprs order smaller larger).findRepr larger) := by
  unfold Closure.mergeReprs
  by_cases c1 : smaller = Spec.neg larger
  · rw [if_pos c1]
    have hn : Spec.neg smaller = larger := by rw [c1, neg_neg]
    have i1 := h.inv.learnedUnit v1 o1.1 o1.2 (rup_full (c := [smaller]) (b1.weaken (by simp [hn])))
    have hle : Le c.solver.irr (c.solver.learnedUnit smaller).irr := .of_sub fun _ h => irr_learnedUnit.2 (Or.inr h)
    have hle' : Le (base c.solver E) (base (c.solver.learnedUnit smaller) E) :=
      .of_sub fun _ h => h.imp (fun h => irr_learnedUnit.2 (Or.inr h)) id
    have i2 := i1.learnedEmpty (rup_full (c := []) ((b2.le hle').cut fun m hm => by
      simp only [List.mem_cons, List.not_mem_nil, or_false] at hm
      have e : m = smaller := by rcases hm with rfl | rfl
                                 · exact c1.symm
                                 · rfl
      rw [e]
      exact (Imp.unit (Or.inl (irr_learnedUnit.2 (Or.inl rfl))))))
    have hg := grow_unit (V := fun _ => True) h.inv.inv.struct v1 trivial trivial
    exact ⟨⟨⟨hle, rfl, rfl, hg.keep, rfl, rfl, fun _ _ h => h, [], by simp⟩, i2, by intro h; cases h⟩, by intro h; cases h⟩
  · rw [if_neg c1]
    have hdiv := neg_lt hlt c1
    have hne : Spec.neg larger ≠ smaller := fun e => c1 e.symm
    have e1 : (c.setRepr larger smaller).addBinary order (Spec.neg larger) smaller =
        (c.setRepr larger smaller).newBinary (Spec.neg larger) smaller :=
      addBinary_new order h.cons (by show c.solver.values _ = 0; rw [h.vneg, v2]; rfl) v1 hne
        (fun e => by rw [neg_inj e] at hlt; omega)
    rw [e1]
    have e2 : ((c.setRepr larger smaller).newBinary (Spec.neg larger) smaller).addBinary order larger (Spec.neg smaller) =
        ((c.setRepr larger smaller).newBinary (Spec.neg larger) smaller).newBinary larger (Spec.neg smaller) :=
      addBinary_new order h.cons v2 (by show c.solver.values _ = 0; rw [h.vneg, v1]; rfl)
        (fun e => c1 (by rw [e, neg_neg])) (fun e => by rw [neg_neg] at e; omega)
    rw [e2]
    -- the two clauses are added before the representatives change
    obtain ⟨p1, p2⟩ := h.newBinary o2.neg o1 hne (fun e => by rw [neg_inj e] at hlt; omega)
      (by rw [neg_neg]; exact b1)
    have p3 := p1.base h.cons
    obtain ⟨q1, q2⟩ := p3.newBinary (p1.rel.ok.2 o2) (p1.rel.ok.2 o1.neg) (fun e => c1 (by rw [e, neg_neg]))
      (fun e => by rw [neg_neg] at e; omega) ((b2.le p1.rel.base_le).weaken (by simp [neg_neg]))
    have q3 := q1.base h.cons
    have hrel := p1.rel.trans q1.rel
    generalize hd : (c.newBinary (Spec.neg larger) smaller).newBinary larger (Spec.neg smaller) = d at q1 q2 q3 hrel
    have hfin : ∀ (x : Closure), x.solver = d.solver → x.repr = (c.setRepr larger smaller).repr → x.gates = c.gates →
        x.occurrences = c.occurrences → x.binaries = d.binaries → Out orig F0 E c x ∧ x.findRepr smaller = x.findRepr larger := by
      intro x x1 x2 x3 x4 x5
      have hfr : ∀ l, x.findRepr l =
        if c.findRepr l = larger then smaller else if c.findRepr l = Spec.neg larger then Spec.neg smaller else c.findRepr l := by
        intro l
        rw [findRepr_congr x2]; exact h.findRepr_set h1 h2 hdiv l
      have hrepr : ∀ m, x.repr m = if m = larger then smaller else if m = Spec.neg larger then Spec.neg smaller else c.repr m := by
        intro m; rw [x2]; rfl
      have hdr : d.repr = c.repr := by rw [← hd]; rfl
      have hdv : d.solver.values = c.solver.values := by rw [← hd]; rfl
      refine ⟨⟨⟨?_, ?_, ?_, ?_, x3, x4, ?_, ?_⟩, ?_, fun _ => ⟨?_, ?_, ?_, ?_, ?_, ?_, ?_, ?_⟩⟩, ?_⟩
      · rw [x1]; exact hrel.le
      · rw [x1]; exact hrel.exports
      · rw [x1]; exact hrel.removed
      · rw [x1]; exact hrel.keep
      · intro l m hlm
        rw [hfr, hfr, hlm]
      · rw [x5]; exact hrel.bins
      · rw [x1]; exact q3.inv
      · rw [x1]; exact q3.inv
      · rw [x1]; exact q3.cons
      · intro l
        rw [hrepr, hrepr]
        by_cases f1 : l = larger
        · rw [if_neg (by rw [f1]; exact neg_ne _), if_pos (by rw [f1]), if_pos f1]
        · by_cases f2 : l = Spec.neg larger
          · rw [if_pos (by rw [f2, neg_neg]), if_neg f1, if_pos f2, neg_neg]
          · rw [if_neg (fun e => f2 (by rw [← e, neg_neg])), if_neg (fun e => f1 (neg_inj e)), if_neg f1, if_neg f2, h.neg]
      · intro l hl
        rw [hrepr] at hl ⊢
        by_cases f1 : l = larger
        · rw [if_pos f1, f1]; exact hdiv
        · rw [if_neg f1] at hl ⊢
          by_cases f2 : l = Spec.neg larger
          · rw [if_pos f2, f2, neg_div, neg_div]; exact hdiv
          · rw [if_neg f2] at hl ⊢; exact h.lt l hl
      · intro l hl
        rw [x1] at hl ⊢
        rw [hrel.ok] at hl ⊢
        rw [hrepr]
        by_cases f1 : l = larger
        · rw [if_pos f1]; exact o1
        · rw [if_neg f1]
          by_cases f2 : l = Spec.neg larger
          · rw [if_pos f2]; exact o1.neg
          · rw [if_neg f2]; exact h.ok l hl
      · intro l
        rw [x1, hdv, hrepr]
        by_cases f1 : l = larger
        · rw [if_pos f1, f1, v1, v2]
        · rw [if_neg f1]
          by_cases f2 : l = Spec.neg larger
          · rw [if_pos f2, f2, h.vneg, h.vneg, v1, v2]
          · rw [if_neg f2]; exact h.val l
      · intro l
        rw [x1, hrepr]
        by_cases f1 : l = larger
        · rw [if_pos f1, f1]
          refine Or.inr (Or.inr ?_)
          rcases q1.rel.le _ p2 with hh | ⟨m, hm, hh⟩
          · exact hh
          · exfalso
            have h5 := (q3.inv.inv.struct.trail m).1 (by
              rcases hh with ⟨k, hk, e⟩ | ⟨r, g1, _, g3⟩
              · cases e; exact hk
              · have := q3.inv.inv.struct.size r g1
                rw [← g3] at this; simp at this)
            rw [hdv] at h5
            simp only [List.mem_cons, List.not_mem_nil, or_false] at hm
            rcases hm with rfl | rfl
            · rw [h.vneg, v2] at h5; omega
            · rw [v1] at h5; omega
        · rw [if_neg f1]
          by_cases f2 : l = Spec.neg larger
          · rw [if_pos f2, f2, neg_neg]; exact Or.inr (Or.inr q2)
          · rw [if_neg f2, ← hdr]; exact q3.link l
      · intro p hp
        rw [x1]
        exact q3.bins p (by rw [← x5]; exact hp)
      · rw [hfr, hfr, findRepr_root rfl h1, findRepr_root rfl h2, if_pos rfl]
        rw [if_neg (by omega), if_neg c1]
    have hx : ∀ (x : Closure) (l : Nat), (x.scheduleLiteral l).solver = x.solver ∧ (x.scheduleLiteral l).repr = x.repr ∧
        (x.scheduleLiteral l).gates = x.gates ∧ (x.scheduleLiteral l).occurrences = x.occurrences ∧
        (x.scheduleLiteral l).binaries = x.binaries := by
      intro x l
      unfold Closure.scheduleLiteral
      split <;> exact ⟨rfl, rfl, rfl, rfl, rfl⟩
    obtain ⟨y1, y2, y3, y4, y5⟩ :=
      hx (((c.setRepr larger smaller).newBinary (Spec.neg larger) smaller).newBinary larger (Spec.neg smaller)) larger
    obtain ⟨z1, z2⟩ := hfin _ (y1.trans (by rw [← hd]; rfl)) (y2.trans rfl) (y3.trans rfl) (y4.trans rfl) (y5.trans (by rw [← hd]; rfl))
    exact ⟨z1, fun _ => z2⟩

theorem Base.merge (h : Base orig F0 E c) (order : State → List Nat) {a b : Nat} (ha : Ok c.solver a) (hb : Ok c.solver b)
    (b1 : Bot (base c.solver E) [a, Spec.neg b]) (b2 : Bot (base c.solver E) [Spec.neg a, b]) :
    Out orig F0 E c (c.merge order a b) := by
  unfold Closure.merge
  by_cases c1 : c.findRepr a = c.findRepr b
  · rw [if_pos c1]; exact h.out
  rw [if_neg c1]
  have hr := h.inv.inv.struct.range
  by_cases c2 : c.solver.values a ≠ 0
  · rw [if_pos c2]
    by_cases c3 : c.solver.values a = c.solver.values b
    · rw [if_pos c3]; exact h.out
    rw [if_neg c3]
    by_cases c4 : c.solver.values a = - c.solver.values b
    · rw [if_pos c4]
      by_cases hp : 0 < c.solver.values a
      · refine h.failed (b1.base_cut fun m hm => ?_)
        simp only [List.mem_cons, List.not_mem_nil, or_false] at hm
        rcases hm with rfl | rfl
        · exact h.imp_true hp
        · exact h.imp_false (by omega)
      · refine h.failed (b2.base_cut fun m hm => ?_)
        simp only [List.mem_cons, List.not_mem_nil, or_false] at hm
        rcases hm with rfl | rfl
        · exact h.imp_false (by omega)
        · exact h.imp_true (by omega)
    · rw [if_neg c4]
      by_cases hp : c.solver.values a < 0
      · rw [if_pos hp]
        refine (h.learnUnit order hb.neg (b2.base_cut fun m hm => ?_)).1
        simp only [List.mem_cons, List.not_mem_nil, or_false] at hm
        rcases hm with rfl | rfl
        · exact h.imp_false hp
        · exact Imp.mem (by rw [neg_neg]; simp)
      · rw [if_neg hp]
        refine (h.learnUnit order hb (b1.base_cut fun m hm => ?_)).1
        simp only [List.mem_cons, List.not_mem_nil, or_false] at hm
        rcases hm with rfl | rfl
        · exact h.imp_true (by omega)
        · exact Imp.mem (by simp)
  rw [if_neg c2]
  have v1 : c.solver.values a = 0 := Decidable.not_not.1 c2
  by_cases c5 : c.solver.values b ≠ 0
  · rw [if_pos c5]
    by_cases hp : c.solver.values b < 0
    · rw [if_pos hp]
      refine (h.learnUnit order ha.neg (b1.base_cut fun m hm => ?_)).1
      simp only [List.mem_cons, List.not_mem_nil, or_false] at hm
      rcases hm with rfl | rfl
      · exact Imp.mem (by rw [neg_neg]; simp)
      · exact h.imp_false hp
    · rw [if_neg hp]
      refine (h.learnUnit order ha (b2.base_cut fun m hm => ?_)).1
      simp only [List.mem_cons, List.not_mem_nil, or_false] at hm
      rcases hm with rfl | rfl
      · exact Imp.mem (by simp)
      · exact h.imp_true (by omega)
  rw [if_neg c5]
  have v2 : c.solver.values b = 0 := Decidable.not_not.1 c5
  have i1 : ∀ l, Imp c.solver.irr [c.findRepr l] l := h.root_imp
  have i2 : ∀ l, Imp c.solver.irr [Spec.neg (c.findRepr l)] (Spec.neg l) := fun l => by
    rw [← h.root_neg]; exact h.root_imp _
  have d1 : Bot (base c.solver E) [c.findRepr a, Spec.neg (c.findRepr b)] := b1.base_cut fun m hm => by
    simp only [List.mem_cons, List.not_mem_nil, or_false] at hm
    rcases hm with rfl | rfl
    · exact (i1 _).weaken (by simp)
    · exact (i2 _).weaken (by simp)
  have d2 : Bot (base c.solver E) [Spec.neg (c.findRepr a), c.findRepr b] := b2.base_cut fun m hm => by
    simp only [List.mem_cons, List.not_mem_nil, or_false] at hm
    rcases hm with rfl | rfl
    · exact (i2 _).weaken (by simp)
    · exact (i1 _).weaken (by simp)
  by_cases c6 : c.findRepr b < c.findRepr a
  · rw [if_pos c6]
    exact (h.mergeReprs order (h.root a) (h.root b) c6 (by rw [h.root_val]; exact v2) (by rw [h.root_val]; exact v1) (h.root_ok hb)
      (h.root_ok ha) d1 d2).1
  · rw [if_neg c6]
    exact (h.mergeReprs order (h.root b) (h.root a) (by omega) (by rw [h.root_val]; exact v1) (by rw [h.root_val]; exact v2) (h.root_ok ha)
      (h.root_ok hb) (d2.weaken (by simp)) (d1.weaken (by simp))).1

end Verif.Congruence
