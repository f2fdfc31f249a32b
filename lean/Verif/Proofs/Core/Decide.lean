import Verif.Proofs.Core.Bound
import Verif.Proofs.Core.Loop
import Verif.Model.Core.Search

/-! # Decisions keep the invariants -/

namespace Verif.Core

open Verif.Spec

theorem assume_eq (s : Solver) (lit : Nat) :
    s.assume lit = { s.assignCore (s.level + 1) lit .decision with
      level := s.level + 1, frames := s.frames ++ [⟨lit, s.trail.length⟩] } := by
  unfold Solver.assume Solver.assignDecision Solver.assign
  rw [if_neg (Nat.succ_ne_zero _)]
  rfl

theorem assume_values (s : Solver) (lit x : Nat) :
    (s.assume lit).values x = if x = neg lit then -1 else if x = lit then 1 else s.values x := by
  rw [assume_eq]; exact assignCore_values (level := s.level + 1) (reason := .decision) x

theorem assume_lev (s : Solver) (lit x : Nat) :
    (s.assume lit).lev x = if x / 2 = lit / 2 then s.level + 1 else s.lev x := by
  rw [assume_eq]; exact assignCore_lev (level := s.level + 1) (reason := .decision) x

theorem assume_old {s : Solver} (ht : TrailInv s) {lit : Nat} (h0 : s.values lit = 0) {x : Nat}
    (hx : s.values x ≠ 0) :
    (s.assume lit).values x = s.values x ∧ (s.assume lit).lev x = s.lev x := by
  have h0' : s.values (neg lit) = 0 := by rw [ht.anti, h0]; rfl
  rw [assume_values, assume_lev, if_neg, if_neg, if_neg]
  · exact ⟨rfl, rfl⟩
  · intro e
    rcases eq_or_eq_neg e with rfl | rfl
    · exact hx h0
    · exact hx h0'
  · rintro rfl; exact hx h0
  · rintro rfl; exact hx h0'

theorem nextDecisionVariable_some {s : Solver} {order : List Nat} {v : Nat}
    (h : nextDecisionVariable s order = some v) : v ∈ order ∧ s.values (2 * v) = 0 := by
  unfold nextDecisionVariable at h
  exact ⟨List.mem_of_find?_eq_some h, by simpa using List.find?_some h⟩

theorem nextDecisionVariable_none {s : Solver} {order : List Nat}
    (h : nextDecisionVariable s order = none) : ∀ v ∈ order, s.values (2 * v) ≠ 0 := by
  unfold nextDecisionVariable at h
  rw [List.find?_eq_none] at h
  intro v hv e
  exact h v hv (by simp [e])

theorem TrailInv.assume {s : Solver} (h : TrailInv s) {lit : Nat} (h0 : s.values lit = 0)
    (hval : s.Valid lit) : TrailInv (s.assume lit) := by
  rw [assume_eq]
  generalize hu : s.assignCore (s.level + 1) lit .decision = u
  have hnot : lit ∉ s.trail := fun hm => by have := h.tval _ hm; omega
  have old : ∀ {x}, s.values x ≠ 0 → _ := fun {x} hx =>
    assignCore_old (level := s.level + 1) (reason := .decision) h h0 hx
  have told : ∀ l ∈ s.trail, u.lev l = s.lev l := fun l hl => by
    subst hu
    exact (old (by rw [h.tval _ hl]; omega)).2.1
  have htrail : u.trail = s.trail ++ [lit] := by subst hu; rfl
  have hlev : ∀ x, u.lev x = if x / 2 = lit / 2 then s.level + 1 else s.lev x := fun x => by
    subst hu; exact assignCore_lev x
  have hnew : u.lev lit = s.level + 1 := by rw [hlev, if_pos rfl]
  -- reuse the general lemma for everything not about levels
  have hs : ∀ l, u.values l = if l = neg lit then -1 else if l = lit then 1 else s.values l :=
    fun l => by subst hu; exact assignCore_values l
  have ht0 : TrailInv (s.assignCore 0 lit .unit) := h.assignCore h0 hval (Nat.zero_le _)
  have hv0 : (s.assignCore 0 lit .unit).values = u.values := by subst hu; rfl
  refine ⟨fun l => ?_, fun l => ?_, fun l hl => ?_, ?_, ?_, ?_, ?_, ?_, ?_, ?_, ?_, ?_, ?_⟩
  · have := ht0.dom l; rw [hv0] at this; exact this
  · have := ht0.anti l; rw [hv0] at this; exact this
  · have := ht0.valid l (by rw [hv0]; exact hl)
    subst hu; exact this
  · have := ht0.count
    subst hu; exact this
  · have := ht0.nodup
    subst hu; exact this
  · intro l hl
    have := ht0.tval l (by subst hu; exact hl)
    rw [hv0] at this; exact this
  · intro p l hp
    have := ht0.tpos p l (by subst hu; exact hp)
    subst hu
    have e : ∀ x, (s.assignCore (s.level + 1) lit .decision).pos x =
        (s.assignCore 0 lit .unit).pos x := fun x => by rw [assignCore_pos, assignCore_pos]
    show (s.assignCore (s.level + 1) lit .decision).pos l = p
    rw [e]; exact this
  · intro l hl hm
    have hm : l ∉ u.trail := hm
    have hl : u.values l = 1 := hl
    rw [htrail] at hm
    simp only [List.mem_append, List.mem_singleton, not_or] at hm
    have hv : s.values l = 1 := by
      rw [hs] at hl
      split at hl
      · cases hl
      · rw [if_neg hm.2] at hl; exact hl
    have e : u.lev l = s.lev l := by subst hu; exact (old (by omega)).2.1
    show u.lev l = 0
    rw [e]
    exact h.flushed l hv hm.1
  · intro l hl
    have hl : u.values l = 1 := hl
    show u.lev l ≤ s.level + 1
    rw [hlev]
    split
    · exact Nat.le_refl _
    · rename_i hd
      rw [hs, if_neg (fun e => hd (by rw [e, neg_div])), if_neg (fun e => hd (by rw [e]))] at hl
      exact Nat.le_succ_of_le (h.levle l hl)
  · show (s.frames ++ [_]).length = s.level + 1
    rw [List.length_append, h.frames]; rfl
  · intro j f hf
    have hf : (s.frames ++ [⟨lit, s.trail.length⟩])[j]? = some f := hf
    show u.trail[f.trail]? = some f.decision ∧ u.lev f.decision = j + 1
    rw [htrail]
    rw [List.getElem?_append] at hf
    split at hf
    · have hd := h.decision j f hf
      refine ⟨?_, ?_⟩
      · rw [List.getElem?_append_left (h.frame_lt hf)]; exact hd.1
      · rw [told _ (h.decision_mem hf)]; exact hd.2
    · have hlt := (List.getElem?_eq_some_iff.1 hf).1
      simp at hlt
      have : j = s.frames.length := by omega
      subst this
      simp at hf; subst hf
      refine ⟨by simp, ?_⟩
      simp only
      rw [hnew, h.frames]
  · intro j f hf l hl
    have hf : (s.frames ++ [⟨lit, s.trail.length⟩])[j]? = some f := hf
    have hl : l ∈ u.trail.take f.trail := hl
    show u.lev l ≤ j
    rw [htrail] at hl
    rw [List.getElem?_append] at hf
    split at hf
    · rw [List.take_append_of_le_length (Nat.le_of_lt (h.frame_lt hf))] at hl
      rw [told _ (List.mem_of_mem_take hl)]
      exact h.before j f hf l hl
    · have hlt := (List.getElem?_eq_some_iff.1 hf).1
      simp at hlt
      have : j = s.frames.length := by omega
      subst this
      simp at hf; subst hf
      simp only [List.take_left'] at hl
      rw [told _ hl, h.frames]
      exact h.levle l (h.tval l hl)
  · show u.unflushed = (u.trail.filter fun l => decide (u.lev l = 0)).length
    have : u.unflushed = s.unflushed := by
      subst hu; simp [Solver.assignCore]
    rw [this, htrail, List.filter_append, List.length_append, h.unflushed]
    have e1 : s.trail.filter (fun l => decide (u.lev l = 0)) =
        s.trail.filter (fun l => decide (s.lev l = 0)) :=
      List.filter_congr fun l hl => by rw [told l hl]
    rw [e1, List.filter_cons_of_neg (by rw [hnew]; simp)]; rfl

theorem ReasonInv.assume {s : Solver} (h : ReasonInv s (s.level + 1) 0) (ht : TrailInv s)
    {lit : Nat} (h0 : s.values lit = 0) : ReasonInv (s.assume lit) (s.level + 2) 0 := by
  rw [assume_eq]
  generalize hu : s.assignCore (s.level + 1) lit .decision = u
  have old : ∀ {x}, s.values x ≠ 0 → u.values x = s.values x ∧ u.lev x = s.lev x ∧
      u.pos x = s.pos x ∧ (u.assigned (x / 2)).reason = (s.assigned (x / 2)).reason :=
    fun {x} hx => by
      subst hu
      obtain ⟨a, b, c, d⟩ :=
        assignCore_old (level := s.level + 1) (reason := .decision) ht h0 hx
      exact ⟨a, b, c, by rw [d]⟩
  have spl : ∀ l, u.values l = 1 → l = lit ∨ s.values l = 1 := by
    subst hu
    intro l hl
    rw [assignCore_values] at hl
    split at hl
    · cases hl
    · split at hl
      · left; assumption
      · right; exact hl
  have hb : u.bins = s.bins := by subst hu; rfl
  have hc : u.arena = s.arena := by subst hu; rfl
  have newlev : u.lev lit = s.level + 1 := by
    subst hu; rw [assignCore_lev, if_pos rfl]
  have newreason : (u.assigned (lit / 2)).reason = .decision := by
    subst hu; rw [assignCore_reason, if_pos rfl]
  refine ⟨?_, ?_, ?_, ?_, ?_⟩
  · intro l hl hlev0
    have hlev : u.lev l = 0 := hlev0
    show (u.assigned (l / 2)).reason = _
    rcases spl l hl with rfl | hv
    · rw [newlev] at hlev; omega
    · have o := old (x := l) (by omega)
      rw [o.2.2.2]; exact h.root l hv (by rw [← o.2.1]; exact hlev)
  · intro l hl hlev0
    have hlev : u.lev l ≠ 0 := hlev0
    show (u.assigned (l / 2)).reason ≠ _
    rcases spl l hl with rfl | hv
    · rw [newreason]; intro e; cases e
    · have o := old (x := l) (by omega)
      rw [o.2.2.2]; exact h.unit l hv (by rw [← o.2.1]; exact hlev)
  · intro l hl hre0
    have hre : (u.assigned (l / 2)).reason = _ := hre0
    show ∃ f, (s.frames ++ [⟨lit, s.trail.length⟩])[u.lev l - 1]? = some f ∧ f.decision = l
    rcases spl l hl with rfl | hv
    · refine ⟨⟨l, s.trail.length⟩, ?_, rfl⟩
      rw [newlev, Nat.add_sub_cancel, ← ht.frames]; simp
    · have o := old (x := l) (by omega)
      rw [o.2.2.2] at hre
      obtain ⟨f, hf, hd⟩ := h.decision l hv hre
      refine ⟨f, ?_, hd⟩
      rw [o.2.1, List.getElem?_append_left (List.getElem?_eq_some_iff.1 hf).1]; exact hf
  · intro l o hl hre0
    have hre : (u.assigned (l / 2)).reason = _ := hre0
    show u.values o = -1 ∧ u.lev o = u.lev l ∧ u.pos o < u.pos l ∧
      UP u.bins (fun x => x = neg o) l
    rcases spl l hl with rfl | hv
    · rw [newreason] at hre; cases hre
    · have ol := old (x := l) (by omega)
      rw [ol.2.2.2] at hre
      obtain ⟨h1, h2, h3, h4⟩ := h.binary l o hv hre
      have oo := old (x := o) (by omega)
      exact ⟨by rw [oo.1]; exact h1, by rw [oo.2.1, ol.2.1]; exact h2,
        by rw [oo.2.2.1, ol.2.2.1]; exact h3, hb ▸ h4⟩
  · intro l r hl hre0 _
    have hre : (u.assigned (l / 2)).reason = _ := hre0
    have hcl : u.clause r = s.clause r := by unfold Solver.clause; rw [hc]
    show (u.clause r).garbage = false ∧ (u.clause r).Watched l ∧ (∀ m ∈ (u.clause r).lits,
      m ≠ l → u.values m = -1 ∧ u.lev m ≤ u.lev l ∧ (u.lev m = 0 ∨ u.pos m < u.pos l)) ∧
      ∃ m ∈ (u.clause r).lits, m ≠ l ∧ u.lev m = u.lev l
    rw [hcl]
    rcases spl l hl with rfl | hv
    · rw [newreason] at hre; cases hre
    · have ol := old (x := l) (by omega)
      rw [ol.2.2.2] at hre
      obtain ⟨h1, h2, h3, m', hm', hne', hl'⟩ := h.large l r hv hre
        (.inl (Nat.lt_succ_of_le (ht.levle l hv)))
      refine ⟨h1, h2, fun m hm hne => ?_, m', hm', hne', by
        rw [(old (by have := (h3 m' hm' hne').1; omega)).2.1, ol.2.1]; exact hl'⟩
      obtain ⟨h4, h5, h6⟩ := h3 m hm hne
      have om := old (x := m) (by omega)
      exact ⟨by rw [om.1]; exact h4, by rw [om.2.1, ol.2.1]; exact h5,
        by rw [om.2.1, om.2.2.1, ol.2.2.1]; exact h6⟩

theorem Satisfying.assume {s : Solver} (ht : TrailInv s) {lit : Nat} (h0 : s.values lit = 0)
    {c : List Nat} {w : Nat} (h : s.Satisfying c w) : (s.assume lit).Satisfying c w := by
  obtain ⟨t, hm, hv, hf⟩ := h
  rw [assume_eq]
  have o := assignCore_old (level := s.level + 1) (reason := .decision) ht h0 (x := t) (by omega)
  refine ⟨t, hm, o.1.trans hv, fun j f hj hd => ?_⟩
  have hj : (s.frames ++ [⟨lit, s.trail.length⟩])[j]? = some f := hj
  have hd : neg w ∉ (s.trail ++ [lit]).drop f.trail := hd
  refine Nat.le_trans (Nat.le_of_eq o.2.1) ?_
  rw [List.getElem?_append] at hj
  split at hj
  · refine hf j f hj fun hd' => hd ?_
    rw [List.drop_append_of_le_length (Nat.le_of_lt (ht.frame_lt hj))]
    exact List.mem_append_left _ hd'
  · have hlt := (List.getElem?_eq_some_iff.1 hj).1
    simp at hlt
    have : j = s.frames.length := by omega
    rw [this, ht.frames]
    exact ht.levle t hv

theorem assume_ok {orig : Base} {G : Assignment → Prop} {s : Solver} {k : Nat}
    (hok : Ok orig G s) (hwt : Watching s k) (hk : k ≤ s.trail.length) {lit : Nat}
    (h0 : s.values lit = 0) (hval : s.Valid lit) :
    Ok orig G (s.assume lit) ∧ Watching (s.assume lit) k := by
  have ht := hok.inv.trail
  have hT := ht.assume h0 hval
  have hR := hok.inv.reason.assume ht h0
  have hS : ∀ {c w}, s.Satisfying c w → (s.assume lit).Satisfying c w :=
    fun hs => Satisfying.assume ht h0 hs
  rw [assume_eq] at hT hR hS ⊢
  obtain ⟨db, h1, h2⟩ := hok.proof
  have h3 := h2.assignCore (level := s.level + 1) (reason := .decision) ht h0
    (fun e => absurd e (Nat.succ_ne_zero _))
  have hc := hok.inv.clause
  have hw := hok.inv.watch.assignCore (level := s.level + 1) (reason := .decision) ht h0
  refine ⟨⟨⟨hT, hR, ⟨hc.1, hc.2, hc.3, hc.4, hc.5, hc.6, hc.7⟩, ⟨hw.1, hw.2, hw.3, hw.4⟩⟩,
    ⟨db, h1, ⟨h3.1, h3.2, h3.3, h3.4⟩⟩,
    fun σ hσ => hok.irr σ (irr_assignCore (level := s.level + 1) (reason := .decision) ht h0 hσ)⟩,
    ⟨?_, ?_⟩⟩
  · intro r hr w hw hv hd
    obtain ⟨a, b⟩ := assign_processed (level := s.level + 1) (reason := .decision) ht h0 hk hv hd
    refine (hwt.large r hr w hw a b).imp hS ?_
    rintro ⟨e1, e2, v, e3, e4, e5, t, e6, e7, e8, e9⟩
    have o := assignCore_old (level := s.level + 1) (reason := .decision) ht h0 (x := w) (by omega)
    refine ⟨e1, fun e => e2 (o.2.1.symm.trans e), v, e3, e4, fun hv hd => ?_, t, e6, e7, e8, fun hv => ?_⟩
    · obtain ⟨a, b⟩ := assign_processed (level := s.level + 1) (reason := .decision) ht h0 hk hv hd
      exact hS (e5 a b)
    · show neg t ∈ s.trail ++ [lit]
      have hv : (s.assignCore (s.level + 1) lit .decision).values t = -1 := hv
      rw [assignCore_values] at hv
      split at hv
      · rename_i e; rw [e, neg_neg]; simp
      · split at hv
        · cases hv
        · exact List.mem_append_left _ (e9 hv)
  · intro w o hw hv hd
    obtain ⟨a, b⟩ := assign_processed (level := s.level + 1) (reason := .decision) ht h0 hk hv hd
    exact hS (hwt.binary w o hw a b)

theorem PropInv.assume {orig : Base} {G : Assignment → Prop} {s : Solver}
    (h : PropInv orig G s) (hp : s.propagate = s.trail.length) {lit : Nat}
    (h0 : s.values lit = 0) (hval : s.Valid lit) : PropInv orig G (s.assume lit) := by
  obtain ⟨h1, h2⟩ := assume_ok h.ok h.watching h.le h0 hval
  have hk : s.propagate ≤ s.trail.length := h.le
  rw [assume_eq] at h1 h2 ⊢
  refine ⟨h1, h2, ?_, ?_⟩
  · intro f hf
    have hf : f ∈ s.frames ++ [_] := hf
    show f.trail ≤ s.propagate
    rcases List.mem_append.1 hf with hf | hf
    · exact h.frames f hf
    · rw [List.mem_singleton.1 hf, hp]; exact Nat.le_refl _
  · show s.propagate ≤ (s.trail ++ [lit]).length
    simp; omega

end Verif.Core
