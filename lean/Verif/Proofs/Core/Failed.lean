import Verif.Proofs.Core.Antecedent

/-! # Failed literals -/

namespace Verif.Core

open Verif.Spec

/-- Invariant of the marking loop.  `base` counts marked literals above `rest`. -/
structure FMark (s : Solver) (k : Nat) (nf : Nat) (rest : List Nat) (base : Nat) (t : Failed) :
    Prop where
  count : t.unresolved = base + (rest.filter fun x => x / 2 ∈ t.analyzed).length
  pos : ∀ x ∈ rest, x / 2 ∈ t.analyzed → s.lev x = 1 ∧ s.pos x < k
  nf : nf / 2 ∉ t.analyzed
  done : t.done = false

theorem failedLits_spec {s : Solver} (ht : TrailInv s) {k nf : Nat} {rest : List Nat} {base : Nat}
    (hb : s.Below rest) (hnf : s.values nf = -1) :
    ∀ (lits : List Nat) (t : Failed), FMark s k nf rest base t →
    (∀ m ∈ lits, s.values m = -1 ∧ (s.lev m = 0 ∨ s.lev m = 1 ∧ s.pos m < k ∧
      s.pos m < rest.length)) →
    (failedLits s nf lits t).units = t.units ∧
    ((failedLits s nf lits t).done = false →
      FMark s k nf rest base (failedLits s nf lits t) ∧
      (∀ v ∈ t.analyzed, v ∈ (failedLits s nf lits t).analyzed) ∧
      (∀ v ∈ (failedLits s nf lits t).analyzed, v ∈ t.analyzed ∨ ∃ x ∈ rest, x / 2 = v) ∧
      ∀ m ∈ lits, s.lev m = 0 ∨ m / 2 ∈ (failedLits s nf lits t).analyzed) := by
  intro lits
  induction lits with
  | nil => intro t h _; exact ⟨rfl, fun _ => ⟨h, fun _ h => h, fun _ h => .inl h, by simp⟩⟩
  | cons m lits ih =>
    intro t h hm
    have hm' : ∀ m ∈ lits, s.values m = -1 ∧ (s.lev m = 0 ∨ s.lev m = 1 ∧ s.pos m < k ∧
      s.pos m < rest.length) := fun m h => hm m (by simp [h])
    obtain ⟨hv, hl⟩ := hm m (by simp)
    unfold failedLits
    by_cases e : m = nf
    · rw [if_pos e]; exact ⟨rfl, by simp⟩
    · rw [if_neg e]
      by_cases hc : s.lev m = 0 ∨ m / 2 ∈ t.analyzed
      · rw [if_pos hc]
        obtain ⟨h1, h2⟩ := ih t h hm'
        refine ⟨h1, fun hd => ?_⟩
        obtain ⟨a, b, b', c⟩ := h2 hd
        refine ⟨a, b, b', fun x hx => ?_⟩
        rcases List.mem_cons.1 hx with rfl | hx
        · exact hc.imp id (b _)
        · exact c x hx
      · rw [if_neg hc]
        have hc1 : s.lev m ≠ 0 := fun h => hc (.inl h)
        have hc2 : m / 2 ∉ t.analyzed := fun h => hc (.inr h)
        have hv1 := ht.neg_pos.2 hv
        have hon := ht.on_trail hv1 (by rw [lev_neg]; exact hc1)
        have hlt : s.lev m = 1 ∧ s.pos m < k ∧ s.pos m < rest.length := by omega
        have hin : neg m ∈ rest := (hb.mem ht).2 ⟨hon, by rw [pos_neg]; omega⟩
        have htrue : ∀ x ∈ rest, s.values x = 1 := fun x hx => ht.tval _ ((hb.mem ht).1 hx).1
        have huniq : ∀ x ∈ rest, x / 2 = m / 2 → x = neg m := fun x hx e => by
          rcases eq_or_eq_neg e with rfl | rfl
          · have := htrue _ hx; omega
          · rfl
        have hmark : FMark s k nf rest base
            { t with analyzed := m / 2 :: t.analyzed, unresolved := t.unresolved + 1 } := by
          refine ⟨?_, ?_, ?_, h.done⟩
          · show t.unresolved + 1 = base + (rest.filter fun x => x / 2 ∈ m / 2 :: t.analyzed).length
            have := count_insert (p := fun x => decide (x / 2 ∈ t.analyzed))
              (q := fun x => decide (x / 2 ∈ m / 2 :: t.analyzed)) (y := neg m)
              (hb.nodup ht) hin (by simp [hc2]) (by
                intro x hx
                by_cases e : x = neg m
                · simp [e]
                · have : x / 2 ≠ m / 2 := fun h => e (huniq x hx h)
                  simp [e, this])
            have := h.count
            omega
          · intro x hx ha
            rcases List.mem_cons.1 ha with e | ha
            · rw [huniq x hx e, lev_neg, pos_neg]; omega
            · exact h.pos x hx ha
          · intro ha
            rcases List.mem_cons.1 ha with e' | ha
            · rcases eq_or_eq_neg e' with e' | e'
              · exact e e'.symm
              · rw [e'] at hnf; omega
            · exact h.nf ha
        obtain ⟨h1, h2⟩ := ih _ hmark hm'
        refine ⟨h1, fun hd => ?_⟩
        obtain ⟨a, b, b', c⟩ := h2 hd
        refine ⟨a, fun v hv => b v (by simp [hv]), fun v hv => ?_, fun x hx => ?_⟩
        · rcases b' v hv with h | h
          · rcases List.mem_cons.1 h with h | h
            · exact .inr ⟨_, hin, by rw [h]; simp⟩
            · exact .inl h
          · exact .inr h
        · rcases List.mem_cons.1 hx with rfl | hx
          · exact .inr (b _ (by simp))
          · exact c x hx

/-- Units found by failed literal analysis. -/
structure FUnits (s : Solver) (nf n : Nat) (us : List Nat) : Prop where
  rup : ∀ u ∈ us, RUP s.formula [u]
  lev : ∀ u ∈ us, s.values u = -1 ∧ s.lev u = 1 ∧ n ≤ s.pos u ∧ u ≠ nf
  nodup : us.Nodup

theorem FUnits.weaken {s : Solver} {nf n m : Nat} {us : List Nat} (h : FUnits s nf n us)
    (hm : m ≤ n) : FUnits s nf m us :=
  ⟨h.rup, fun u hu => by
    obtain ⟨a, b, c, d⟩ := h.lev u hu; exact ⟨a, b, by omega, d⟩, h.nodup⟩

theorem failedLoop_spec {s : Solver} {L k : Nat} (h : InvAt s L k) {f : Frame}
    (hf : s.frames[0]? = some f) :
    ∀ (rest : List Nat) (t : Failed), s.Below rest →
    (t.done = false → FMark s k (neg f.decision) rest 0 t ∧
      UPConflict s.formula (fun x => x ∈ rest ∧ x / 2 ∈ t.analyzed) ∧
      (∃ x ∈ rest, x / 2 ∈ t.analyzed)) →
    FUnits s (neg f.decision) rest.length t.units →
    (failedLoop s (neg f.decision) rest t).done = true ∧
    FUnits s (neg f.decision) 0 (failedLoop s (neg f.decision) rest t).units := by
  have ht := h.trail
  have hdv : s.values f.decision = 1 := ht.tval _ (ht.decision_mem hf)
  intro rest
  induction rest with
  | nil =>
    intro t _ hi hu
    unfold failedLoop
    refine ⟨?_, hu⟩
    cases hd : t.done with
    | true => rfl
    | false =>
      obtain ⟨_, _, x, hx, _⟩ := hi hd
      cases hx
  | cons lit rest ih =>
    intro t hb hi hu
    unfold failedLoop
    by_cases hd : t.done = true
    · rw [if_pos hd]; exact ⟨hd, hu.weaken (Nat.zero_le _)⟩
    · rw [if_neg hd]
      have hd : t.done = false := by simpa using hd
      obtain ⟨hmark, hconf, hex⟩ := hi hd
      obtain ⟨hb', hon, hpos⟩ := hb.tail ht
      have hnd := hb.nodup ht
      rw [List.nodup_cons] at hnd
      by_cases ha : lit / 2 ∈ t.analyzed
      · rw [if_pos ha]
        simp only
        obtain ⟨hl1, hlk⟩ := hmark.pos lit (by simp) ha
        have hv1 := ht.tval _ hon
        -- the units after this literal
        have hu' : FUnits s (neg f.decision) rest.length
            (if t.unresolved = 1 then { t with units := t.units ++ [neg lit] } else t).units := by
          split
          · rename_i h1
            have hcnt := hmark.count
            rw [List.filter_cons_of_pos (by simpa using ha), h1, List.length_cons] at hcnt
            have hnil : rest.filter (fun x => x / 2 ∈ t.analyzed) = [] :=
              List.eq_nil_of_length_eq_zero (by omega)
            have hnone : ∀ x ∈ rest, x / 2 ∉ t.analyzed := by
              intro x hx hxa
              have : x ∈ rest.filter (fun x => x / 2 ∈ t.analyzed) :=
                List.mem_filter.2 ⟨hx, by simpa using hxa⟩
              rw [hnil] at this; cases this
            refine ⟨?_, ?_, ?_⟩
            · intro u hm
              rcases List.mem_append.1 hm with hm | hm
              · exact hu.rup u hm
              · rw [List.mem_singleton] at hm
                subst hm
                refine .inl (UPConflict.cut hconf fun x hx => .assumed ?_)
                obtain ⟨hx1, hx2⟩ := hx
                rcases List.mem_cons.1 hx1 with rfl | hx1
                · simp
                · exact absurd hx2 (hnone x hx1)
            · intro u hm
              rcases List.mem_append.1 hm with hm | hm
              · obtain ⟨a, b, c, d⟩ := hu.lev u hm
                rw [List.length_cons] at c
                exact ⟨a, b, by omega, d⟩
              · rw [List.mem_singleton] at hm
                subst hm
                refine ⟨ht.neg_one.2 hv1, by rw [lev_neg]; exact hl1,
                  by rw [pos_neg, hpos]; omega, fun e => ?_⟩
                have := neg_inj e
                subst this
                exact hmark.nf (by simpa using ha)
            · show (t.units ++ [neg lit]).Nodup
              rw [List.nodup_append]
              refine ⟨hu.nodup, by simp, fun a hm b hb e => ?_⟩
              rw [List.mem_singleton] at hb
              subst hb; subst e
              have := (hu.lev _ hm).2.2.1
              rw [pos_neg, hpos, List.length_cons] at this
              omega
          · exact hu.weaken (by simp)
        generalize ht' : (if t.unresolved = 1 then { t with units := t.units ++ [neg lit] } else t)
          = t' at hu' ⊢
        have e1 : t'.analyzed = t.analyzed := by rw [← ht']; split <;> rfl
        have e2 : t'.unresolved = t.unresolved := by rw [← ht']; split <;> rfl
        have e3 : t'.done = false := by rw [← ht']; split <;> exact hd
        have hnodec : (s.assigned (lit / 2)).reason ≠ .decision := fun hre => by
          obtain ⟨g, hg, e⟩ := h.reason.decision lit hv1 hre
          rw [hl1, hf] at hg
          cases hg
          rw [← e] at ha
          exact hmark.nf (by simpa using ha)
        obtain ⟨a1, ⟨m0, hm0, hlm0⟩, a3⟩ := antecedents_ok h hv1 (by omega) (.inr hlk) hnodec
        have hmark' : FMark s k (neg f.decision) rest 1 t' := by
          refine ⟨?_, ?_, by rw [e1]; exact hmark.nf, e3⟩
          · rw [e1, e2, hmark.count, List.filter_cons_of_pos (by simpa using ha), List.length_cons]
            omega
          · rw [e1]; exact fun x hx => hmark.pos x (by simp [hx])
        have hspec := failedLits_spec ht hb' (ht.neg_one.2 hdv) (s.antecedents lit) t' hmark' (by
          intro m hm
          obtain ⟨b1, b2, b3⟩ := a1 m hm
          refine ⟨b1, ?_⟩
          by_cases hm0 : s.lev m = 0
          · exact .inl hm0
          · have : s.pos m < s.pos lit := by omega
            right; omega)
        obtain ⟨hs1, hs2⟩ := hspec
        generalize failedLits s (neg f.decision) (s.antecedents lit) t' = t'' at hs1 hs2 ⊢
        by_cases hd'' : t''.done = true
        · rw [if_pos hd'']
          exact ⟨hd'', by rw [hs1]; exact hu'.weaken (Nat.zero_le _)⟩
        · rw [if_neg hd'']
          have hd'' : t''.done = false := by simpa using hd''
          obtain ⟨g1, g2, g2', g3⟩ := hs2 hd''
          refine ih _ hb' (fun _ => ⟨⟨?_, g1.pos, g1.nf, hd''⟩, ?_, ?_⟩) (by
            show FUnits s (neg f.decision) rest.length t''.units
            rw [hs1]; exact hu')
          · show t''.unresolved - 1 = 0 + (rest.filter fun x => x / 2 ∈ t''.analyzed).length
            have := g1.count
            omega
          · refine UPConflict.cut hconf fun x hx => ?_
            obtain ⟨hx1, hx2⟩ := hx
            have key : ∀ y, y ∈ rest → y / 2 ∈ t''.analyzed → UP s.formula
                (fun x => x ∈ rest ∧ x / 2 ∈ t''.analyzed) y := fun y h1 h2 => .assumed ⟨h1, h2⟩
            rcases List.mem_cons.1 hx1 with rfl | hx1
            · refine a3 _ fun m hm => ?_
              obtain ⟨b1, b2, b3⟩ := a1 m hm
              rcases g3 m hm with h0 | hin
              · exact UP.root ht b1 h0
              · by_cases hm0 : s.lev m = 0
                · exact UP.root ht b1 hm0
                · refine key _ ((hb'.mem ht).2 ⟨ht.on_trail (ht.neg_pos.2 b1)
                    (by rw [lev_neg]; exact hm0), ?_⟩) (by simpa using hin)
                  rw [pos_neg]; omega
            · exact key x hx1 (g2 _ (by rw [e1]; exact hx2))
          · obtain ⟨b1, b2, b3⟩ := a1 m0 hm0
            rcases g3 m0 hm0 with h0 | hin
            · omega
            · refine ⟨neg m0, (hb'.mem ht).2 ⟨ht.on_trail (ht.neg_pos.2 b1)
                (by rw [lev_neg]; omega), ?_⟩, by simpa using hin⟩
              rw [pos_neg]; omega
      · rw [if_neg ha]
        refine ih t hb' (fun _ => ⟨⟨?_, fun x hx => hmark.pos x (by simp [hx]), hmark.nf, hd⟩,
          ?_, ?_⟩) (hu.weaken (by simp))
        · rw [hmark.count, List.filter_cons_of_neg (by simpa using ha)]
        · refine UPConflict.cut hconf fun x hx => .assumed ?_
          obtain ⟨hx1, hx2⟩ := hx
          rcases List.mem_cons.1 hx1 with rfl | hx1
          · exact absurd hx2 ha
          · exact ⟨hx1, hx2⟩
        · obtain ⟨x, hx1, hx2⟩ := hex
          rcases List.mem_cons.1 hx1 with rfl | hx1
          · exact absurd hx2 ha
          · exact ⟨x, hx1, hx2⟩

theorem learnedUnit_fields (s : Solver) (u : Nat) :
    ((TrailInv s → s.values u = 0 → Kept s (s.learnedUnit u)) ∧ (s.learnedUnit u).vars = s.vars ∧
      (s.learnedUnit u).removed = s.removed) ∧
    (s.learnedUnit u).level = s.level ∧
    (∀ x, (s.learnedUnit u).values x =
      if x = neg u then -1 else if x = u then 1 else s.values x) ∧
    (∀ x, (s.learnedUnit u).lev x = if x / 2 = u / 2 then 0 else s.lev x) ∧
    (s.learnedUnit u).arena = s.arena ∧ (s.learnedUnit u).watches = s.watches := by
  have h := assign_fields s 0 u .unit
  exact ⟨⟨fun ht h0 => by
      have k := Kept.assign ht 0 .unit h0
      exact ⟨k.1, k.2, k.3, k.4, k.5, k.6, k.7⟩, h.2.2.2.2.2.1, h.2.2.2.2.2.2.2.2.1⟩, h.2.2.2.2.2.2.1, assign_values s 0 u .unit,
    assign_lev s 0 u .unit, h.2.2.2.1, h.2.2.2.2.1⟩

theorem learnedUnit_formula {s : Solver} (ht : TrailInv s) {u : Nat} (h0 : s.values u = 0)
    {c : List Nat} (hc : s.formula c) : (s.learnedUnit u).formula c := by
  have e : s.learnedUnit u = (s.assignCore 0 u .unit).emit (.add [u]) := by
    unfold Solver.learnedUnit Solver.assignUnit Solver.assign; rw [if_pos rfl, if_pos rfl]
  rw [e]
  exact formula_assignCore (level := 0) (reason := .unit) ht h0 hc

theorem WatchedX.learnedUnit {s : Solver} {exL exB : Nat → Nat → Prop}
    (h : WatchedX s exL exB) (ht : TrailInv s) {u : Nat} (h0 : s.values u = 0) :
    WatchedX (s.learnedUnit u) exL exB := by
  have := h.assign ht (level := 0) (lit := u) (reason := .unit) h0
  exact ⟨⟨this.1.1, this.1.2⟩, this.2, this.3⟩

/-- Learning several units. -/
theorem learnedUnits_ok {orig : Base} {G : Assignment → Prop}
    {A B : Nat → Nat → Prop} : ∀ (us : List Nat) (s : Solver), Ok orig G s → WatchedX s A B →
    us.Nodup → (∀ u ∈ us, s.values u = 0 ∧ s.Valid u ∧ RUP s.formula [u] ∧ neg u ∉ us) →
    Ok orig G (us.foldl Solver.learnedUnit s) ∧ WatchedX (us.foldl Solver.learnedUnit s) A B ∧
    Kept s (us.foldl Solver.learnedUnit s) ∧ (us.foldl Solver.learnedUnit s).level = s.level ∧
    (us.foldl Solver.learnedUnit s).arena = s.arena := by
  intro us
  induction us with
  | nil => intro s h hw _ _; exact ⟨h, hw, .refl s, rfl, rfl⟩
  | cons u us ih =>
    intro s h hw hn hu
    rw [List.nodup_cons] at hn
    obtain ⟨h0, hv, hr, hnn⟩ := hu u (by simp)
    obtain ⟨f1, f2, f3, f4, f5, f6⟩ := learnedUnit_fields s u
    obtain ⟨i1, i2, i3, i4, i5⟩ := ih (s.learnedUnit u) (h.learnedUnit h0 hv hr)
      (hw.learnedUnit h.inv.trail h0) hn.2 (by
        intro x hx
        obtain ⟨g0, gv, gr, gn⟩ := hu x (by simp [hx])
        refine ⟨?_, ?_, gr.mono_sub fun c hc => learnedUnit_formula h.inv.trail h0 hc,
          fun hm => gn (by simp [hm])⟩
        · rw [f3, if_neg, if_neg]
          · exact g0
          · rintro rfl; exact hn.1 hx
          · rintro rfl; exact hnn (by simp [hx])
        · unfold Solver.Valid; rw [f1.2.1, f1.2.2]; exact gv)
    exact ⟨i1, i2, (f1.1 h.inv.trail h0).trans i3, i4.trans f2, i5.trans f5⟩

theorem learnedUnits_values : ∀ (us : List Nat) (s : Solver),
    us.Nodup → (∀ u ∈ us, neg u ∉ us) →
    (∀ u ∈ us, (us.foldl Solver.learnedUnit s).values u = 1) ∧
    ∀ x, x ∉ us → neg x ∉ us → (us.foldl Solver.learnedUnit s).values x = s.values x := by
  intro us
  induction us with
  | nil => intro s _ _; exact ⟨by simp, fun _ _ _ => rfl⟩
  | cons u us ih =>
    intro s hn hu
    rw [List.nodup_cons] at hn
    obtain ⟨h1, h2⟩ := ih (s.learnedUnit u) hn.2 fun v hv hm =>
      hu v (List.mem_cons_of_mem _ hv) (List.mem_cons_of_mem _ hm)
    have hv := (learnedUnit_fields s u).2.2.1
    rw [List.foldl_cons]
    refine ⟨fun v hm => ?_, fun x hx hx' => ?_⟩
    · rcases List.mem_cons.1 hm with rfl | hm
      · rw [h2 v hn.1 (fun hm => hu v (by simp) (List.mem_cons_of_mem _ hm)), hv,
          if_neg (neg_ne v).symm, if_pos rfl]
      · exact h1 v hm
    · rw [List.mem_cons, not_or] at hx hx'
      rw [h2 x hx.2 hx'.2, hv, if_neg, if_neg hx.1]
      rintro rfl
      exact hx'.1 (neg_neg u)

/-- `analyze_failed_literal` keeps the invariants and the values on level zero; the
negation of the decision becomes a unit. -/
theorem analyzeFailed_full {orig : Base} {G : Assignment → Prop} {s : Solver}
    {c : Conflict} (h : Many orig G s c) (h1 : s.level = 1) :
    (PropInv orig G (analyzeFailed s c) ∧ Kept s (analyzeFailed s c)) ∧
    (analyzeFailed s c).level = 0 ∧
    (∀ x, s.values x ≠ 0 → s.lev x = 0 → (analyzeFailed s c).values x = s.values x) ∧
    ∀ f, s.frames[0]? = some f → (analyzeFailed s c).values (neg f.decision) = 1 := by
  obtain ⟨k, hok, hk⟩ := h.ok
  obtain ⟨kk, hw, hfr⟩ := h.watch
  have ht := hok.inv.trail
  obtain ⟨f, hf⟩ := ht.frame_exists (j := 0) (by omega)
  have hdec : s.lev f.decision = 1 := (ht.decision 0 f hf).2
  have hdv : s.values f.decision = 1 := ht.tval _ (ht.decision_mem hf)
  have hnfe : neg ((s.frames[0]?.map Frame.decision).getD 0) = neg f.decision := by rw [hf]; rfl
  have hlev : ∀ x, s.values x = -1 → s.lev x ≤ 1 := fun x hx => by
    have := ht.levle (neg x) (ht.neg_pos.2 hx); rw [lev_neg] at this; omega
  have hb := s.below_all
  have hlits : ∀ m ∈ s.conflictLits c, s.values m = -1 ∧ (s.lev m = 0 ∨ s.lev m = 1 ∧
      s.pos m < k ∧ s.pos m < s.trail.reverse.length) := by
    intro m hm
    have hv := h.conf.false m hm
    refine ⟨hv, ?_⟩
    by_cases h0 : s.lev m = 0
    · exact .inl h0
    · have := hlev m hv
      refine .inr ⟨by omega, hk m hm (by omega), ?_⟩
      have := ht.pos_lt (ht.on_trail (ht.neg_pos.2 hv) (by rw [lev_neg]; exact h0))
      rw [pos_neg] at this
      simpa using this
  have hspec := failedLits_spec ht (k := k) (base := 0) hb (ht.neg_one.2 hdv)
    (s.conflictLits c) ⟨[], 0, [], false⟩
    ⟨by rw [List.filter_eq_nil_iff.2 (by simp)]; rfl, by simp, by simp, rfl⟩ hlits
  obtain ⟨s1, s2⟩ := hspec
  have hU : UP s.formula (fun x => x = f.decision) f.decision := .assumed rfl
  have hnf : RUP s.formula [neg f.decision] := by
    refine .inl (UPConflict.cut (h.conf.upConflict (A := fun x => x = f.decision) ?_) ?_)
    · intro m hm
      obtain ⟨hv, hl⟩ := hlits m hm
      refine up_decision hok.inv hf (s.pos (neg m) + 1) (neg m) (by omega) (ht.neg_pos.2 hv)
        (by rw [lev_neg]; exact hlev m hv) fun _ => ?_
      rw [lev_neg, pos_neg]
      by_cases h0 : s.lev m = 0
      · left; omega
      · right; omega
    · rintro x rfl; exact .assumed (by simp)
  have hloop := failedLoop_spec hok.inv hf s.trail.reverse
    (failedLits s (neg f.decision) (s.conflictLits c) ⟨[], 0, [], false⟩) hb (fun hd => by
      obtain ⟨m1, m2, m2', m3⟩ := s2 hd
      have inrest : ∀ m ∈ s.conflictLits c, s.lev m ≠ 0 → neg m ∈ s.trail.reverse := by
        intro m hm h0
        rw [List.mem_reverse]
        exact ht.on_trail (ht.neg_pos.2 (hlits m hm).1) (by rw [lev_neg]; exact h0)
      refine ⟨m1, h.conf.upConflict fun m hm => ?_, ?_⟩
      · by_cases h0 : s.lev m = 0
        · exact UP.root ht (hlits m hm).1 h0
        · refine .assumed ⟨inrest m hm h0, ?_⟩
          rcases m3 m hm with h | h
          · exact absurd h h0
          · simpa using h
      · obtain ⟨a, b, ha, _, _, hla, _⟩ := h.two
        refine ⟨neg a, inrest a ha (by omega), ?_⟩
        rcases m3 a ha with h | h
        · omega
        · simpa using h) (by rw [s1]; exact ⟨by simp, by simp, by simp⟩)
  obtain ⟨_, hu⟩ := hloop
  obtain ⟨hbk, hok', hw'⟩ := backtrack_ok hok hw hfr (n := 0) (by omega) (by omega)
  unfold analyzeFailed
  rw [hnfe]
  simp only
  generalize (failedLoop s (neg f.decision) s.trail.reverse
    (failedLits s (neg f.decision) (s.conflictLits c) ⟨[], 0, [], false⟩)).units = us at hu ⊢
  generalize s.backtrack 0 = b at hbk hok' hw'
  have hall : ∀ u ∈ us ++ [neg f.decision], s.values u = -1 ∧ s.lev u = 1 ∧
      RUP s.formula [u] := by
    intro u hm
    rcases List.mem_append.1 hm with hm | hm
    · exact ⟨(hu.lev u hm).1, (hu.lev u hm).2.1, hu.rup u hm⟩
    · rw [List.mem_singleton] at hm; subst hm
      exact ⟨ht.neg_one.2 hdv, by rw [lev_neg]; exact hdec, hnf⟩
  have hgone : ∀ w, s.level ≤ s.lev w → b.values w ≠ -1 := fun w hl => by
    rw [hbk.drop (by omega)]; omega
  have hw'' : WatchedX b (fun _ _ => False) (fun _ _ => False) :=
    WatchedX.dropLevel (A := fun _ w => s.level ≤ s.lev w) (B := fun w _ => s.level ≤ s.lev w)
      ⟨hw'.1.weaken (fun _ _ h => .inl h) (fun _ _ h => .inl h), hw'.2, hw'.3⟩
      (fun _ w => hgone w) (fun w _ => hgone w)
  have hnodup : (us ++ [neg f.decision]).Nodup := by
    rw [List.nodup_append]
    refine ⟨hu.nodup, by simp, fun x hx y hy e => ?_⟩
    rw [List.mem_singleton] at hy
    exact (hu.lev x hx).2.2.2 (e.trans hy)
  have hcompl : ∀ u ∈ us ++ [neg f.decision], neg u ∉ us ++ [neg f.decision] := fun u hm hn => by
    have h1 := (hall _ hm).1
    have := (hall _ hn).1
    rw [ht.anti] at this; omega
  have hfin := learnedUnits_ok (us ++ [neg f.decision]) b hok' hw'' hnodup (by
      intro u hm
      obtain ⟨g1, g2, g3⟩ := hall u hm
      exact ⟨hbk.drop (by omega), (hbk.valid u).2 (ht.valid u (by omega)),
        by rw [hbk.formula]; exact g3, hcompl u hm⟩)
  obtain ⟨q1, q2, q3, q4, q5⟩ := hfin
  obtain ⟨q6, q7⟩ := learnedUnits_values (us ++ [neg f.decision]) b hnodup hcompl
  have q6 := q6 (neg f.decision) (by simp)
  have q7 : ∀ x, s.values x ≠ 0 → s.lev x = 0 →
      ((us ++ [neg f.decision]).foldl Solver.learnedUnit b).values x = s.values x := by
    intro x hx h0
    rw [q7 x (fun hm => by have := (hall x hm).2.1; omega) (fun hm => by
      have := (hall _ hm).2.1; rw [lev_neg] at this; omega), hbk.keep (by omega)]
  have q8 := hbk.level
  generalize (us ++ [neg f.decision]).foldl Solver.learnedUnit b = e at q1 q2 q3 q4 q5 q6 q7 ⊢
  have hlast : Kept s { e with iterating := true } := by
    have := hbk.kept.trans q3
    exact ⟨this.1, this.2, this.3, this.4, this.5, this.6, this.7⟩
  refine ⟨⟨?_, hlast⟩, q4.trans q8, q7, fun f' hf' => ?_⟩
  · have q1' : Ok orig G { e with iterating := true } :=
      q1.misc e.propagate true e.conflicts e.decisions e.options
    exact q1'.propInv ⟨⟨q2.1.1, q2.1.2⟩, q2.2, q2.3⟩ (fun _ _ h => h.elim) (fun _ _ h => h.elim)
  · rw [hf] at hf'; cases hf'; exact q6

theorem analyzeFailed_ok {orig : Base} {G : Assignment → Prop} {s : Solver}
    {c : Conflict} (h : Many orig G s c) (h1 : s.level = 1) :
    PropInv orig G (analyzeFailed s c) ∧ Kept s (analyzeFailed s c) := (analyzeFailed_full h h1).1

end Verif.Core
