import Verif.Proofs.Core.Decide

/-! # What propagation keeps -/

namespace Verif.Core

open Verif.Spec

/-- The clauses of `s` are those of `s0` (up to the order of literals), values of `s0`
are kept and all new literals have a level in `P`. -/
structure Growth (P : Nat → Prop) (s0 s : Solver) : Prop where
  live : ∀ r, s.Live r → s0.Live r ∧ (s.clause r).lits.Perm (s0.clause r).lits
  bin : ∀ a b, Watch.binary b ∈ s.watches a → Watch.binary b ∈ s0.watches a
  old : ∀ x, s0.values x ≠ 0 → s.values x = s0.values x ∧ s.lev x = s0.lev x
  new : ∀ x, s0.values x = 0 → s.values x ≠ 0 → P (s.lev x)
  trail : ∃ e, s.trail = s0.trail ++ e ∧ ∀ x ∈ e, P (s.lev x)
  level : s.level = s0.level

theorem Growth.refl (P : Nat → Prop) (s : Solver) : Growth P s s :=
  ⟨fun r hr => ⟨hr, .refl _⟩, fun _ _ h => h, fun _ _ => ⟨rfl, rfl⟩,
    fun x h0 h1 => absurd h0 h1, ⟨[], by simp, by simp⟩, rfl⟩

theorem Growth.weaken {P Q : Nat → Prop} {s0 s : Solver} (h : Growth P s0 s)
    (hPQ : ∀ n, P n → Q n) : Growth Q s0 s := by
  obtain ⟨e, h1, h2⟩ := h.trail
  exact ⟨h.live, h.bin, h.old, fun x h0 h1 => hPQ _ (h.new x h0 h1), ⟨e, h1,
    fun x hx => hPQ _ (h2 x hx)⟩, h.level⟩

theorem Growth.congr {P : Nat → Prop} {s0 s s' : Solver} (h : Growth P s0 s)
    (hl : ∀ r, s'.Live r → s.Live r ∧ (s'.clause r).lits.Perm (s.clause r).lits)
    (hw : ∀ a b, Watch.binary b ∈ s'.watches a → Watch.binary b ∈ s.watches a)
    (hv : s'.values = s.values) (ha : ∀ x, s'.lev x = s.lev x) (ht : s'.trail = s.trail)
    (hl' : s'.level = s.level) : Growth P s0 s' := by
  obtain ⟨e, h1, h2⟩ := h.trail
  refine ⟨fun r hr => ?_, fun a b hab => h.bin a b (hw a b hab), fun x hx => ?_,
    fun x h0 h1 => ?_, ⟨e, ht.trans h1, fun x hx => by rw [ha]; exact h2 x hx⟩, hl'.trans h.level⟩
  · obtain ⟨a, b⟩ := hl r hr
    exact ⟨(h.live r a).1, b.trans (h.live r a).2⟩
  · rw [hv, ha]; exact h.old x hx
  · rw [hv] at h1; rw [ha]; exact h.new x h0 h1

section
variable {orig : Base} {G : Assignment → Prop} {K : Prop} {kw lit k lv : Nat} {t : Loop} {w : Watch}
  {ws : List Watch} {P : Nat → Prop} {s0 : Solver}

theorem Growth.assign {s : Solver} (h : Growth P s0 s) (ht : TrailInv s) {level x : Nat}
    {reason : Reason} (hx : s.values x = 0) (hP : P level) :
    Growth P s0 (s.assign level x reason) := by
  have hf := assign_fields s level x reason
  have hx' : s.values (neg x) = 0 := by rw [ht.anti, hx]; rfl
  have hne : ∀ y, s.values y ≠ 0 → y / 2 ≠ x / 2 := by
    intro y hy e
    rcases eq_or_eq_neg e with rfl | rfl
    · exact hy hx
    · exact hy hx'
  have hval : ∀ y, s.values y ≠ 0 → (s.assign level x reason).values y = s.values y := by
    intro y hy
    rw [assign_values, if_neg, if_neg]
    · rintro rfl; exact hy hx
    · rintro rfl; exact hy hx'
  have hlev : ∀ y, s.values y ≠ 0 → (s.assign level x reason).lev y = s.lev y := by
    intro y hy
    rw [assign_lev, if_neg (hne y hy)]
  obtain ⟨e, e1, e2⟩ := h.trail
  refine ⟨fun r hr => ?_, fun a b hab => ?_, fun y hy => ?_, fun y h0 h1 => ?_,
    ⟨e ++ [x], ?_, ?_⟩, hf.2.2.2.2.2.2.1.trans h.level⟩
  · have hc : (s.assign level x reason).clause r = s.clause r := by
      unfold Solver.clause; rw [hf.2.2.2.1]
    unfold Solver.Live at hr
    rw [hc] at hr ⊢
    exact h.live r hr
  · rw [hf.2.2.2.2.1] at hab; exact h.bin a b hab
  · obtain ⟨g1, g2⟩ := h.old y hy
    rw [hval y (by rw [g1]; exact hy), hlev y (by rw [g1]; exact hy)]
    exact ⟨g1, g2⟩
  · rw [assign_lev]
    split
    · exact hP
    · rename_i hne'
      refine h.new y h0 fun e => h1 ?_
      rw [assign_values, if_neg, if_neg, e]
      · rintro rfl; exact hne' rfl
      · rintro rfl; exact hne' (neg_div x)
  · rw [hf.2.2.1, e1, List.append_assoc]
  · intro y hy
    rw [assign_lev]
    split
    · exact hP
    · rename_i hne'
      rcases List.mem_append.1 hy with hy | hy
      · exact e2 y hy
      · rw [List.mem_singleton.1 hy] at hne'; exact absurd rfl hne'

theorem binary_keep {w' : Watch} (hw' : ∀ b, w' = .binary b → w = .binary b) {a b : Nat}
    (hab : Watch.binary b ∈ virtW (neg lit) { t with kept := t.kept ++ [w'] } ws a) :
    Watch.binary b ∈ virtW (neg lit) t (w :: ws) a := by
  rw [binary_mem_virtW] at hab ⊢
  split
  · rename_i e
    rw [if_pos e] at hab
    rcases hab with hab | hab
    · rcases List.mem_append.1 hab with hab | hab
      · exact .inl hab
      · right; rw [hw' b (List.mem_singleton.1 hab).symm]; simp
    · right; simp [hab]
  · rename_i e; rw [if_neg e] at hab; exact hab

theorem binary_skip {a b : Nat} (hab : Watch.binary b ∈ virtW (neg lit) t ws a) :
    Watch.binary b ∈ virtW (neg lit) t (w :: ws) a := by
  rw [binary_mem_virtW] at hab ⊢
  split
  · rename_i e
    rw [if_pos e] at hab
    rcases hab with hab | hab
    · exact .inl hab
    · right; simp [hab]
  · rename_i e; rw [if_neg e] at hab; exact hab

/-- What is needed for new literals: their level is in `P`. -/
structure Levels (P : Nat → Prop) (s : Solver) (lit lv : Nat) : Prop where
  bin : ∀ o, Watch.binary o ∈ s.watches (neg lit) → s.values o = 0 → P lv
  large : ∀ r o, s.Live r → o ∈ (s.clause r).lits → s.values o = 0 →
    (∀ m ∈ (s.clause r).lits, m ≠ o → s.values m = -1) → P (s.assignmentLevel o (s.clause r).lits)

theorem Growth.step (hi : LoopInvG orig G K kw lit k lv t (w :: ws))
    (hL : Levels P (virt (neg lit) t (w :: ws)) lit lv)
    (h : Growth P s0 (virt (neg lit) t (w :: ws))) :
    Growth P s0 (virt (neg lit) (propagateWatch lv (neg lit) w t).1 ws) := by
  obtain ⟨hv1, hv2⟩ := hi.values
  have hdom : ∀ x, t.s.values x = 1 ∨ t.s.values x = 0 ∨ t.s.values x = -1 :=
    hi.ok.inv.trail.dom
  have hkeep : ∀ w', (∀ b, w' = .binary b → w = .binary b) →
      Growth P s0 (virt (neg lit) { t with kept := t.kept ++ [w'] } ws) := fun w' hw' =>
    h.congr (fun r hr => ⟨hr, .refl _⟩) (fun a b hab => binary_keep hw' hab) rfl (fun _ => rfl) rfl rfl
  unfold propagateWatch
  cases w with
  | binary o =>
    simp only
    have hk := hkeep (.binary o) (fun b e => e)
    by_cases h1 : 0 < t.s.values o
    · rw [if_pos h1]; exact hk
    · rw [if_neg h1]
      by_cases h2 : t.s.values o < 0
      · rw [if_pos h2]; exact hk
      · rw [if_neg h2]
        have h0 : t.s.values o = 0 := by omega
        show Growth P s0 (virt (neg lit) { t with
          s := t.s.fastAssignBinary lv o (neg lit), kept := t.kept ++ [.binary o] } ws)
        unfold Solver.fastAssignBinary
        have := virt_assign (neg lit) { t with kept := t.kept ++ [.binary o] } ws lv o
          (.binary (jumpReason (t.s.assigned (neg lit / 2))
            (t.s.options.jumpreasons && t.s.options.bigbig) (neg lit)))
        simp only at this ⊢
        rw [this]
        have hT : TrailInv (virt (neg lit) { t with kept := t.kept ++ [.binary o] } ws) := by
          have := hi.ok.inv.trail
          exact ⟨this.1, this.2, this.3, this.4, this.5, this.6, this.7, this.8, this.9, this.10,
            this.11, this.12, this.13⟩
        exact hk.assign hT h0 (hL.bin o hi.head h0)
  | large b r =>
    simp only
    have hk : ∀ b', Growth P s0 (virt (neg lit) { t with kept := t.kept ++ [.large b' r] } ws) :=
      fun b' => hkeep (.large b' r) (fun _ e => by cases e)
    by_cases hb : 0 < t.s.values b
    · rw [if_pos hb]; exact hk b
    · rw [if_neg hb]
      unfold propagateLarge
      simp only
      by_cases hg : (t.s.clause r).garbage = true
      · rw [if_pos hg]
        exact h.congr (fun r hr => ⟨hr, .refl _⟩) (fun a b hab => binary_skip hab) rfl
          (fun _ => rfl) rfl rfl
      · rw [if_neg hg]
        have hlive : t.s.Live r := by simpa [Solver.Live] using hg
        have hback := hi.ok.inv.watch.back _ _ _ hi.head hlive
        have hsize := hi.ok.inv.clause.size r hlive
        have hsea := hi.ok.inv.clause.searched r hlive
        have hc : (virt (neg lit) t (.large b r :: ws)).clause r = t.s.clause r := rfl
        rw [hc] at hback hsize hsea
        obtain ⟨x, y, rest, other, hlits, hother, hxy⟩ := watched_split hsize hback.1
        rw [hother]
        by_cases hpos : 0 < t.s.values other
        · rw [if_pos hpos]; exact hk other
        · rw [if_neg hpos]
          cases hfr : findReplacement t.s.values (t.s.clause r).lits (t.s.clause r).searched with
          | some p =>
            simp only
            obtain ⟨hp2, hplt, hpv⟩ := findReplacement_some hfr hsea.1
            generalize hrep : (t.s.clause r).lits.getD p 0 = rep at hpv
            obtain ⟨i, rfl⟩ : ∃ i, p = 2 + i := ⟨p - 2, by omega⟩
            have hget : rest[i]? = some rep := by
              rw [hlits, List.getD_eq_getElem?_getD, show 2 + i = i + 1 + 1 by omega,
                List.getElem?_cons_succ, List.getElem?_cons_succ] at hrep
              rw [hlits] at hplt
              simp only [List.length_cons] at hplt
              rw [List.getElem?_eq_getElem (by omega)] at hrep ⊢
              simpa using hrep
            have hp : ((((t.s.clause r).lits.set 0 other).set 1 rep).set (2 + i) (neg lit)).Perm
                (t.s.clause r).lits := by
              rw [hlits]; exact replace_perm hxy hget
            have hlt := clause_lt hlive
            refine h.congr ?_ ?_ rfl (fun _ => rfl) rfl rfl
            · intro r' hr'
              by_cases e : r' = r
              · subst e
                refine ⟨hlive, ?_⟩
                show ((t.s.setClause r' _).clause r').lits.Perm _
                rw [setClause_same hlt]; exact hp
              · have hcl : ∀ c, (t.s.setClause r c).clause r' = t.s.clause r' :=
                  fun c => setClause_other e
                unfold Solver.Live at hr' ⊢
                have hr' : ((t.s.setClause r _).clause r').garbage = false := hr'
                rw [hcl] at hr'
                refine ⟨hr', ?_⟩
                show ((t.s.setClause r _).clause r').lits.Perm _
                rw [hcl]; exact .refl _
            · intro a o hab
              have hab : Watch.binary o ∈ virtW _ _ _ _ := hab
              show Watch.binary o ∈ virtW _ _ _ _
              rw [binary_mem_virtW] at hab ⊢
              split
              · rename_i e
                rw [if_pos e] at hab
                rcases hab with hab | hab
                · exact .inl hab
                · right; simp [hab]
              · rename_i e; rw [if_neg e] at hab; exact hab
          | none =>
            simp only
            by_cases hnz : t.s.values other ≠ 0
            · rw [if_pos hnz]; exact hk b
            · rw [if_neg hnz]
              have h0 : t.s.values other = 0 := by omega
              have hmo : other ∈ (t.s.clause r).lits := by
                rw [hlits]
                rcases hxy with ⟨rfl, _⟩ | ⟨_, rfl⟩ <;> simp
              have hPo : P (t.s.assignmentLevel other (t.s.clause r).lits) := by
                refine hL.large r other hlive hmo h0 fun m hm hne => ?_
                have hm : m ∈ (t.s.clause r).lits := hm
                have hrest := findReplacement_none hfr
                rw [hlits] at hrest hm
                have hd := hdom m
                simp only [List.mem_cons] at hm
                rcases hm with rfl | rfl | hm
                · rcases hxy with ⟨rfl, rfl⟩ | ⟨rfl, rfl⟩
                  · exact absurd rfl hne
                  · exact hv2
                · rcases hxy with ⟨rfl, rfl⟩ | ⟨rfl, rfl⟩
                  · exact hv2
                  · exact absurd rfl hne
                · have := hrest m hm
                  show t.s.values m = -1
                  omega
              unfold Solver.assignReference
              have := virt_assign (neg lit) { t with kept := t.kept ++ [.large b r] } ws
                (t.s.assignmentLevel other (t.s.clause r).lits) other (.large r)
              simp only at this ⊢
              rw [this]
              have hT : TrailInv (virt (neg lit) { t with kept := t.kept ++ [.large b r] } ws) := by
                have := hi.ok.inv.trail
                exact ⟨this.1, this.2, this.3, this.4, this.5, this.6, this.7, this.8, this.9,
                  this.10, this.11, this.12, this.13⟩
              exact (hk b).assign hT h0 hPo

/-- New literals get a level in `P`, from `s0` on. -/
def Adequate (P : Nat → Prop) (s0 : Solver) : Prop :=
  ∀ s lit, Inv s → Growth P s0 s → s.values lit = 1 → Levels P s lit (s.lev lit)

theorem LoopInvG.lev_eq (hi : LoopInvG orig G K kw lit k lv t ws) : (virt (neg lit) t ws).lev lit = lv :=
  hi.lev

theorem Growth.watches (hA : Adequate P s0) : ∀ {ws : List Watch} {t : Loop},
    LoopInv orig G lit k lv t ws → Growth P s0 (virt (neg lit) t ws) →
    Growth P s0 (virt (neg lit) (propagateWatches lv (neg lit) ws t).1 [])
  | [], t, _, hb => hb
  | w :: ws, t, h, hb => by
    have hs := h.step
    have hL := hA _ lit h.ok.inv hb h.values.1
    rw [h.lev_eq] at hL
    have hb' := Growth.step h hL hb
    unfold propagateWatches
    cases hp : propagateWatch lv (neg lit) w t with
    | mk t' c =>
      rw [hp] at hs hb'
      cases c with
      | none => exact Growth.watches hA hs.2 hb'
      | some c =>
        refine hb'.congr (fun r hr => ⟨hr, .refl _⟩) (fun a b hab => ?_) rfl (fun _ => rfl) rfl rfl
        have hab : Watch.binary b ∈ virtW _ _ _ _ := hab
        show Watch.binary b ∈ virtW _ _ _ _
        rw [binary_mem_virtW] at hab ⊢
        simp only [List.mem_append, List.not_mem_nil, or_false] at hab
        exact hab

end

theorem Growth.literal {orig : Base} {G : Assignment → Prop} {P : Nat → Prop} {s0 s : Solver}
    {lit k : Nat} (hA : Adequate P s0) (hok : Ok orig G s) (hw : Watching s k)
    (hk : s.trail[k]? = some lit) (hf : ∀ f ∈ s.frames, f.trail ≤ k) (hb : Growth P s0 s) :
    Growth P s0 (propagateLiteral s lit).1 := by
  have e0 : virt (neg lit) ⟨s, [], []⟩ (s.watches (neg lit)) = s := by
    unfold virt virtW
    have : (fun l => (if l = neg lit then [] ++ s.watches (neg lit) else s.watches l) ++
        List.filterMap (fun d : Nat × Nat × Nat =>
          if d.1 = l then some (Watch.large d.2.1 d.2.2) else none) []) = s.watches := by
      funext l
      by_cases hl : l = neg lit
      · subst hl; simp
      · simp [hl]
    simp only at this ⊢
    rw [this]
  have h0 : LoopInv orig G lit k (s.lev lit) ⟨s, [], []⟩ (s.watches (neg lit)) :=
    ⟨e0.symm ▸ hok, e0.symm ▸ hw, hk, hf, by simp, by simp, by simp, rfl, Nat.le_refl _⟩
  have h1 := Growth.watches hA h0 (e0.symm ▸ hb)
  unfold propagateLiteral
  simp only
  cases hp : propagateWatches (s.lev lit) (neg lit) (s.watches (neg lit)) ⟨s, [], []⟩ with
  | mk t c =>
    rw [hp] at h1
    simp only
    rw [watchDelayed_virt]
    exact h1

theorem Growth.loop {orig : Base} {G : Assignment → Prop} {P : Nat → Prop} {s0 : Solver}
    (hA : Adequate P s0) : ∀ (n : Nat) {s : Solver}, PropInv orig G s → Growth P s0 s →
    Growth P s0 (propagateLoop n s).1
  | 0, s, _, hb => hb
  | n + 1, s, h, hb => by
    unfold propagateLoop
    cases hk : s.trail[s.propagate]? with
    | none => exact hb
    | some lit =>
      simp only
      have hok : Ok orig G { s with propagate := s.propagate + 1 } :=
        h.ok.misc (s.propagate + 1) s.iterating s.conflicts s.decisions s.options
      have hw : Watching { s with propagate := s.propagate + 1 } s.propagate :=
        h.watching.misc (s.propagate + 1) s.inconsistent s.iterating s.conflicts s.decisions
          s.proof s.options
      have hb1 : Growth P s0 { s with propagate := s.propagate + 1 } :=
        hb.congr (fun r hr => ⟨hr, .refl _⟩) (fun _ _ h => h) rfl (fun _ => rfl) rfl rfl
      have hp := propagateLiteral_ok hok hw (lit := lit) hk h.frames
      have hb2 := Growth.literal hA hok hw (lit := lit) hk h.frames hb1
      cases hres : propagateLiteral { s with propagate := s.propagate + 1 } lit with
      | mk s' c =>
        rw [hres] at hp hb2
        obtain ⟨hfz, hok', hp⟩ := hp
        simp only at hfz hok' hp hb2
        cases c with
        | some c => exact hb2
        | none =>
          simp only at hp ⊢
          have hprop : s'.propagate = s.propagate + 1 := hfz.propagate
          refine Growth.loop hA n ⟨hok', by rw [hprop]; exact hp, ?_, ?_⟩ hb2
          · rw [hfz.frames, hprop]; intro f hf; exact Nat.le_succ_of_le (h.frames f hf)
          · rw [hprop]
            obtain ⟨e, he⟩ := hfz.trail
            have := (List.getElem?_eq_some_iff.1 hk).1
            rw [he, List.length_append]
            show s.propagate + 1 ≤ s.trail.length + _
            omega

/-- Nothing is required of levels. -/
theorem adequate_true (s0 : Solver) : Adequate (fun _ => True) s0 :=
  fun _ _ _ _ _ => ⟨fun _ _ _ => trivial, fun _ _ _ _ _ _ => trivial⟩

/-- If the literals below the highest level are closed under unit propagation then only
literals on the highest level are propagated. -/
theorem adequate_level {s0 : Solver} {L : Nat} (hL : s0.level = L)
    (hlarge : ∀ r, s0.Live r → ∀ u ∈ (s0.clause r).lits,
      (∀ m ∈ (s0.clause r).lits, m ≠ u → s0.values m = -1 ∧ s0.lev m ≠ L) → s0.values u ≠ 0)
    (hbin : ∀ a b, Watch.binary b ∈ s0.watches a → s0.values a = -1 → s0.lev a ≠ L →
      s0.values b ≠ 0) : Adequate (fun n => n = L) s0 := by
  intro s lit hi hg hv
  have hz : ∀ x, s.values x = 0 → s0.values x = 0 := fun x hx =>
    Classical.byContradiction fun h => h ((hg.old x h).1 ▸ hx)
  have hle : ∀ x, s.values x = -1 → s.lev x ≤ L := fun x hx => by
    have := hi.trail.levle (neg x) (hi.trail.neg_pos.2 hx)
    rw [lev_neg, hg.level, hL] at this; exact this
  have hold : ∀ x, s.values x = -1 → s.lev x ≠ L → s0.values x = -1 ∧ s0.lev x ≠ L := by
    intro x hx hl
    have h0 : s0.values x ≠ 0 := fun h0 => hl (hg.new x h0 (by omega))
    obtain ⟨g1, g2⟩ := hg.old x h0
    rw [← g1, ← g2]; exact ⟨hx, hl⟩
  constructor
  · intro o ho h0
    apply Classical.byContradiction
    intro hne
    obtain ⟨g1, g2⟩ := hold (neg lit) (hi.trail.neg_one.2 hv) (by rw [lev_neg]; exact hne)
    exact hbin _ _ (hg.bin _ _ ho) g1 g2 (hz o h0)
  · intro r o hr ho h0 hm
    obtain ⟨g1, g2⟩ := hg.live r hr
    apply Classical.byContradiction
    intro hne
    refine hlarge r g1 o (g2.mem_iff.1 ho) (fun m hm' hmo => ?_) (hz o h0)
    have hmr := g2.mem_iff.2 hm'
    refine hold m (hm m hmr hmo) fun e => hne ?_
    refine Nat.le_antisymm ?_ ?_
    · refine assignmentLevel_le _ _ _ fun m hm' hmo => hle m (hm m hm' hmo)
    · rw [← e]; exact assignmentLevel_ge _ _ _ hmr hmo

end Verif.Core
