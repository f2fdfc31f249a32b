import Verif.Proofs.Core.Growth

/-! # Warming up: propagation beyond conflicts -/

namespace Verif.Core

open Verif.Spec

/-- No clause, no binary clause and no proof line is lost or added (with `Growth`, which has the
other inclusions). -/
structure Quiet (s0 s : Solver) : Prop where
  arena : s.arena.length = s0.arena.length
  flags : ∀ r, (s.clause r).garbage = (s0.clause r).garbage ∧
    (s.clause r).redundant = (s0.clause r).redundant
  bin : ∀ a b, Watch.binary b ∈ s0.watches a → Watch.binary b ∈ s.watches a
  proof : s.proof = s0.proof

theorem Quiet.refl (s : Solver) : Quiet s s := ⟨rfl, fun _ => ⟨rfl, rfl⟩, fun _ _ h => h, rfl⟩

theorem Quiet.trans {s t u : Solver} (h : Quiet s t) (h' : Quiet t u) : Quiet s u :=
  ⟨h'.arena.trans h.arena, fun r => ⟨(h'.flags r).1.trans (h.flags r).1,
    (h'.flags r).2.trans (h.flags r).2⟩, fun a b hab => h'.bin a b (h.bin a b hab),
    h'.proof.trans h.proof⟩

theorem Quiet.of_eq {s s' : Solver} (ha : s'.arena = s.arena)
    (hb : ∀ a b, Watch.binary b ∈ s.watches a → Watch.binary b ∈ s'.watches a)
    (hp : s'.proof = s.proof) : Quiet s s' :=
  ⟨by rw [ha], fun r => by unfold Solver.clause; rw [ha]; exact ⟨rfl, rfl⟩, hb, hp⟩

theorem assign_proof {s : Solver} {level lit : Nat} {reason : Reason} (h : 0 < level) :
    (s.assign level lit reason).proof = s.proof := by
  unfold Solver.assign; rw [if_neg (by omega)]; rfl

theorem Quiet.assign {s : Solver} {level lit : Nat} {reason : Reason} (h : 0 < level) :
    Quiet s (s.assign level lit reason) := by
  have hf := assign_fields s level lit reason
  exact .of_eq hf.2.2.2.1 (fun a b hab => by rw [hf.2.2.2.2.1]; exact hab) (assign_proof h)

section
variable {orig : Base} {G : Assignment → Prop} {K : Prop} {kw lit k lv : Nat} {t : Loop} {w : Watch}
  {ws : List Watch} {s0 : Solver}

theorem Quiet.step (hi : LoopInvG orig G K kw lit k lv t (w :: ws))
    (hL : Levels (0 < ·) (virt (neg lit) t (w :: ws)) lit lv) :
    Quiet (virt (neg lit) t (w :: ws)) (virt (neg lit) (propagateWatch lv (neg lit) w t).1 ws) := by
  obtain ⟨hv1, hv2⟩ := hi.values
  have hdom : ∀ x, t.s.values x = 1 ∨ t.s.values x = 0 ∨ t.s.values x = -1 :=
    hi.ok.inv.trail.dom
  have hkeep : ∀ w', (∀ b, w = .binary b → w' = .binary b) →
      Quiet (virt (neg lit) t (w :: ws)) (virt (neg lit) { t with kept := t.kept ++ [w'] } ws) := by
    intro w' hw'
    refine .of_eq rfl (fun a b hab => ?_) rfl
    have hab : Watch.binary b ∈ virtW _ _ _ _ := hab
    show Watch.binary b ∈ virtW _ _ _ _
    rw [binary_mem_virtW] at hab ⊢
    split
    · rename_i e
      rw [if_pos e] at hab
      rcases hab with hab | hab
      · left; exact List.mem_append_left _ hab
      · rcases List.mem_cons.1 hab with e | hab
        · left; rw [hw' b e.symm]; simp
        · exact .inr hab
    · rename_i e; rw [if_neg e] at hab; exact hab
  have hskip : ∀ {b r : Nat} (t' : Loop), w = .large b r → t'.kept = t.kept →
      t'.s.watches = t.s.watches → ∀ a o, Watch.binary o ∈ virtW (neg lit) t (w :: ws) a →
      Watch.binary o ∈ virtW (neg lit) t' ws a := by
    intro b r t' hw hk hs a o hab
    rw [binary_mem_virtW] at hab ⊢
    split
    · rename_i e
      rw [if_pos e, hw] at hab
      rw [hk]
      rcases hab with hab | hab
      · exact .inl hab
      · rcases List.mem_cons.1 hab with e | hab
        · cases e
        · exact .inr hab
    · rename_i e; rw [if_neg e] at hab; rw [hs]; exact hab
  unfold propagateWatch
  cases w with
  | binary o =>
    simp only
    have hk := hkeep (.binary o) (fun b e => e)
    by_cases h1 : 0 < t.s.values o
    · rw [if_pos h1]; exact hk
    · rw [if_neg h1]
      by_cases h2 : t.s.values o < 0
      · rw [if_pos h2]; exact hk
      · rw [if_neg h2]
        have h0 : t.s.values o = 0 := by omega
        show Quiet _ (virt (neg lit) { t with
          s := t.s.fastAssignBinary lv o (neg lit), kept := t.kept ++ [.binary o] } ws)
        unfold Solver.fastAssignBinary
        have := virt_assign (neg lit) { t with kept := t.kept ++ [.binary o] } ws lv o
          (.binary (jumpReason (t.s.assigned (neg lit / 2))
            (t.s.options.jumpreasons && t.s.options.bigbig) (neg lit)))
        simp only at this ⊢
        rw [this]
        exact hk.trans (.assign (hL.bin o hi.head h0))
  | large b r =>
    simp only
    have hk : ∀ b', Quiet (virt (neg lit) t (.large b r :: ws))
        (virt (neg lit) { t with kept := t.kept ++ [.large b' r] } ws) :=
      fun b' => hkeep (.large b' r) (fun _ e => by cases e)
    by_cases hb : 0 < t.s.values b
    · rw [if_pos hb]; exact hk b
    · rw [if_neg hb]
      unfold propagateLarge
      simp only
      by_cases hg : (t.s.clause r).garbage = true
      · rw [if_pos hg]
        exact .of_eq rfl (hskip t rfl rfl rfl) rfl
      · rw [if_neg hg]
        have hlive : t.s.Live r := by simpa [Solver.Live] using hg
        have hback := hi.ok.inv.watch.back _ _ _ hi.head hlive
        have hsize := hi.ok.inv.clause.size r hlive
        have hc : (virt (neg lit) t (.large b r :: ws)).clause r = t.s.clause r := rfl
        rw [hc] at hback hsize
        obtain ⟨x, y, rest, other, hlits, hother, hxy⟩ := watched_split hsize hback.1
        rw [hother]
        by_cases hpos : 0 < t.s.values other
        · rw [if_pos hpos]; exact hk other
        · rw [if_neg hpos]
          cases hfr : findReplacement t.s.values (t.s.clause r).lits (t.s.clause r).searched with
          | some p =>
            simp only
            have hlt := clause_lt hlive
            refine ⟨?_, ?_, ?_, rfl⟩
            · show (t.s.setClause r _).arena.length = _
              unfold Solver.setClause
              exact List.length_set
            · intro r'
              show ((t.s.setClause r _).clause r').garbage = (t.s.clause r').garbage ∧
                ((t.s.setClause r _).clause r').redundant = (t.s.clause r').redundant
              by_cases e : r' = r
              · subst e; rw [setClause_same hlt]; exact ⟨rfl, rfl⟩
              · rw [setClause_other e]; exact ⟨rfl, rfl⟩
            · intro a o hab
              exact hskip { t with
                s := t.s.setClause r { t.s.clause r with
                  lits := (((t.s.clause r).lits.set 0 other).set 1
                    ((t.s.clause r).lits.getD p 0)).set p (neg lit), searched := p }
                delayed := t.delayed ++ [((t.s.clause r).lits.getD p 0, other, r)] } rfl rfl rfl a o hab
          | none =>
            simp only
            by_cases hnz : t.s.values other ≠ 0
            · rw [if_pos hnz]; exact hk b
            · rw [if_neg hnz]
              have h0 : t.s.values other = 0 := by omega
              have hmo : other ∈ (t.s.clause r).lits := by
                rw [hlits]
                rcases hxy with ⟨rfl, _⟩ | ⟨_, rfl⟩ <;> simp
              have hPo : 0 < t.s.assignmentLevel other (t.s.clause r).lits := by
                refine hL.large r other hlive hmo h0 fun m hm hne => ?_
                have hm : m ∈ (t.s.clause r).lits := hm
                have hrest := findReplacement_none hfr
                rw [hlits] at hrest hm
                have hd := hdom m
                simp only [List.mem_cons] at hm
                rcases hm with rfl | rfl | hm
                · rcases hxy with ⟨rfl, rfl⟩ | ⟨rfl, rfl⟩
                  · exact absurd rfl hne
                  · exact hv2
                · rcases hxy with ⟨rfl, rfl⟩ | ⟨rfl, rfl⟩
                  · exact hv2
                  · exact absurd rfl hne
                · have := hrest m hm
                  show t.s.values m = -1
                  omega
              unfold Solver.assignReference
              have := virt_assign (neg lit) { t with kept := t.kept ++ [.large b r] } ws
                (t.s.assignmentLevel other (t.s.clause r).lits) other (.large r)
              simp only at this ⊢
              rw [this]
              exact (hk b).trans (.assign hPo)

/-- The watch loop beyond conflicts. -/
theorem LoopInvG.watchesBeyond (hA : Adequate (0 < ·) s0) : ∀ {ws : List Watch} {t : Loop},
    LoopInvG orig G False kw lit k lv t ws → Growth (0 < ·) s0 (virt (neg lit) t ws) →
    Frozen t.s (propagateWatchesBeyond lv (neg lit) ws t).s ∧
    LoopInvG orig G False kw lit k lv (propagateWatchesBeyond lv (neg lit) ws t) [] ∧
    Growth (0 < ·) s0 (virt (neg lit) (propagateWatchesBeyond lv (neg lit) ws t) []) ∧
    Quiet (virt (neg lit) t ws)
      (virt (neg lit) (propagateWatchesBeyond lv (neg lit) ws t) [])
  | [], t, h, hg => ⟨.refl _, h, hg, .refl _⟩
  | w :: ws, t, h, hg => by
    have hs := h.step
    have hL := hA _ lit h.ok.inv hg h.values.1
    rw [h.lev_eq] at hL
    have hg' := Growth.step h hL hg
    have hq := Quiet.step h hL
    unfold propagateWatchesBeyond
    generalize hp : propagateWatch lv (neg lit) w t = res at hs hg' hq
    obtain ⟨t', c⟩ := res
    obtain ⟨hf, hs⟩ := hs
    have hi' : LoopInvG orig G False kw lit k lv t' ws := by
      cases c with
      | none => exact hs
      | some c => exact hs.2.2.2
    obtain ⟨g1, g2, g3, g4⟩ := LoopInvG.watchesBeyond hA hi' hg'
    exact ⟨hf.trans g1, g2, g3, hq.trans g4⟩

end

theorem propagateLiteralBeyond_ok {orig : Base} {G : Assignment → Prop} {s0 s : Solver}
    {lit k kw : Nat} (hA : Adequate (0 < ·) s0) (hok : Ok orig G s) (hw : Watching s kw)
    (hk : s.trail[k]? = some lit) (hf : ∀ f ∈ s.frames, f.trail ≤ k) (hkw : kw ≤ k)
    (hg : Growth (0 < ·) s0 s) :
    Frozen s (propagateLiteralBeyond s lit) ∧ Ok orig G (propagateLiteralBeyond s lit) ∧
    Watching (propagateLiteralBeyond s lit) kw ∧
    Growth (0 < ·) s0 (propagateLiteralBeyond s lit) ∧ Quiet s (propagateLiteralBeyond s lit) := by
  have e0 : virt (neg lit) ⟨s, [], []⟩ (s.watches (neg lit)) = s := by
    unfold virt virtW
    have : (fun l => (if l = neg lit then [] ++ s.watches (neg lit) else s.watches l) ++
        List.filterMap (fun d : Nat × Nat × Nat =>
          if d.1 = l then some (Watch.large d.2.1 d.2.2) else none) []) = s.watches := by
      funext l
      by_cases hl : l = neg lit
      · subst hl; simp
      · simp [hl]
    simp only at this ⊢
    rw [this]
  have h0 : LoopInvG orig G False kw lit k (s.lev lit) ⟨s, [], []⟩ (s.watches (neg lit)) :=
    ⟨e0.symm ▸ hok, e0.symm ▸ hw, hk, hf, fun h => h.elim, fun h => h.elim, by simp, rfl, hkw⟩
  obtain ⟨g1, g2, g3, g4⟩ := h0.watchesBeyond hA (e0.symm ▸ hg)
  rw [e0] at g4
  unfold propagateLiteralBeyond
  simp only
  rw [watchDelayed_virt]
  refine ⟨?_, g2.ok, g2.watching, g3, g4⟩
  exact ⟨g1.1, g1.2, g1.3, g1.4, g1.5, g1.6, g1.7, g1.8, g1.9, g1.10, g1.11, g1.12, g1.13⟩

theorem Quiet.congr {s0 s s' : Solver} (h : Quiet s0 s) (ha : s'.arena = s.arena)
    (hw : s'.watches = s.watches) (hp : s'.proof = s.proof) : Quiet s0 s' :=
  h.trans (.of_eq ha (fun a b hab => by rw [hw]; exact hab) hp)

/-- The propagation loop beyond conflicts. -/
theorem propagateBeyond_ok {orig : Base} {G : Assignment → Prop} {s0 : Solver} {kw : Nat}
    (hA : Adequate (0 < ·) s0) : ∀ (n : Nat) {s : Solver}, Ok orig G s → Watching s kw →
    (∀ f ∈ s.frames, f.trail ≤ s.propagate) → kw ≤ s.propagate →
    s.propagate ≤ s.trail.length → s.vars < n + s.propagate → Growth (0 < ·) s0 s →
    Frozen' s (propagateBeyond n s) ∧ (propagateBeyond n s).conflicts = s.conflicts ∧
    Ok orig G (propagateBeyond n s) ∧
    Watching (propagateBeyond n s) kw ∧
    (propagateBeyond n s).propagate = (propagateBeyond n s).trail.length ∧
    Growth (0 < ·) s0 (propagateBeyond n s) ∧ Quiet s (propagateBeyond n s)
  | 0, s, hok, _, _, _, hle, hn, _ => by
    have := hok.inv.trail.length_le
    omega
  | n + 1, s, hok, hw, hf, hkw, hle, hn, hg => by
    unfold propagateBeyond
    cases hk : s.trail[s.propagate]? with
    | none =>
      have := List.getElem?_eq_none_iff.1 hk
      exact ⟨⟨rfl, rfl, rfl, rfl, rfl, rfl, rfl, rfl, rfl, rfl, [], by simp⟩, rfl, hok, hw,
        Nat.le_antisymm hle this, hg, .refl _⟩
    | some lit =>
      simp only
      have hok1 : Ok orig G { s with propagate := s.propagate + 1 } :=
        hok.misc (s.propagate + 1) s.iterating s.conflicts s.decisions s.options
      have hw1 : Watching { s with propagate := s.propagate + 1 } kw :=
        hw.misc (s.propagate + 1) s.inconsistent s.iterating s.conflicts s.decisions
          s.proof s.options
      have hg1 : Growth (0 < ·) s0 { s with propagate := s.propagate + 1 } :=
        hg.congr (fun r hr => ⟨hr, .refl _⟩) (fun _ _ h => h) rfl (fun _ => rfl) rfl rfl
      obtain ⟨hfz, hok2, hw2, hg2, hq2⟩ :=
        propagateLiteralBeyond_ok hA hok1 hw1 (lit := lit) hk hf hkw hg1
      generalize hs' : propagateLiteralBeyond { s with propagate := s.propagate + 1 } lit = s' at *
      have hprop : s'.propagate = s.propagate + 1 := hfz.propagate
      have hvars : s'.vars = s.vars := hfz.vars
      have hlt := (List.getElem?_eq_some_iff.1 hk).1
      obtain ⟨e, he⟩ := hfz.trail
      obtain ⟨f1, f2, f3, f4, f5, f6, f7⟩ := propagateBeyond_ok hA n hok2 hw2
        (by rw [hfz.frames, hprop]; intro f hf'; exact Nat.le_succ_of_le (hf f hf'))
        (by omega) (by rw [hprop, he, List.length_append]; show s.propagate + 1 ≤ s.trail.length + _; omega)
        (by omega) hg2
      obtain ⟨e', he'⟩ := f1.trail
      refine ⟨⟨f1.vars.trans hfz.vars, f1.removed.trans hfz.removed, f1.frames.trans hfz.frames,
        f1.level.trans hfz.level, f1.options.trans hfz.options,
        f1.inconsistent.trans hfz.inconsistent, f1.iterating.trans hfz.iterating,
        f1.lastLearned.trans hfz.lastLearned, f1.decisions.trans hfz.decisions, f1.loose.trans hfz.loose, e ++ e', ?_⟩,
        f2.trans hfz.conflicts, f3, f4, f5, f6, (Quiet.of_eq (s := s) (s' := { s with propagate := s.propagate + 1 }) rfl (fun _ _ h => h) rfl).trans
          (hq2.trans f7)⟩
      rw [he', he, List.append_assoc]

/-! ## The decisions of the warm-up -/

/-- The state in the warm-up, compared to the state `r` on the root level it started from. -/
structure Warm (orig : Base) (G : Assignment → Prop) (r s : Solver) : Prop where
  ok : Ok orig G s
  watching : Watching s r.trail.length
  frames : ∀ f ∈ s.frames, r.trail.length ≤ f.trail ∧ f.trail ≤ s.propagate
  first : ∀ f, s.frames[0]? = some f → f.trail = r.trail.length
  complete : s.propagate = s.trail.length
  live : ∀ c, s.Live c → r.Live c ∧ (s.clause c).lits.Perm (r.clause c).lits
  bin : ∀ a b, Watch.binary b ∈ s.watches a → Watch.binary b ∈ r.watches a
  old : ∀ x, r.values x ≠ 0 → s.values x = r.values x ∧ s.lev x = r.lev x
  new : ∀ x, r.values x = 0 → s.values x ≠ 0 → 0 < s.lev x
  trail : ∃ e, s.trail = r.trail ++ e ∧ ∀ x ∈ e, 0 < s.lev x
  quiet : Quiet r s
  kept : Kept r s
  conflicts : s.conflicts = r.conflicts
  iterating : s.iterating = r.iterating

/-- In a propagated root state nothing more is assigned on the root level, whatever is
assigned on higher levels. -/
theorem adequate_warm {orig : Base} {G : Assignment → Prop} {r s1 : Solver}
    (h : PropInv orig G r) (hp : r.propagate = r.trail.length) (hr0 : r.level = 0)
    (hlive : ∀ c, s1.Live c → r.Live c ∧ (s1.clause c).lits.Perm (r.clause c).lits)
    (hbin : ∀ a b, Watch.binary b ∈ s1.watches a → Watch.binary b ∈ r.watches a)
    (hold : ∀ x, r.values x ≠ 0 → s1.values x = r.values x ∧ s1.lev x = r.lev x)
    (hnew : ∀ x, r.values x = 0 → s1.values x ≠ 0 → 0 < s1.lev x) :
    Adequate (0 < ·) s1 := by
  intro s lit hi hg hv
  have hb := Bound.of_complete h hp fun _ => hr0
  have hz : ∀ x, s.values x = 0 → r.values x = 0 := fun x hx =>
    Classical.byContradiction fun hne => by
      obtain ⟨a, _⟩ := hold x hne
      have := (hg.old x (by rw [a]; exact hne)).1
      rw [hx, a] at this
      exact hne this.symm
  have hroot : ∀ x, s.values x ≠ 0 → s.lev x = 0 → r.values x = s.values x := by
    intro x hx hl
    have h1 : s1.values x ≠ 0 := fun e => absurd (hg.new x e hx) (by show ¬ 0 < _; omega)
    obtain ⟨a, b⟩ := hg.old x h1
    have h2 : r.values x ≠ 0 := fun e => absurd (hnew x e h1) (by omega)
    rw [a, (hold x h2).1]
  constructor
  · intro o ho h0
    show 0 < s.lev lit
    apply Classical.byContradiction
    intro hn
    have h1 := hroot lit (by omega) (by omega)
    have := hb.bin _ _ (hbin _ _ (hg.bin _ _ ho)) (by rw [neg_neg, h1]; exact hv)
    have := hz o h0
    omega
  · intro c o hc ho h0 hm
    obtain ⟨g1, g2⟩ := hg.live c hc
    obtain ⟨g3, g4⟩ := hlive c g1
    have g := g2.trans g4
    show 0 < s.assignmentLevel o (s.clause c).lits
    apply Classical.byContradiction
    intro hn
    have h1 := hb.large c g3 o (g.mem_iff.1 ho) fun m hm' hmo => by
      have hmr := g.mem_iff.2 hm'
      have hle := assignmentLevel_ge s o (s.clause c).lits hmr hmo
      have hv := hm m hmr hmo
      have := hroot m (by omega) (by omega)
      have := h.ok.inv.trail.anti m
      omega
    have := hz o h0
    omega

theorem Warm.refl {orig : Base} {G : Assignment → Prop} {r : Solver} (h : PropInv orig G r)
    (hp : r.propagate = r.trail.length) (h0 : r.level = 0) : Warm orig G r r := by
  have hfr : r.frames = [] := List.eq_nil_of_length_eq_zero (h.ok.inv.trail.frames.trans h0)
  refine ⟨h.ok, hp ▸ h.watching, by rw [hfr]; simp, by rw [hfr]; simp, hp,
    fun c hc => ⟨hc, .refl _⟩, fun _ _ h => h, fun _ _ => ⟨rfl, rfl⟩, fun x h0 h1 => absurd h0 h1,
    ⟨[], by simp, by simp⟩, .refl _, .refl _, rfl, rfl⟩

/-- One decision of the warm-up with its propagation. -/
theorem Warm.decision {orig : Base} {G : Assignment → Prop} {r s : Solver} (hr : PropInv orig G r)
    (hrp : r.propagate = r.trail.length) (hr0 : r.level = 0) (h : Warm orig G r s) {lit : Nat}
    (h0 : s.values lit = 0) (hval : s.Valid lit) :
    Warm orig G r (propagateBeyond (s.vars + 1) (s.assume lit)) := by
  have ht := h.ok.inv.trail
  obtain ⟨e, he, hel⟩ := h.trail
  have hlen : r.trail.length ≤ s.trail.length := by rw [he]; simp
  have hlr : ∀ x, r.values x ≠ 0 → s.values x ≠ 0 := fun x hx => by rw [(h.old x hx).1]; exact hx
  obtain ⟨hok, hw⟩ := assume_ok h.ok h.watching hlen h0 hval
  have hf : (s.assume lit).arena = s.arena ∧ (s.assume lit).watches = s.watches ∧
      (s.assume lit).proof = s.proof ∧ (s.assume lit).trail = s.trail ++ [lit] ∧
      (s.assume lit).propagate = s.propagate ∧ (s.assume lit).vars = s.vars ∧
      (s.assume lit).frames = s.frames ++ [⟨lit, s.trail.length⟩] ∧
      Kept s (s.assume lit) ∧ (s.assume lit).conflicts = s.conflicts ∧
      (s.assume lit).iterating = s.iterating := by
    have hroot : ∀ x, s.values x ≠ 0 → s.lev x = 0 →
        (s.assume lit).values x = s.values x ∧ (s.assume lit).lev x = 0 := fun x hx hx0 => by
      obtain ⟨a, b⟩ := assume_old ht h0 hx
      exact ⟨a, b.trans hx0⟩
    rw [assume_eq] at hroot ⊢
    exact ⟨rfl, rfl, rfl, rfl, rfl, rfl, rfl, ⟨rfl, rfl, rfl, rfl, rfl, rfl, hroot⟩, rfl, rfl⟩
  have hlevel : 0 < (s.assume lit).lev lit := by rw [assume_lev, if_pos rfl]; omega
  have hold1 : ∀ x, r.values x ≠ 0 →
      (s.assume lit).values x = r.values x ∧ (s.assume lit).lev x = r.lev x := fun x hx => by
    obtain ⟨a, b⟩ := assume_old ht h0 (hlr x hx)
    rw [a, b]; exact h.old x hx
  have hnew1 : ∀ x, r.values x = 0 → (s.assume lit).values x ≠ 0 → 0 < (s.assume lit).lev x := by
    intro x hx hx1
    by_cases hs : s.values x = 0
    · rw [assume_lev]
      split
      · omega
      · rename_i hne
        rw [assume_values, if_neg, if_neg] at hx1
        · exact absurd hs hx1
        · rintro rfl; exact hne rfl
        · rintro rfl; exact hne (neg_div lit)
    · rw [(assume_old ht h0 hs).2]; exact h.new x hx hs
  have hcl : ∀ c, (s.assume lit).clause c = s.clause c := fun c => by
    unfold Solver.clause; rw [hf.1]
  have hlive1 : ∀ c, (s.assume lit).Live c →
      r.Live c ∧ ((s.assume lit).clause c).lits.Perm (r.clause c).lits := fun c hc => by
    unfold Solver.Live at hc
    rw [hcl] at hc ⊢
    exact h.live c hc
  have hbin1 : ∀ a b, Watch.binary b ∈ (s.assume lit).watches a → Watch.binary b ∈ r.watches a :=
    fun a b hab => h.bin a b (by rw [hf.2.1] at hab; exact hab)
  have hA := adequate_warm hr hrp hr0 hlive1 hbin1 hold1 hnew1
  obtain ⟨g1, g2, g3, g4, g5, g6, g7⟩ := propagateBeyond_ok hA (s.vars + 1) hok hw
    (by
      intro f hm
      rw [hf.2.2.2.2.1]
      rw [hf.2.2.2.2.2.2.1] at hm
      rcases List.mem_append.1 hm with hm | hm
      · exact (h.frames f hm).2
      · rw [List.mem_singleton.1 hm]; exact Nat.le_of_eq h.complete.symm)
    (by rw [hf.2.2.2.2.1, h.complete]; exact hlen)
    (by rw [hf.2.2.2.2.1, hf.2.2.2.1, h.complete]; simp)
    (by rw [hf.2.2.2.2.2.1]; omega) (.refl _ _)
  generalize propagateBeyond (s.vars + 1) (s.assume lit) = u at *
  obtain ⟨e', he', hel'⟩ := g6.trail
  refine ⟨g3, g4, ?_, ?_, g5, ?_, ?_, ?_, ?_, ⟨e ++ ([lit] ++ e'), ?_, ?_⟩, ?_, ?_, ?_, ?_⟩
  · intro f hm
    rw [g1.frames, hf.2.2.2.2.2.2.1] at hm
    have hle : s.trail.length ≤ u.propagate := by
      rw [g5, he', hf.2.2.2.1]; simp
    rcases List.mem_append.1 hm with hm | hm
    · have := h.frames f hm
      exact ⟨this.1, by have := h.complete; omega⟩
    · rw [List.mem_singleton.1 hm]; exact ⟨hlen, hle⟩
  · intro f hm
    rw [g1.frames, hf.2.2.2.2.2.2.1] at hm
    cases hfr : s.frames with
    | nil =>
      rw [hfr] at hm
      simp only [List.nil_append, List.getElem?_cons_zero, Option.some.injEq] at hm
      subst hm
      have hl0 : s.level = 0 := by
        have := ht.frames; rw [hfr] at this; exact this.symm
      have : e = [] := by
        match e, hel, he with
        | [], _, _ => rfl
        | x :: _, hel, he =>
          have hx := hel x (by simp)
          have hxv := ht.tval x (by rw [he]; simp)
          have := ht.levle x hxv
          omega
      show s.trail.length = _
      rw [he, this, List.append_nil]
    | cons g gs =>
      rw [hfr] at hm
      refine h.first f ?_
      rw [hfr]
      simpa using hm
  · intro c hc
    obtain ⟨a, b⟩ := g6.live c hc
    obtain ⟨a', b'⟩ := hlive1 c a
    exact ⟨a', b.trans b'⟩
  · intro a b hab; exact hbin1 a b (g6.bin a b hab)
  · intro x hx
    obtain ⟨a, b⟩ := hold1 x hx
    obtain ⟨a', b'⟩ := g6.old x (by rw [a]; exact hx)
    exact ⟨a'.trans a, b'.trans b⟩
  · intro x hx hx1
    by_cases hs : (s.assume lit).values x = 0
    · exact g6.new x hs hx1
    · rw [(g6.old x hs).2]; exact hnew1 x hx hs
  · rw [he', hf.2.2.2.1, he]; simp
  · have key : ∀ x ∈ s.trail ++ [lit], 0 < (s.assume lit).lev x → 0 < u.lev x := by
      intro x hx hl
      have hT := hok.inv.trail.tval x (by rw [hf.2.2.2.1]; exact hx)
      rw [(g6.old x (by omega)).2]; exact hl
    intro x hx
    simp only [List.mem_append] at hx
    rcases hx with hx | hx | hx
    · have hm : x ∈ s.trail := by rw [he]; simp [hx]
      refine key x (by simp [hm]) ?_
      have := ht.tval x hm
      rw [(assume_old ht h0 (by omega)).2]; exact hel x hx
    · refine key x (by simp only [List.mem_append]; exact .inr hx) ?_
      rw [List.mem_singleton.1 hx]; exact hlevel
    · exact hel' x hx
  · exact (h.quiet.congr hf.1 hf.2.1 hf.2.2.1).trans g7
  · exact h.kept.trans (hf.2.2.2.2.2.2.2.1.trans ⟨g1.vars, g1.removed, g1.options, g1.inconsistent,
      g1.decisions, g1.loose, fun x hx hx0 => ⟨(g6.old x hx).1, (g6.old x hx).2.trans hx0⟩⟩)
  · rw [g2, hf.2.2.2.2.2.2.2.2.1]; exact h.conflicts
  · rw [g1.iterating, hf.2.2.2.2.2.2.2.2.2]; exact h.iterating

/-- The warm-up does not get stuck. -/
theorem warmupLoop_ok {orig : Base} {G : Assignment → Prop} {r : Solver} (hr : PropInv orig G r)
    (hrp : r.propagate = r.trail.length) (hr0 : r.level = 0) {order : List Nat}
    (ho : ∀ v, v ∈ order ↔ v < r.vars ∧ r.removed v = false) :
    ∀ (ds : List (List Nat × Bool)) {s : Solver}, Warm orig G r s →
    ∃ u, warmupLoop order ds s = some u ∧ Warm orig G r u
  | [], s, h => ⟨s, rfl, h⟩
  | (first, phase) :: ds, s, h => by
    unfold warmupLoop
    by_cases hu : s.unassigned = 0
    · rw [if_pos hu]; exact ⟨s, rfl, h⟩
    · rw [if_neg hu]
      have ht := h.ok.inv.trail
      cases hn : nextDecisionVariable s (first.filter (order.contains ·) ++ order) with
      | none =>
        exfalso
        have hall := nextDecisionVariable_none hn
        have hfree : s.free ≠ [] := fun e => hu (by rw [ht.count, e]; rfl)
        obtain ⟨v, hv⟩ := List.exists_mem_of_ne_nil _ hfree
        have hfv : s.Valid (2 * v) ∧ s.values (2 * v) = 0 := by
          rw [← ht.free_iff, show 2 * v / 2 = v by omega]; exact hv
        refine hall v (List.mem_append_right _ ?_) hfv.2
        rw [ho, ← h.kept.vars, ← h.kept.removed]
        have := hfv.1
        unfold Solver.Valid at this
        rwa [show 2 * v / 2 = v by omega] at this
      | some v =>
        simp only
        obtain ⟨hm, h0⟩ := nextDecisionVariable_some hn
        have hmo : v ∈ order := by
          rcases List.mem_append.1 hm with hm | hm
          · simpa using (List.mem_filter.1 hm).2
          · exact hm
        rw [ho, ← h.kept.vars, ← h.kept.removed] at hmo
        have h0' : s.values (if phase then 2 * v else neg (2 * v)) = 0 := by
          split
          · exact h0
          · rw [ht.anti, h0]; rfl
        have hval : s.Valid (if phase then 2 * v else neg (2 * v)) := by
          unfold Solver.Valid
          have : (if phase then 2 * v else neg (2 * v)) / 2 = v := by
            split
            · omega
            · rw [neg_div]; omega
          rw [this]; exact hmo
        exact warmupLoop_ok hr hrp hr0 ho ds (Warm.decision hr hrp hr0 h h0' hval)

/-- What the warm-up as a whole leaves as it was.  The order of literals in clauses and of
watches may change. -/
structure Restored (r s : Solver) : Prop where
  values : s.values = r.values
  trail : s.trail = r.trail
  propagate : s.propagate = r.propagate
  level : s.level = r.level
  lev : ∀ x, r.values x ≠ 0 → s.lev x = r.lev x
  live : ∀ c, s.Live c ↔ r.Live c
  lits : ∀ c, r.Live c → (s.clause c).lits.Perm (r.clause c).lits
  redundant : ∀ c, (s.clause c).redundant = (r.clause c).redundant
  bin : ∀ a b, Watch.binary b ∈ s.watches a ↔ Watch.binary b ∈ r.watches a
  proof : s.proof = r.proof
  kept : Kept r s
  conflicts : s.conflicts = r.conflicts
  iterating : s.iterating = r.iterating

theorem Warm.finish {orig : Base} {G : Assignment → Prop} {r s : Solver} (hr : PropInv orig G r)
    (hrp : r.propagate = r.trail.length) (hr0 : r.level = 0) (h : Warm orig G r s) :
    PropInv orig G (s.backtrack 0) ∧ Restored r (s.backtrack 0) := by
  have ht := h.ok.inv.trail
  have hrt := hr.ok.inv.trail
  have hlive : ∀ c, s.Live c ↔ r.Live c := fun c => by
    unfold Solver.Live; rw [(h.quiet.flags c).1]
  have hbin : ∀ a b, Watch.binary b ∈ s.watches a ↔ Watch.binary b ∈ r.watches a := fun a b =>
    ⟨h.bin a b, h.quiet.bin a b⟩
  obtain ⟨e, he, hel⟩ := h.trail
  have hlev0 : ∀ x, r.values x ≠ 0 → r.lev x = 0 := fun x hx => by
    rcases hrt.dom x with h1 | h1 | h1
    · have := hrt.levle x h1; omega
    · exact absurd h1 hx
    · have := hrt.levle (neg x) (hrt.neg_pos.2 h1); rw [lev_neg] at this; omega
  by_cases h0 : s.level = 0
  · have hs : s.backtrack 0 = s := by unfold Solver.backtrack; rw [if_pos (by omega)]
    rw [hs]
    have hno : ∀ x, s.values x ≠ 0 → s.lev x = 0 := fun x hx => by
      rcases ht.dom x with h1 | h1 | h1
      · have := ht.levle x h1; omega
      · exact absurd h1 hx
      · have := ht.levle (neg x) (ht.neg_pos.2 h1); rw [lev_neg] at this; omega
    have hen : e = [] := by
      match e, hel, he with
      | [], _, _ => rfl
      | x :: _, hel, he =>
        have hx := hel x (by simp)
        have hxv := ht.tval x (by rw [he]; simp)
        have := ht.levle x hxv
        omega
    rw [hen, List.append_nil] at he
    refine ⟨⟨h.ok, ?_, fun f hf => (h.frames f hf).2, Nat.le_of_eq h.complete⟩, ?_⟩
    · rw [h.complete, he]; exact h.watching
    · refine ⟨?_, he, by rw [h.complete, he, hrp], h0.trans hr0.symm, fun x hx => (h.old x hx).2,
        hlive, fun c hc => (h.live c ((hlive c).2 hc)).2, fun c => (h.quiet.flags c).2, hbin,
        h.quiet.proof, h.kept, h.conflicts, h.iterating⟩
      funext x
      by_cases hx : r.values x = 0
      · rw [hx]
        apply Classical.byContradiction
        intro hne
        have h1 := h.new x hx hne
        have h2 := hno x hne
        omega
      · exact (h.old x hx).1
  · obtain ⟨f, hb⟩ := ht.backtracked (m := 0) (Nat.pos_of_ne_zero h0)
    have hfl : f.trail = r.trail.length := h.first f hb.frame
    have htr : (s.backtrack 0).trail = r.trail := by
      rw [hb.trail, he, List.filter_append]
      have h1 : r.trail.filter (fun l => decide (s.lev l ≤ 0)) = r.trail := by
        rw [List.filter_eq_self]
        intro l hl
        have hv := hrt.tval l hl
        have h1 := (h.old l (by omega)).2
        have h2 := hlev0 l (by omega)
        simp; omega
      have h2 : e.filter (fun l => decide (s.lev l ≤ 0)) = [] := by
        rw [List.filter_eq_nil_iff]
        intro l hl
        have := hel l hl
        simp; omega
      rw [h1, h2, List.append_nil]
    have hprop : (s.backtrack 0).propagate = r.trail.length := by rw [hb.propagate, hfl]
    refine ⟨⟨hb.ok (h.ok.at (s.level + 1) 0 (Nat.le_refl _)) (Nat.pos_of_ne_zero h0) (by omega),
      ?_, hb.framesLe ht, ?_⟩, ?_⟩
    · have hX := hb.watchingX ht (h.watching.x (fun _ _ => False) (fun _ _ => False))
        (Nat.le_of_eq hfl)
      rw [hb.propagate]
      exact ⟨fun c hc w hw => hX.large c w id hc hw, fun w o => hX.binary w o id⟩
    · rw [hprop, htr]; exact Nat.le_refl _
    · refine ⟨?_, htr, by rw [hprop, hrp], hb.level.trans hr0.symm, fun x hx => ?_,
        fun c => (hb.live c).trans (hlive c), fun c hc => ?_, fun c => ?_,
        fun a b => by rw [hb.watches]; exact hbin a b, hb.proof.trans h.quiet.proof,
        h.kept.trans hb.back.kept, hb.conflicts.trans h.conflicts,
        hb.iterating.trans h.iterating⟩
      · funext x
        rw [hb.values]
        by_cases hx : r.values x = 0
        · rw [hx]
          split
          · rfl
          · rename_i hne
            apply Classical.byContradiction
            intro hv
            exact hne ⟨hv, h.new x hx hv⟩
        · have h1 := h.old x hx
          have h2 := hlev0 x hx
          rw [if_neg (by omega)]; exact h1.1
      · rw [hb.lev]; exact (h.old x hx).2
      · rw [hb.clause]; exact (h.live c ((hlive c).2 hc)).2
      · rw [hb.clause]; exact (h.quiet.flags c).2

/-- `kissat_warmup` from a propagated state on the root level: does not get stuck and
leaves assignment, clauses and proof as they were. -/
theorem warmup_ok {orig : Base} {G : Assignment → Prop} {r : Solver} (hr : PropInv orig G r)
    (hrp : r.propagate = r.trail.length) (hr0 : r.level = 0) {order : List Nat}
    (ho : ∀ v, v ∈ order ↔ v < r.vars ∧ r.removed v = false) (ds : List (List Nat × Bool)) :
    ∃ u, warmup order ds r = some u ∧ PropInv orig G u ∧ Restored r u := by
  obtain ⟨s, h1, h2⟩ := warmupLoop_ok hr hrp hr0 ho ds (.refl hr hrp hr0)
  refine ⟨s.backtrack 0, by unfold warmup; rw [h1]; rfl, h2.finish hr hrp hr0⟩

end Verif.Core
