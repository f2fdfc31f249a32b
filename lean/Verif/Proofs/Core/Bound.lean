import Verif.Proofs.Core.Back

/-! # Propagation stays inside every set of literals closed under unit propagation -/

namespace Verif.Core

open Verif.Spec

/-- `B` is a consistent set of literals which contains all true literals and is closed
under unit propagation. -/
structure Bound (B : Nat → Prop) (s : Solver) : Prop where
  val : ∀ x, s.values x = 1 → B x
  large : ∀ r, s.Live r → ∀ u ∈ (s.clause r).lits,
    (∀ m ∈ (s.clause r).lits, m ≠ u → B (neg m)) → B u
  bin : ∀ a b, Watch.binary b ∈ s.watches a → B (neg a) → B b
  con : ∀ x, B x → B (neg x) → False

theorem binary_mem_virtW {n a b : Nat} {t : Loop} {ws : List Watch} :
    Watch.binary b ∈ virtW n t ws a ↔
      if a = n then Watch.binary b ∈ t.kept ∨ Watch.binary b ∈ ws
      else Watch.binary b ∈ t.s.watches a := by
  unfold virtW
  rw [List.mem_append]
  have : ¬ Watch.binary b ∈ t.delayed.filterMap
      (fun d => if d.1 = a then some (Watch.large d.2.1 d.2.2) else none) := by
    rw [List.mem_filterMap]
    rintro ⟨d, _, hd⟩
    split at hd <;> cases hd
  split <;> simp [this]

theorem Bound.congr {B : Nat → Prop} {s s' : Solver} (h : Bound B s)
    (hv : ∀ x, s'.values x = 1 → B x)
    (hl : ∀ r, s'.Live r → s.Live r ∧ (s'.clause r).lits.Perm (s.clause r).lits)
    (hw : ∀ a b, Watch.binary b ∈ s'.watches a → Watch.binary b ∈ s.watches a) : Bound B s' := by
  refine ⟨hv, ?_, fun a b hab => h.bin a b (hw a b hab), h.con⟩
  intro r hr u hu hm
  obtain ⟨h1, h2⟩ := hl r hr
  exact h.large r h1 u (h2.mem_iff.1 hu) fun m hm' hne => hm m (h2.mem_iff.2 hm') hne

section
variable {orig : Base} {G : Assignment → Prop} {K : Prop} {kw lit k lv : Nat} {t : Loop} {w : Watch}
  {ws : List Watch} {B : Nat → Prop}

theorem Bound.assign {s : Solver} (h : Bound B s) {level x : Nat} {reason : Reason} (hx : B x) :
    Bound B (s.assign level x reason) := by
  have hf := assign_fields s level x reason
  refine h.congr ?_ ?_ ?_
  · intro y hy
    rw [assign_values] at hy
    split at hy
    · cases hy
    · split at hy
      · rename_i e; rw [e]; exact hx
      · exact h.val y hy
  · intro r hr
    have : (s.assign level x reason).clause r = s.clause r := by
      unfold Solver.clause; rw [hf.2.2.2.1]
    unfold Solver.Live at hr ⊢
    rw [this] at hr ⊢
    exact ⟨hr, .refl _⟩
  · intro a b hab
    rw [hf.2.2.2.2.1] at hab; exact hab

theorem Bound.keep (h : Bound B (virt (neg lit) t (w :: ws))) {w' : Watch}
    (hw' : ∀ b, w' = .binary b → w = .binary b) :
    Bound B (virt (neg lit) { t with kept := t.kept ++ [w'] } ws) := by
  refine h.congr h.val (fun r hr => ⟨hr, .refl _⟩) ?_
  intro a b hab
  have hab : Watch.binary b ∈ virtW _ _ _ _ := hab
  show Watch.binary b ∈ virtW _ _ _ _
  rw [binary_mem_virtW] at hab ⊢
  split
  · rename_i e
    rw [if_pos e] at hab
    rcases hab with hab | hab
    · rcases List.mem_append.1 hab with hab | hab
      · exact .inl hab
      · right; rw [hw' b (List.mem_singleton.1 hab).symm]; simp
    · right; simp [hab]
  · rename_i e; rw [if_neg e] at hab; exact hab

theorem Bound.skip (h : Bound B (virt (neg lit) t (w :: ws))) :
    Bound B (virt (neg lit) t ws) := by
  refine h.congr h.val (fun r hr => ⟨hr, .refl _⟩) ?_
  intro a b hab
  have hab : Watch.binary b ∈ virtW _ _ _ _ := hab
  show Watch.binary b ∈ virtW _ _ _ _
  rw [binary_mem_virtW] at hab ⊢
  split
  · rename_i e
    rw [if_pos e] at hab
    rcases hab with hab | hab
    · exact .inl hab
    · right; simp [hab]
  · rename_i e; rw [if_neg e] at hab; exact hab

theorem virt_assign (n : Nat) (t : Loop) (ws : List Watch) (level x : Nat) (reason : Reason) :
    virt n { t with s := t.s.assign level x reason } ws =
      (virt n t ws).assign level x reason := by
  have e : (t.s.assign level x reason).watches = t.s.watches := (assign_fields _ _ _ _).2.2.2.2.1
  unfold virt
  refine Eq.trans ?_ (assign_watches t.s level x reason _).symm
  unfold virtW
  simp only [e]

theorem Bound.step (hi : LoopInvG orig G K kw lit k lv t (w :: ws))
    (h : Bound B (virt (neg lit) t (w :: ws))) :
    Bound B (virt (neg lit) (propagateWatch lv (neg lit) w t).1 ws) := by
  obtain ⟨hv1, hv2⟩ := hi.values
  have hBl : B lit := h.val lit hv1
  have hdom : ∀ x, t.s.values x = 1 ∨ t.s.values x = 0 ∨ t.s.values x = -1 :=
    hi.ok.inv.trail.dom
  have hBneg : ∀ x, t.s.values x = -1 → B (neg x) := fun x hx =>
    h.val (neg x) (hi.ok.inv.trail.neg_pos.2 hx)
  unfold propagateWatch
  cases w with
  | binary o =>
    simp only
    have hk := h.keep (w' := .binary o) (fun b e => e)
    by_cases h1 : 0 < t.s.values o
    · rw [if_pos h1]; exact hk
    · rw [if_neg h1]
      by_cases h2 : t.s.values o < 0
      · rw [if_pos h2]; exact hk
      · rw [if_neg h2]
        show Bound B (virt (neg lit) { t with
          s := t.s.fastAssignBinary lv o (neg lit), kept := t.kept ++ [.binary o] } ws)
        unfold Solver.fastAssignBinary
        have := virt_assign (neg lit) { t with kept := t.kept ++ [.binary o] } ws lv o
          (.binary (jumpReason (t.s.assigned (neg lit / 2))
            (t.s.options.jumpreasons && t.s.options.bigbig) (neg lit)))
        simp only at this ⊢
        rw [this]
        refine hk.assign (h.bin (neg lit) o hi.head ?_)
        rw [neg_neg]; exact hBl
  | large b r =>
    simp only
    have hk : ∀ b', Bound B (virt (neg lit) { t with kept := t.kept ++ [.large b' r] } ws) :=
      fun b' => h.keep (w' := .large b' r) (fun _ e => by cases e)
    by_cases hb : 0 < t.s.values b
    · rw [if_pos hb]; exact hk b
    · rw [if_neg hb]
      unfold propagateLarge
      simp only
      by_cases hg : (t.s.clause r).garbage = true
      · rw [if_pos hg]; exact h.skip
      · rw [if_neg hg]
        have hlive : t.s.Live r := by simpa [Solver.Live] using hg
        have hback := hi.ok.inv.watch.back _ _ _ hi.head hlive
        have hsize := hi.ok.inv.clause.size r hlive
        have hsea := hi.ok.inv.clause.searched r hlive
        have hc : (virt (neg lit) t (.large b r :: ws)).clause r = t.s.clause r := rfl
        rw [hc] at hback hsize hsea
        obtain ⟨x, y, rest, other, hlits, hother, hxy⟩ := watched_split hsize hback.1
        rw [hother]
        by_cases hpos : 0 < t.s.values other
        · rw [if_pos hpos]; exact hk other
        · rw [if_neg hpos]
          cases hfr : findReplacement t.s.values (t.s.clause r).lits (t.s.clause r).searched with
          | some p =>
            simp only
            obtain ⟨hp2, hplt, hpv⟩ := findReplacement_some hfr hsea.1
            generalize hrep : (t.s.clause r).lits.getD p 0 = rep at hpv
            obtain ⟨i, rfl⟩ : ∃ i, p = 2 + i := ⟨p - 2, by omega⟩
            have hget : rest[i]? = some rep := by
              rw [hlits, List.getD_eq_getElem?_getD, show 2 + i = i + 1 + 1 by omega,
                List.getElem?_cons_succ, List.getElem?_cons_succ] at hrep
              rw [hlits] at hplt
              simp only [List.length_cons] at hplt
              rw [List.getElem?_eq_getElem (by omega)] at hrep ⊢
              simpa using hrep
            have hp : ((((t.s.clause r).lits.set 0 other).set 1 rep).set (2 + i) (neg lit)).Perm
                (t.s.clause r).lits := by
              rw [hlits]; exact replace_perm hxy hget
            have hlt := clause_lt hlive
            refine h.congr h.val ?_ ?_
            · intro r' hr'
              by_cases e : r' = r
              · subst e
                refine ⟨hlive, ?_⟩
                show ((t.s.setClause r' _).clause r').lits.Perm _
                rw [setClause_same hlt]; exact hp
              · have hcl : ∀ c, (t.s.setClause r c).clause r' = t.s.clause r' :=
                  fun c => setClause_other e
                unfold Solver.Live at hr' ⊢
                have hr' : ((t.s.setClause r _).clause r').garbage = false := hr'
                rw [hcl] at hr'
                refine ⟨hr', ?_⟩
                show ((t.s.setClause r _).clause r').lits.Perm _
                rw [hcl]; exact .refl _
            · intro a o hab
              have hab : Watch.binary o ∈ virtW _ _ _ _ := hab
              show Watch.binary o ∈ virtW _ _ _ _
              rw [binary_mem_virtW] at hab ⊢
              split
              · rename_i e
                rw [if_pos e] at hab
                rcases hab with hab | hab
                · exact .inl hab
                · right; simp [hab]
              · rename_i e; rw [if_neg e] at hab; exact hab
          | none =>
            simp only
            by_cases hnz : t.s.values other ≠ 0
            · rw [if_pos hnz]; exact hk b
            · rw [if_neg hnz]
              have hmo : other ∈ (t.s.clause r).lits := by
                rw [hlits]
                rcases hxy with ⟨rfl, _⟩ | ⟨_, rfl⟩ <;> simp
              have hBo : B other := by
                refine h.large r hlive other hmo fun m hm hne => hBneg m ?_
                have hm : m ∈ (t.s.clause r).lits := hm
                have hrest := findReplacement_none hfr
                rw [hlits] at hrest hm
                have hd := hdom m
                simp only [List.mem_cons] at hm
                rcases hm with rfl | rfl | hm
                · rcases hxy with ⟨rfl, rfl⟩ | ⟨rfl, rfl⟩
                  · exact absurd rfl hne
                  · exact hv2
                · rcases hxy with ⟨rfl, rfl⟩ | ⟨rfl, rfl⟩
                  · exact hv2
                  · exact absurd rfl hne
                · have := hrest m hm
                  omega
              unfold Solver.assignReference
              have := virt_assign (neg lit) { t with kept := t.kept ++ [.large b r] } ws
                (t.s.assignmentLevel other (t.s.clause r).lits) other (.large r)
              simp only at this ⊢
              rw [this]
              exact (hk b).assign hBo

theorem Bound.conflict {s : Solver} (h : Bound B s) (hi : Inv s) {c : Conflict}
    (hc : ConflictOk s c) : False := by
  have hBneg : ∀ x, s.values x = -1 → B (neg x) := fun x hx =>
    h.val (neg x) (hi.trail.neg_pos.2 hx)
  cases c with
  | binary a b =>
    obtain ⟨h1, h2, h3⟩ := hc
    exact h.con b (h.bin a b h1 (hBneg a h2)) (hBneg b h3)
  | large r =>
    obtain ⟨h1, h2⟩ := hc
    have hs := hi.clause.size r h1
    obtain ⟨u, hu⟩ : ∃ u, u ∈ (s.clause r).lits := by
      cases hl : (s.clause r).lits with
      | nil => rw [hl] at hs; simp at hs
      | cons x l => exact ⟨x, by simp⟩
    exact h.con u (h.large r h1 u hu fun m hm _ => hBneg m (h2 m hm)) (hBneg u (h2 u hu))

theorem Bound.watches : ∀ {ws : List Watch} {t : Loop}, LoopInv orig G lit k lv t ws →
    Bound B (virt (neg lit) t ws) →
    Bound B (virt (neg lit) (propagateWatches lv (neg lit) ws t).1 []) ∧
    (propagateWatches lv (neg lit) ws t).2 = none
  | [], t, _, hb => ⟨hb, rfl⟩
  | w :: ws, t, h, hb => by
    have hs := h.step
    have hb' := Bound.step h hb
    unfold propagateWatches
    cases hp : propagateWatch lv (neg lit) w t with
    | mk t' c =>
      rw [hp] at hs hb'
      cases c with
      | none => exact Bound.watches hs.2 hb'
      | some c => exact (hb'.conflict hs.2.1.inv hs.2.2.2.1).elim

end

theorem Bound.literal {orig : Base} {G : Assignment → Prop} {B : Nat → Prop} {s : Solver}
    {lit k : Nat} (hok : Ok orig G s) (hw : Watching s k) (hk : s.trail[k]? = some lit)
    (hf : ∀ f ∈ s.frames, f.trail ≤ k) (hb : Bound B s) :
    Bound B (propagateLiteral s lit).1 ∧ (propagateLiteral s lit).2 = none := by
  have e0 : virt (neg lit) ⟨s, [], []⟩ (s.watches (neg lit)) = s := by
    unfold virt virtW
    have : (fun l => (if l = neg lit then [] ++ s.watches (neg lit) else s.watches l) ++
        List.filterMap (fun d : Nat × Nat × Nat =>
          if d.1 = l then some (Watch.large d.2.1 d.2.2) else none) []) = s.watches := by
      funext l
      by_cases hl : l = neg lit
      · subst hl; simp
      · simp [hl]
    simp only at this ⊢
    rw [this]
  have h0 : LoopInv orig G lit k (s.lev lit) ⟨s, [], []⟩ (s.watches (neg lit)) :=
    ⟨e0.symm ▸ hok, e0.symm ▸ hw, hk, hf, by simp, by simp, by simp, rfl, Nat.le_refl _⟩
  have h1 := Bound.watches h0 (e0.symm ▸ hb)
  unfold propagateLiteral
  simp only
  cases hp : propagateWatches (s.lev lit) (neg lit) (s.watches (neg lit)) ⟨s, [], []⟩ with
  | mk t c =>
    rw [hp] at h1
    simp only
    rw [watchDelayed_virt]
    exact h1

/-- Propagation below a closed consistent set of literals finds no conflict. -/
theorem Bound.loop {orig : Base} {G : Assignment → Prop} {B : Nat → Prop} :
    ∀ (n : Nat) {s : Solver}, PropInv orig G s → Bound B s →
    Bound B (propagateLoop n s).1 ∧ (propagateLoop n s).2 = none
  | 0, s, _, hb => ⟨hb, rfl⟩
  | n + 1, s, h, hb => by
    unfold propagateLoop
    cases hk : s.trail[s.propagate]? with
    | none => exact ⟨hb, rfl⟩
    | some lit =>
      simp only
      have hok : Ok orig G { s with propagate := s.propagate + 1 } :=
        h.ok.misc (s.propagate + 1) s.iterating s.conflicts s.decisions s.options
      have hw : Watching { s with propagate := s.propagate + 1 } s.propagate :=
        h.watching.misc (s.propagate + 1) s.inconsistent s.iterating s.conflicts s.decisions
          s.proof s.options
      have hb1 : Bound B { s with propagate := s.propagate + 1 } := ⟨hb.1, hb.2, hb.3, hb.4⟩
      have hp := propagateLiteral_ok hok hw (lit := lit) hk h.frames
      have hb2 := Bound.literal hok hw (lit := lit) hk h.frames hb1
      cases hres : propagateLiteral { s with propagate := s.propagate + 1 } lit with
      | mk s' c =>
        rw [hres] at hp hb2
        obtain ⟨hfz, hok', hp⟩ := hp
        obtain ⟨hb2, hc⟩ := hb2
        simp only at hfz hok' hp hb2 hc
        subst hc
        simp only at hp ⊢
        have hprop : s'.propagate = s.propagate + 1 := hfz.propagate
        refine Bound.loop n ⟨hok', by rw [hprop]; exact hp, ?_, ?_⟩ hb2
        · rw [hfz.frames, hprop]; intro f hf; exact Nat.le_succ_of_le (h.frames f hf)
        · rw [hprop]
          obtain ⟨e, he⟩ := hfz.trail
          have := (List.getElem?_eq_some_iff.1 hk).1
          rw [he, List.length_append]
          show s.propagate + 1 ≤ s.trail.length + _
          omega

/-- A completely propagated state has no conflict. -/
theorem PropInv.noConflict {orig : Base} {G : Assignment → Prop} {s : Solver}
    (h : PropInv orig G s) (hp : s.propagate = s.trail.length) (c : Conflict) : ¬ ConflictOk s c := by
  have hnot : ∀ x, x ∉ s.trail.drop s.propagate := by rw [hp]; simp
  cases c with
  | binary a b =>
    rintro ⟨h1, h2, h3⟩
    obtain ⟨t, ht1, ht2, _⟩ := h.watching.binary a b h1 h2 (hnot _)
    rw [List.mem_singleton.1 ht1] at ht2
    omega
  | large r =>
    rintro ⟨hr, hall⟩
    have hno : ∀ w, ¬ s.Satisfying (s.clause r).lits w := by
      rintro w ⟨t, h1, h2, _⟩
      have := hall t h1
      omega
    have hmem : ∀ w, (s.clause r).Watched w → w ∈ (s.clause r).lits := by
      rintro w (h | h) <;> exact List.mem_iff_getElem?.2 ⟨_, h⟩
    have hsize := h.ok.inv.clause.size r hr
    have hw : (s.clause r).Watched (s.clause r).lits[0] := .inl (List.getElem?_eq_getElem _)
    rcases h.watching.large r hr _ hw (hall _ (hmem _ hw)) (hnot _) with h1 | ⟨_, _, v, h2, _, h3, _⟩
    · exact hno _ h1
    · exact hno _ (h3 (hall _ (hmem _ h2)) (hnot _))

/-- A completely propagated state bounds all states with fewer literals. -/
theorem Bound.of_complete {orig : Base} {G : Assignment → Prop} {s : Solver}
    (h : PropInv orig G s) (hp : s.propagate = s.trail.length)
    (hl : s.loose = true → s.level = 0) : Bound (fun x => s.values x = 1) s := by
  have ht := h.ok.inv.trail
  have hnot : ∀ x, x ∉ s.trail.drop s.propagate := by rw [hp]; simp
  refine ⟨fun x hx => hx, ?_, ?_, ?_⟩
  · intro r hr u hu hm
    have hfalse : ∀ m ∈ (s.clause r).lits, m ≠ u → s.values m = -1 := fun m h1 h2 =>
      ht.neg_pos.1 (hm m h1 h2)
    have hsize := h.ok.inv.clause.size r hr
    have hnd := h.ok.inv.clause.nodup r hr
    match hlits : (s.clause r).lits with
    | [] => rw [hlits] at hsize; simp at hsize
    | [_] => rw [hlits] at hsize; simp at hsize
    | a :: b :: rest =>
      have hab : a ≠ b := by rw [hlits] at hnd; intro e; subst e; simp at hnd
      obtain ⟨w, hw, hne⟩ : ∃ w, (s.clause r).Watched w ∧ w ≠ u := by
        by_cases e : a = u
        · exact ⟨b, .inr (by rw [hlits]; rfl), fun e' => hab (e.trans e'.symm)⟩
        · exact ⟨a, .inl (by rw [hlits]; rfl), e⟩
      have hwm : w ∈ (s.clause r).lits := by
        rcases hw with h | h <;> exact List.mem_iff_getElem?.2 ⟨_, h⟩
      obtain ⟨t, ht1, ht2, _⟩ := (h.watching.large r hr w hw (hfalse w hwm hne) (hnot _)).resolve_right
        (fun e => e.2.1 (by
          have := ht.levle (neg w) (hm w hwm hne)
          rw [lev_neg, hl e.1] at this
          omega))
      by_cases e : t = u
      · subst e; exact ht2
      · have := hfalse t ht1 e; omega
  · intro a b hab ha
    obtain ⟨t, ht1, ht2, _⟩ := h.watching.binary a b hab (ht.neg_pos.1 ha) (hnot _)
    rw [List.mem_singleton.1 ht1] at ht2; exact ht2
  · intro x h1 h2
    have := ht.anti x
    omega

end Verif.Core
