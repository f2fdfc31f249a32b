import Verif.Proofs.Kitten.Backtrack

/-! # Conflict analysis of kitten -/

namespace Verif.Kitten

open Verif.Spec
open Verif.Core (upd)

/-- Marked literals of the current level. -/
def openLit (k : Kitten) (marks : List Nat) (l : Nat) : Bool := decide (l / 2 ∈ marks ∧ k.lev l = k.level)

theorem openLit_iff {k : Kitten} {marks : List Nat} {l : Nat} :
    openLit k marks l = true ↔ l / 2 ∈ marks ∧ k.lev l = k.level := by simp [openLit]

/-- State of the analysis. -/
structure AInv (k : Kitten) (rev : List Nat) (s : Analysis) : Prop where
  marked : ∀ v ∈ s.marks, ∃ l, l / 2 = v ∧ k.values l = -1 ∧ (k.lev l < k.level → l ∈ s.rest)
  rest : ∀ l ∈ s.rest, k.values l = -1 ∧ k.lev l < k.level ∧ l / 2 ∈ s.marks ∧ k.lev l ≤ s.jump
  nodup : (s.rest.map (· / 2)).Nodup
  count : s.opened = rev.countP (openLit k s.marks)
  none : s.rest = [] → s.jump = 0
  head : ∀ l ls, s.rest = l :: ls → k.lev l = s.jump
  jump : s.jump < k.level

theorem countP_insert {p q : Nat → Bool} {x : Nat} : ∀ {ls : List Nat}, ls.Nodup → x ∈ ls → p x = false → q x = true →
    (∀ y ∈ ls, y ≠ x → q y = p y) → ls.countP q = ls.countP p + 1 := by
  intro ls
  induction ls with
  | nil => intro _ h; cases h
  | cons a ls ih =>
    intro hn hx hp hq h
    have hn := List.nodup_cons.1 hn
    rcases List.mem_cons.1 hx with rfl | hx
    · have : ls.countP q = ls.countP p := List.countP_congr fun y hy => by
        rw [h y (List.mem_cons_of_mem _ hy) (by rintro rfl; exact hn.1 hy)]
      rw [List.countP_cons, List.countP_cons, hp, hq, this]
      simp
    · have hax : a ≠ x := by rintro rfl; exact hn.1 hx
      rw [List.countP_cons, List.countP_cons, h a List.mem_cons_self hax,
        ih hn.2 hx hp hq fun y hy => h y (List.mem_cons_of_mem _ hy)]
      omega

theorem push_rest (s : Analysis) (level lit : Nat) : (s.push level lit).rest.Perm (lit :: s.rest) := by
  unfold Analysis.push
  split
  · cases h : s.rest with
    | nil => exact .refl _
    | cons f o =>
      refine List.Perm.cons _ ?_
      exact List.perm_append_comm (l₁ := o) (l₂ := [f])
  · exact List.perm_append_comm (l₁ := s.rest) (l₂ := [lit])

@[simp] theorem push_marks (s : Analysis) (level lit : Nat) : (s.push level lit).marks = s.marks := by
  unfold Analysis.push
  split
  · cases s.rest <;> rfl
  · rfl

@[simp] theorem push_opened (s : Analysis) (level lit : Nat) : (s.push level lit).opened = s.opened := by
  unfold Analysis.push
  split
  · cases s.rest <;> rfl
  · rfl

@[simp] theorem push_resolved (s : Analysis) (level lit : Nat) : (s.push level lit).resolved = s.resolved := by
  unfold Analysis.push
  split
  · cases s.rest <;> rfl
  · rfl

theorem push_jump (s : Analysis) (level lit : Nat) : (s.push level lit).jump = max s.jump level := by
  unfold Analysis.push
  split
  · rename_i h
    have : max s.jump level = level := by omega
    cases s.rest <;> simp [this]
  · show s.jump = _
    omega

theorem push_head (s : Analysis) (k : Kitten) (lit : Nat) (hn : s.rest = [] → s.jump = 0)
    (hh : ∀ l ls, s.rest = l :: ls → k.lev l = s.jump) :
    ∀ l ls, (s.push (k.lev lit) lit).rest = l :: ls → k.lev l = (s.push (k.lev lit) lit).jump := by
  intro l ls h
  unfold Analysis.push at h ⊢
  by_cases hj : s.jump < k.lev lit
  · rw [if_pos hj] at h ⊢
    cases hr : s.rest with
    | nil => rw [hr] at h; simp only at h ⊢; rw [List.cons.injEq] at h; rw [← h.1]
    | cons f o => rw [hr] at h; simp only at h ⊢; rw [List.cons_append, List.cons.injEq] at h; rw [← h.1]
  · rw [if_neg hj] at h ⊢
    show k.lev l = s.jump
    cases hr : s.rest with
    | nil =>
      rw [hr] at h
      have := hn hr
      simp at h
      rw [← h.1]; omega
    | cons f o =>
      rw [hr] at h
      have := hh f o hr
      simp at h
      rw [← h.1]; exact this

theorem lit_ok {k : Kitten} {rev : List Nat} {s : Analysis} {lit : Nat} (hv : Vals k) (h : AInv k rev s)
    (hrev : rev.Nodup) (hsub : ∀ l ∈ rev, l ∈ k.trail)
    (hl : lit / 2 ∈ s.marks ∨ (k.values lit = -1 ∧ (k.lev lit < k.level ∨ neg lit ∈ rev))) :
    AInv k rev (Analysis.lit k s lit) ∧ lit / 2 ∈ (Analysis.lit k s lit).marks ∧
      (∀ v ∈ s.marks, v ∈ (Analysis.lit k s lit).marks) ∧ (Analysis.lit k s lit).resolved = s.resolved ∧
      (∀ v ∈ (Analysis.lit k s lit).marks, v ∈ s.marks ∨ v = lit / 2 ∧ (k.lev lit < k.level ∨ neg lit ∈ rev)) := by
  unfold Analysis.lit
  by_cases hm : lit / 2 ∈ s.marks
  · rw [if_pos hm]
    exact ⟨h, hm, fun v hv => hv, rfl, fun v hv => Or.inl hv⟩
  rw [if_neg hm]
  obtain ⟨hval, hpos⟩ := hl.resolve_left hm
  have hmarks : ∀ v ∈ s.marks ++ [lit / 2], v ∈ s.marks ∨ v = lit / 2 ∧ (k.lev lit < k.level ∨ neg lit ∈ rev) := by
    intro v hv'
    rcases List.mem_append.1 hv' with h' | h'
    · exact Or.inl h'
    · exact Or.inr ⟨by simpa using h', hpos⟩
  have htr : ∀ l ∈ rev, l / 2 = lit / 2 → l = neg lit := by
    intro l hl e
    rcases eq_or_eq_neg e with e | e
    · have := hv.tval l (hsub l hl); rw [e] at this; omega
    · exact e
  by_cases hlev : k.lev lit < k.level
  · simp only [if_pos hlev]
    generalize hs : ({ s with marks := s.marks ++ [lit / 2] } : Analysis) = s1
    have e1 : s1.marks = s.marks ++ [lit / 2] := by rw [← hs]
    have e2 : s1.rest = s.rest := by rw [← hs]
    have e3 : s1.opened = s.opened := by rw [← hs]
    have e4 : s1.jump = s.jump := by rw [← hs]
    have e5 : s1.resolved = s.resolved := by rw [← hs]
    have hp := push_rest s1 (k.lev lit) lit
    rw [e2] at hp
    refine ⟨⟨?_, ?_, ?_, ?_, ?_, ?_, ?_⟩, by simp [e1], fun v hv => by simp [e1, hv], by simp [e5], by
      rw [push_marks, e1]; exact hmarks⟩
    · intro v hv'
      rw [push_marks, e1] at hv'
      rcases List.mem_append.1 hv' with h' | h'
      · obtain ⟨l, g1, g2, g3⟩ := h.marked v h'
        exact ⟨l, g1, g2, fun hl => hp.mem_iff.2 (by simp [g3 hl])⟩
      · exact ⟨lit, (List.mem_singleton.1 h').symm, hval, fun _ => hp.mem_iff.2 (by simp)⟩
    · intro l hl
      rw [push_marks, e1, push_jump, e4]
      rcases List.mem_cons.1 (hp.mem_iff.1 hl) with rfl | hl
      · exact ⟨hval, hlev, by simp, by omega⟩
      · obtain ⟨g1, g2, g3, g4⟩ := h.rest l hl
        exact ⟨g1, g2, by simp [g3], by omega⟩
    · refine (hp.map (· / 2)).nodup_iff.2 ?_
      rw [List.map_cons]
      refine List.nodup_cons.2 ⟨fun hc => ?_, h.nodup⟩
      obtain ⟨l, hl, e⟩ := List.mem_map.1 hc
      exact hm (e ▸ (h.rest l hl).2.2.1)
    · rw [push_opened, push_marks, e1, e3, h.count]
      refine List.countP_congr fun l hl => ?_
      rw [openLit_iff, openLit_iff]
      constructor
      · rintro ⟨g1, g2⟩; exact ⟨by simp [g1], g2⟩
      · rintro ⟨g1, g2⟩
        rcases List.mem_append.1 g1 with g1 | g1
        · exact ⟨g1, g2⟩
        · have := htr l hl (by simpa using g1)
          rw [this, lev_neg] at g2
          omega
    · intro hc
      rw [hc] at hp
      exact absurd hp.symm.eq_nil (by simp)
    · exact push_head s1 k lit (by rw [e2, e4]; exact h.none) (by rw [e2, e4]; exact h.head)
    · rw [push_jump, e4]; have := h.jump; omega
  · simp only [if_neg hlev]
    have hrv : neg lit ∈ rev := hpos.resolve_left hlev
    have hle : k.lev lit = k.level := by
      have := hv.levle (neg lit) (hv.neg_true.2 hval)
      rw [lev_neg] at this
      omega
    refine ⟨⟨?_, ?_, h.nodup, ?_, h.none, h.head, h.jump⟩, by simp, fun v hv => by simp [hv], trivial, hmarks⟩
    · intro v hv'
      rcases List.mem_append.1 hv' with h' | h'
      · exact h.marked v h'
      · exact ⟨lit, (List.mem_singleton.1 h').symm, hval, fun hc => absurd hc hlev⟩
    · intro l hl
      obtain ⟨g1, g2, g3, g4⟩ := h.rest l hl
      exact ⟨g1, g2, by simp [g3], g4⟩
    · show s.opened + 1 = rev.countP (openLit k (s.marks ++ [lit / 2]))
      rw [h.count]
      refine (countP_insert hrev hrv ?_ ?_ fun y hy hne => ?_).symm
      · rw [Bool.eq_false_iff]
        intro hc
        have := (openLit_iff.1 hc).1
        rw [neg_div] at this
        exact hm this
      · rw [openLit_iff, neg_div, lev_neg]
        exact ⟨by simp, hle⟩
      · have hne' : y / 2 ≠ lit / 2 := fun e => hne (htr y hy e)
        unfold openLit
        simp [hne']

theorem lits_ok {k : Kitten} {rev : List Nat} (hv : Vals k) (hrev : rev.Nodup) (hsub : ∀ l ∈ rev, l ∈ k.trail) :
    ∀ (lits : List Nat) (s : Analysis), AInv k rev s →
    (∀ lit ∈ lits, lit / 2 ∈ s.marks ∨ (k.values lit = -1 ∧ (k.lev lit < k.level ∨ neg lit ∈ rev))) →
    AInv k rev (lits.foldl (Analysis.lit k) s) ∧ (∀ lit ∈ lits, lit / 2 ∈ (lits.foldl (Analysis.lit k) s).marks) ∧
      (∀ v ∈ s.marks, v ∈ (lits.foldl (Analysis.lit k) s).marks) ∧ (lits.foldl (Analysis.lit k) s).resolved = s.resolved ∧
      (∀ v ∈ (lits.foldl (Analysis.lit k) s).marks, v ∈ s.marks ∨
        ∃ lit, v = lit / 2 ∧ (k.lev lit < k.level ∨ neg lit ∈ rev)) := by
  intro lits
  induction lits with
  | nil => intro s h _; exact ⟨h, by simp, fun v hv => hv, rfl, fun v hv => Or.inl hv⟩
  | cons a lits ih =>
    intro s h hl
    obtain ⟨g1, g2, g3, g4, g5⟩ := lit_ok hv h hrev hsub (hl a (by simp))
    obtain ⟨q1, q2, q3, q4, q5⟩ := ih _ g1 (fun lit hlit => (hl lit (by simp [hlit])).imp (g3 _) id)
    rw [List.foldl_cons]
    refine ⟨q1, fun lit hlit => ?_, fun v hv' => q3 v (g3 v hv'), q4.trans g4, fun v hv' => ?_⟩
    · rcases List.mem_cons.1 hlit with rfl | hlit
      · exact q3 _ g2
      · exact q2 lit hlit
    · rcases q5 v hv' with h' | h'
      · rcases g5 v h' with h' | ⟨h1, h2⟩
        · exact Or.inl h'
        · exact Or.inr ⟨a, h1, h2⟩
      · exact Or.inr h'

theorem nextMarked_some {marks : List Nat} : ∀ {rev : List Nat}, (∃ l ∈ rev, l / 2 ∈ marks) →
    ∃ pre u rest, nextMarked marks rev = some (u, rest) ∧ rev = pre ++ u :: rest ∧ u / 2 ∈ marks ∧
      ∀ x ∈ pre, x / 2 ∉ marks := by
  intro rev
  induction rev with
  | nil => rintro ⟨l, hl, _⟩; cases hl
  | cons a rev ih =>
    rintro ⟨l, hl, hm⟩
    unfold nextMarked
    by_cases ha : a / 2 ∈ marks
    · rw [if_pos ha]
      exact ⟨[], a, rev, rfl, rfl, ha, by simp⟩
    · rw [if_neg ha]
      rcases List.mem_cons.1 hl with rfl | hl
      · exact absurd hm ha
      · obtain ⟨pre, u, rest, g1, g2, g3, g4⟩ := ih ⟨l, hl, hm⟩
        refine ⟨a :: pre, u, rest, g1, by rw [g2]; rfl, g3, fun x hx => ?_⟩
        rcases List.mem_cons.1 hx with rfl | hx
        · exact ha
        · exact g4 x hx

/-- What the resolved clauses guarantee. -/
structure Resolved (k : Kitten) (conflict : Nat) (rev : List Nat) (s : Analysis) (pending : List Nat) : Prop where
  conflict : conflict ∈ s.resolved ++ pending
  lits : ∀ r ∈ s.resolved, ∃ kl : Klause, k.klauses[r]? = some kl ∧ ∀ m ∈ kl.lits, m / 2 ∈ s.marks
  processed : ∀ l ∈ k.trail, l ∉ rev → l / 2 ∈ s.marks → k.lev l = k.level →
    ∃ r, k.why l = some r ∧ r ∈ s.resolved ++ pending

/-- What the analysis finds. -/
structure Learned (k : Kitten) (uip : Nat) (s : Analysis) : Prop where
  top : uip ∈ k.trail ∧ k.lev uip = k.level
  rest : ∀ l ∈ s.rest, k.values l = -1 ∧ k.lev l < k.level ∧ k.lev l ≤ s.jump
  nodup : (s.rest.map (· / 2)).Nodup
  none : s.rest = [] → s.jump = 0
  head : ∀ l ls, s.rest = l :: ls → k.lev l = s.jump
  jump : s.jump < k.level
  bound : ∀ r ∈ s.resolved, r < k.klauses.length
  rup : RUP (Fml k.klauses (· ∈ s.resolved)) (neg uip :: s.rest)

/-- The learned clause follows by unit propagation from the resolved clauses. -/
theorem learned_rup {k : Kitten} (h : Base k) (hlev : 0 < k.level) {conflict uip : Nat} {s : Analysis} {rev : List Nat}
    (ha : AInv k rev s) (hr : Resolved k conflict rev s []) (hone : ∀ l ∈ rev, openLit k s.marks l = true → l = uip)
    {kl : Klause} (hc : k.klauses[conflict]? = some kl) (hf : ∀ m ∈ kl.lits, k.values m = -1) :
    RUP (Fml k.klauses (· ∈ s.resolved)) (neg uip :: s.rest) := by
  have low : ∀ l, k.values l = 1 → l / 2 ∈ s.marks → k.lev l < k.level →
      UP (Fml k.klauses (· ∈ s.resolved)) (fun l => neg l ∈ neg uip :: s.rest) l := by
    intro l hv hm hl
    obtain ⟨m, g1, g2, g3⟩ := ha.marked _ hm
    rcases eq_or_eq_neg g1 with e | e
    · rw [e] at g2; omega
    · rw [e, lev_neg] at g3
      exact .assumed (List.mem_cons_of_mem _ (g3 hl))
  have high : ∀ n a l b, a.length = n → k.trail = a ++ l :: b → l / 2 ∈ s.marks →
      UP (Fml k.klauses (· ∈ s.resolved)) (fun l => neg l ∈ neg uip :: s.rest) l := by
    intro n
    induction n using Nat.strongRecOn with
    | ind n ih =>
      intro a l b hn ht hm
      have hmem : l ∈ k.trail := by rw [ht]; simp
      have hval := h.vals.tval l hmem
      by_cases hl : k.lev l < k.level
      · exact low l hval hm hl
      · have hl : k.lev l = k.level := by have := h.vals.levle l hval; omega
        by_cases hin : l ∈ rev
        · have := hone l hin (openLit_iff.2 ⟨hm, hl⟩)
          rw [this]
          exact .assumed List.mem_cons_self
        · obtain ⟨r, g1, g2⟩ := hr.processed l hmem hin hm hl
          rw [List.append_nil] at g2
          obtain ⟨kl', q1, q2⟩ := hr.lits r g2
          obtain ⟨kl'', p1, p2, p3⟩ := h.why.reason a l b r ht (by omega) g1
          rw [q1] at p1
          cases p1
          refine .unit ⟨r, kl', g2, q1, rfl⟩ p2 fun m hm' hne => ?_
          obtain ⟨v1, v2⟩ := p3 m hm' hne
          have hmk : neg m / 2 ∈ s.marks := by rw [neg_div]; exact q2 m hm'
          rcases v2 with v2 | v2
          · exact low _ (h.vals.neg_true.2 v1) hmk (by rw [lev_neg]; omega)
          · obtain ⟨a1, a2, e⟩ := List.append_of_mem v2
            exact ih a1.length (by rw [← hn, e]; simp) a1 (neg m) (a2 ++ l :: b) rfl (by rw [ht, e]; simp) hmk
  have hcr : conflict ∈ s.resolved := by have := hr.conflict; rwa [List.append_nil] at this
  refine Or.inl ⟨kl.lits, ⟨conflict, kl, hcr, hc, rfl⟩, fun m hm => ?_⟩
  obtain ⟨kl', q1, q2⟩ := hr.lits conflict hcr
  rw [hc] at q1
  cases q1
  have hmk : neg m / 2 ∈ s.marks := by rw [neg_div]; exact q2 m hm
  have hv1 := h.vals.neg_true.2 (hf m hm)
  by_cases hin : neg m ∈ k.trail
  · obtain ⟨a1, a2, e⟩ := List.append_of_mem hin
    exact high a1.length a1 (neg m) a2 rfl e hmk
  · exact low _ hv1 hmk (by rw [h.vals.flushed _ hv1 hin]; exact hlev)

theorem analyzeLoop_ok {k : Kitten} (h : Base k) (hlev : 0 < k.level) {conflict : Nat} {ckl : Klause}
    (hc : k.klauses[conflict]? = some ckl) (hf : ∀ m ∈ ckl.lits, k.values m = -1) :
    ∀ (n : Nat) (ref : Nat) (rev done : List Nat) (s : Analysis), rev.length < n → k.trail.reverse = done ++ rev →
      AInv k rev s → Resolved k conflict rev s [ref] → (∃ l, l / 2 ∈ s.marks ∧ l ∈ rev ∧ k.lev l = k.level) ∨ ref = conflict ∧
        (∃ m ∈ ckl.lits, k.lev m = k.level) ∧ rev = k.trail.reverse →
      (∃ kl : Klause, k.klauses[ref]? = some kl ∧ ∀ m ∈ kl.lits, m / 2 ∈ s.marks ∨
        (k.values m = -1 ∧ (k.lev m < k.level ∨ neg m ∈ rev))) →
      ∃ uip s', k.analyzeLoop n ref rev s = some (uip, s') ∧ Learned k uip s' := by
  intro n
  induction n with
  | zero => intro _ rev _ _ hn; omega
  | succ n ih =>
    intro ref rev done s hn ht ha hr hopen hkl
    have hnd : rev.Nodup := by
      have := h.vals.nodup
      rw [← (List.reverse_perm k.trail).nodup_iff, ht] at this
      exact (List.nodup_append.1 this).2.1
    have hsub : ∀ l ∈ rev, l ∈ k.trail := fun l hl => by
      rw [← List.mem_reverse, ht]; simp [hl]
    obtain ⟨kl, hk, hlits⟩ := hkl
    have ha0 : AInv k rev { s with resolved := s.resolved ++ [ref] } :=
      ⟨ha.marked, ha.rest, ha.nodup, ha.count, ha.none, ha.head, ha.jump⟩
    obtain ⟨g1, g2, g3, g4, g5⟩ := lits_ok h.vals hnd hsub kl.lits _ ha0 hlits
    unfold Kitten.analyzeLoop
    rw [hk]
    simp only
    generalize kl.lits.foldl (Analysis.lit k) { s with resolved := s.resolved ++ [ref] } = s' at g1 g2 g3 g4 g5 ⊢
    simp only at g3 g4 g5
    have hres : Resolved k conflict rev s' [] := by
      refine ⟨?_, ?_, ?_⟩
      · rw [List.append_nil, g4]; exact hr.conflict
      · intro r hr'
        rw [g4] at hr'
        rcases List.mem_append.1 hr' with h' | h'
        · obtain ⟨kl', q1, q2⟩ := hr.lits r h'
          exact ⟨kl', q1, fun m hm => g3 _ (q2 m hm)⟩
        · have : r = ref := by simpa using h'
          subst this
          exact ⟨kl, hk, g2⟩
      · intro l hl hnr hm hle
        rw [List.append_nil, g4]
        rcases g5 _ hm with h' | ⟨lit, e, h'⟩
        · exact hr.processed l hl hnr h' hle
        · exfalso
          rcases h' with h' | h'
          · have : k.lev l = k.lev lit := by unfold Kitten.lev; rw [e]
            omega
          · have h1 := h.vals.tval l hl
            have h2 := h.vals.tval _ (hsub _ h')
            rcases eq_or_eq_neg e with e | e
            · rw [h.vals.anti, ← e] at h2; omega
            · rw [← e] at h'; exact hnr h'
    have hopen' : ∃ l ∈ rev, openLit k s'.marks l = true := by
      rcases hopen with ⟨l, q1, q2, q3⟩ | ⟨rfl, ⟨m, q1, q2⟩, q3⟩
      · exact ⟨l, q2, openLit_iff.2 ⟨g3 _ q1, q3⟩⟩
      · rw [hk] at hc
        cases hc
        have hv1 := h.vals.neg_true.2 (hf m q1)
        refine ⟨neg m, ?_, openLit_iff.2 ⟨by rw [neg_div]; exact g2 m q1, by rw [lev_neg]; exact q2⟩⟩
        rw [q3, List.mem_reverse]
        apply Classical.byContradiction
        intro hn'
        have := h.vals.flushed _ hv1 hn'
        rw [lev_neg] at this
        omega
    obtain ⟨l, hl, hlo⟩ := hopen'
    obtain ⟨hlm, hll⟩ := openLit_iff.1 hlo
    obtain ⟨pre, u, rest, e1, e2, e3, e4⟩ := nextMarked_some (marks := s'.marks) ⟨l, hl, hlm⟩
    rw [e1]
    simp only
    have hlin : l = u ∨ l ∈ rest := by
      rw [e2] at hl
      rcases List.mem_append.1 hl with h' | h'
      · exact absurd hlm (e4 l h')
      · exact List.mem_cons.1 h'
    have hsorted : rev.Pairwise fun a b => k.lev b ≤ k.lev a := by
      have := List.pairwise_reverse.2 h.vals.sorted
      rw [ht] at this
      exact (List.pairwise_append.1 this).2.1
    have hut : u ∈ k.trail := hsub u (by rw [e2]; simp)
    have hul : k.lev u = k.level := by
      rcases hlin with rfl | h'
      · exact hll
      · rw [e2] at hsorted
        have := (List.pairwise_cons.1 (List.pairwise_append.1 hsorted).2.1).1 l h'
        have := h.vals.levle u (h.vals.tval u hut)
        omega
    have hcount : s'.opened = rest.countP (openLit k s'.marks) + 1 := by
      rw [g1.count, e2, List.countP_append, List.countP_cons]
      have h0 : pre.countP (openLit k s'.marks) = 0 := by
        rw [List.countP_eq_zero]
        intro x hx hc'
        exact e4 x hx (openLit_iff.1 hc').1
      have h1 : openLit k s'.marks u = true := openLit_iff.2 ⟨e3, hul⟩
      rw [h0, h1]
      simp
    rw [if_neg (by omega)]
    by_cases hone : s'.opened = 1
    · rw [if_pos hone]
      refine ⟨u, s', rfl, ⟨hut, hul⟩, fun l hl => ?_, g1.nodup, g1.none, g1.head, g1.jump, fun r hr' => ?_, ?_⟩
      · obtain ⟨q1, q2, _, q4⟩ := g1.rest l hl; exact ⟨q1, q2, q4⟩
      · obtain ⟨kl', q1, _⟩ := hres.lits r hr'
        exact lt_of_get q1
      · refine learned_rup h hlev g1 hres (fun x hx hxo => ?_) hc hf
        rw [e2] at hx
        rcases List.mem_append.1 hx with h' | h'
        · exact absurd (openLit_iff.1 hxo).1 (e4 x h')
        · rcases List.mem_cons.1 h' with h' | h'
          · exact h'
          · have : 0 < rest.countP (openLit k s'.marks) := List.countP_pos_iff.2 ⟨x, h', hxo⟩
            omega
    · rw [if_neg hone]
      have hpos : 0 < rest.countP (openLit k s'.marks) := by omega
      obtain ⟨x, hx, hxo⟩ := List.countP_pos_iff.1 hpos
      have htrail : k.trail = rest.reverse ++ u :: (done ++ pre).reverse := by
        have : k.trail.reverse = (done ++ pre) ++ u :: rest := by rw [ht, e2]; simp
        rw [← List.reverse_reverse k.trail, this]
        simp
      cases hwhy : k.why u with
      | none =>
        have := h.why.first _ u _ htrail hwhy x (List.mem_reverse.2 hx)
        have := (openLit_iff.1 hxo).2
        omega
      | some ref' =>
        simp only
        obtain ⟨kl', p1, p2, p3⟩ := h.why.reason _ u _ ref' htrail (by omega) hwhy
        refine ih ref' rest (done ++ pre ++ [u]) { s' with opened := s'.opened - 1 } ?_ ?_ ?_ ?_ ?_ ?_
        · rw [e2] at hn; simp at hn; omega
        · rw [ht, e2]; simp
        · exact ⟨g1.marked, g1.rest, g1.nodup, by show s'.opened - 1 = _; rw [hcount]; simp, g1.none, g1.head, g1.jump⟩
        · refine ⟨?_, hres.lits, fun y hy hny hym hyl => ?_⟩
          · have := hres.conflict
            rw [List.append_nil] at this
            exact List.mem_append_left _ this
          · by_cases hyr : y ∈ rev
            · rw [e2] at hyr
              rcases List.mem_append.1 hyr with h' | h'
              · exact absurd hym (e4 y h')
              · rcases List.mem_cons.1 h' with rfl | h'
                · exact ⟨ref', hwhy, by simp⟩
                · exact absurd h' hny
            · obtain ⟨r, q1, q2⟩ := hres.processed y hy hyr hym hyl
              rw [List.append_nil] at q2
              exact ⟨r, q1, List.mem_append_left _ q2⟩
        · exact Or.inl ⟨x, (openLit_iff.1 hxo).1, hx, (openLit_iff.1 hxo).2⟩
        · refine ⟨kl', p1, fun m hm => ?_⟩
          by_cases hmu : m = u
          · rw [hmu]; exact Or.inl e3
          · obtain ⟨v1, v2⟩ := p3 m hm hmu
            refine Or.inr ⟨v1, ?_⟩
            rcases v2 with v2 | v2
            · exact Or.inl (by omega)
            · exact Or.inr (List.mem_reverse.1 v2)

end Verif.Kitten
